import Verif.Unwind.Model
import Verif.HashTable.Facts

/-! `HashTable::clear` and `drop` with panicking destructors. -/

set_option autoImplicit false

namespace Verif
open Spec

variable {K V σ : Type}

namespace HTable

/-- `free_bucket` (src/internal/hash_table/mod.rs:322-332) for keys and values one of whose
destructors panics if `bad`: the node is not freed, nor are those before it in the chain.  The drop
glue of the node drops the value although the key panicked.  Simplified: not both panic (that
aborts). -/
def freeBucketP (E : HEnv K V σ) (bad : K → V → Bool) :
    Nat → Nat → σ → HMem K V → Exec (Ends (σ × HMem K V))
  | 0, _, _, _ => .error .ub
  | fuel + 1, p, a, m => do
    let c ← m.node p
    match ← (if c.next = 0 then .ok (.returns (a, m)) else freeBucketP E bad fuel c.next a m) with
    | .returns (a, m) => do
      let c ← m.node p
      let m := (m.dropKey E c.key).dropVal E c.val
      if bad c.key c.val then .ok (.unwinds (a, m))
      else do
        let (a, n) ← E.A.dealloc p E.size E.align a m.n
        .ok (.returns (a, { m with n := n }))
    | r => .ok r

/-- The loop of `free_buckets` (src/internal/hash_table/mod.rs:342-344) with panicking
destructors. -/
def freeChainsP (E : HEnv K V σ) (bad : K → V → Bool) (fuel : Nat) :
    Ptr → Nat → σ → HMem K V → Exec (Ends (σ × HMem K V))
  | _, 0, a, m => .ok (.returns (a, m))
  | p, n + 1, a, m => do
    let h ← m.b.read p
    match ← (if h = 0 then .ok (.returns (a, m)) else freeBucketP E bad fuel h a m) with
    | .returns (a, m) => freeChainsP E bad fuel p.next n a m
    | r => .ok r

/-- `clear` (src/internal/hash_table/mod.rs:63-66, 335-348) with panicking destructors; `drop`
(431-435) does the same but for the count.  A panic leaves the buckets as they are. -/
def clearP (E : HEnv K V σ) (bad : K → V → Bool) (t : HTable σ) (m : HMem K V) :
    Exec (Ends (HTable σ × HMem K V)) :=
  if 1 < t.bucketCount then do
    match ← freeChainsP E bad (t.count + 1) t.buckets t.bucketCount t.al m with
    | .returns (a, m) => do
      let m ← fillNull E t.buckets t.bucketCount m
      .ok (.returns ({ t with al := a, count := 0 }, m))
    | .unwinds (a, m) => .ok (.unwinds ({ t with al := a }, m))
    | .aborts => .ok .aborts
  else .ok (.returns ({ t with count := 0 }, m))

end HTable

variable {E : HEnv K V σ} {Inv : σ → HNMem K V → List Nat → Prop} {bad : K → V → Bool}

theorem freeBucketP_ok (L : HLaw E Inv) : ∀ {ns : List (Nat × K × V)} {fuel : Nat} {a : σ}
    {m : HMem K V} {ps : List Nat}, (∀ n ∈ ns, bad n.2.1 n.2.2 = false) → HSeg m.n ns 0 → ns ≠ [] →
    (ns.map Prod.fst).Nodup → ns.length < fuel + 1 → Inv a m.n (ns.map Prod.fst ++ ps) →
    ∃ a' m', HTable.freeBucketP E bad fuel (nextOf ns 0) a m = .ok (.returns (a', m')) ∧
      HTable.freeBucket E fuel (nextOf ns 0) a m = .ok (a', m') ∧
      Inv a' m'.n ps ∧ m'.b = m.b ∧ (∀ q ∈ ns.map Prod.fst, m'.n.node q = none) ∧
      (∀ q, q ∉ ns.map Prod.fst → m'.n.node q = m.n.node q) ∧
      m'.n.dropped = m.n.dropped ++ (parts ns.reverse).filter E.needs := by
  intro ns
  induction ns with
  | nil => intro _ _ _ _ _ _ h; exact absurd rfl h
  | cons n ns ih =>
    intro fuel a m ps hb h _ hnd hf hi
    obtain ⟨f, rfl⟩ : ∃ f, fuel = f + 1 := ⟨fuel - 1, by simp at hf; omega⟩
    have hnode := (HSeg.node (a := []) h).2
    rw [List.map_cons, List.nodup_cons] at hnd
    have hrest : ∃ a1 m1, (if nextOf ns 0 = 0 then .ok (.returns (a, m))
          else HTable.freeBucketP E bad f (nextOf ns 0) a m) = .ok (.returns (a1, m1)) ∧
        (if nextOf ns 0 = 0 then .ok (a, m)
          else HTable.freeBucket E f (nextOf ns 0) a m) = .ok (a1, m1) ∧
        Inv a1 m1.n (n.1 :: ps) ∧ m1.b = m.b ∧ (∀ q ∈ ns.map Prod.fst, m1.n.node q = none) ∧
        (∀ q, q ∉ ns.map Prod.fst → m1.n.node q = m.n.node q) ∧
        m1.n.dropped = m.n.dropped ++ (parts ns.reverse).filter E.needs := by
      by_cases hns : ns = []
      · subst hns
        exact ⟨a, m, by simp, by simp, by simpa using hi, rfl, by simp, fun _ _ => rfl,
          by simp [parts]⟩
      · have h0 : nextOf ns 0 ≠ 0 := fun e => hns (h.2.2.nextOf_ne.1 e)
        rw [if_neg h0, if_neg h0]
        exact ih (fun x hx => hb x (by simp [hx])) h.2.2 hns hnd.2 (by simp at hf; omega)
          (L.perm hi (by
            rw [List.map_cons, List.cons_append]
            exact List.perm_middle.symm))
    obtain ⟨a1, m1, e1, e1', e2, e3, e4', e4, e5⟩ := hrest
    have hnode1 : m1.node n.1 = .ok ⟨n.2.1, n.2.2, nextOf ns 0⟩ := by
      simp only [HMem.node, NMem.get, e4 _ hnd.1] at hnode ⊢
      exact hnode
    obtain ⟨d1, d2, d3, d4, d5⟩ := drops_ok (E := E) m1 n.2.1 n.2.2
    obtain ⟨a2, m2, f1, f2, f3, f4⟩ := L.dealloc (p := n.1)
      (L.frame (m' := ((m1.dropKey E n.2.1).dropVal E n.2.2).n) e2
        (fun q => by rw [d2]) d3 d4) (by simp)
    refine ⟨a2, { (m1.dropKey E n.2.1).dropVal E n.2.2 with n := m2 }, ?_, ?_, by simpa using f4,
      by simp only; rw [d1, e3], ?_, ?_, ?_⟩
    · simp only [HTable.freeBucketP, nextOf_cons, hnode, Exec.ok_bind, e1, hnode1, f1,
        hb n (by simp), Bool.false_eq_true, if_false]
    · simp only [HTable.freeBucket, nextOf_cons, hnode, Exec.ok_bind, e1', hnode1, f1]
    · intro q hq
      simp only [f2, d2]
      by_cases hqn : q = n.1
      · subst hqn; simp
      · rw [Function.update_of_ne hqn]
        exact e4' q (by simpa [hqn] using hq)
    · intro q hq
      simp only [List.map_cons, List.mem_cons, not_or] at hq
      simp only [f2, d2, Function.update_of_ne hq.1, e4 q hq.2]
    · simp only [f3, d5, e5]
      rw [List.append_assoc, List.reverse_cons, parts_append, List.filter_append]
      rfl

theorem freeBucketP_boom (L : HLaw E Inv) {x : Nat × K × V} {B : List (Nat × K × V)}
    (hx : bad x.2.1 x.2.2 = true) (hB : ∀ n ∈ B, bad n.2.1 n.2.2 = false) :
    ∀ {A : List (Nat × K × V)} {fuel : Nat} {a : σ} {m : HMem K V} {ps : List Nat},
    HSeg m.n (A ++ x :: B) 0 → ((A ++ x :: B).map Prod.fst).Nodup →
    (A ++ x :: B).length < fuel + 1 → Inv a m.n ((A ++ x :: B).map Prod.fst ++ ps) →
    ∃ a' m', HTable.freeBucketP E bad fuel (nextOf (A ++ x :: B) 0) a m =
        .ok (.unwinds (a', m')) ∧ m'.b = m.b ∧
      (∀ q ∈ B.map Prod.fst, m'.n.node q = none) ∧
      (∀ q, q ∉ B.map Prod.fst → m'.n.node q = m.n.node q) ∧
      m'.n.dropped = m.n.dropped ++ (parts (B.reverse ++ [x])).filter E.needs := by
  intro A
  induction A with
  | nil =>
    intro fuel a m ps h hnd hf hi
    obtain ⟨f, rfl⟩ : ∃ f, fuel = f + 1 := ⟨fuel - 1, by simp at hf; omega⟩
    simp only [List.nil_append] at h hnd hf hi ⊢
    have hnode := (HSeg.node (a := []) h).2
    rw [List.map_cons, List.nodup_cons] at hnd
    have hrest : ∃ a1 m1, (if nextOf B 0 = 0 then .ok (.returns (a, m))
          else HTable.freeBucketP E bad f (nextOf B 0) a m) = .ok (.returns (a1, m1)) ∧
        m1.b = m.b ∧ (∀ q ∈ B.map Prod.fst, m1.n.node q = none) ∧
        (∀ q, q ∉ B.map Prod.fst → m1.n.node q = m.n.node q) ∧
        m1.n.dropped = m.n.dropped ++ (parts B.reverse).filter E.needs := by
      by_cases hns : B = []
      · subst hns
        exact ⟨a, m, by simp, rfl, by simp, fun _ _ => rfl, by simp [parts]⟩
      · have h0 : nextOf B 0 ≠ 0 := fun e => hns (h.2.2.nextOf_ne.1 e)
        rw [if_neg h0]
        obtain ⟨a1, m1, e1, _, _, e2, e3, e4, e5⟩ := freeBucketP_ok L (fuel := f) (ps := x.1 :: ps) hB h.2.2 hns
          hnd.2 (by simp at hf; omega) (L.perm hi (by
            rw [List.map_cons, List.cons_append]
            exact List.perm_middle.symm))
        exact ⟨a1, m1, e1, e2, e3, e4, e5⟩
    obtain ⟨a1, m1, e1, e3, e4', e4, e5⟩ := hrest
    have hnode1 : m1.node x.1 = .ok ⟨x.2.1, x.2.2, nextOf B 0⟩ := by
      simp only [HMem.node, NMem.get, e4 _ hnd.1] at hnode ⊢
      exact hnode
    obtain ⟨d1, d2, d3, d4, d5⟩ := drops_ok (E := E) m1 x.2.1 x.2.2
    refine ⟨a1, (m1.dropKey E x.2.1).dropVal E x.2.2, ?_, by rw [d1, e3], ?_, ?_, ?_⟩
    · simp only [HTable.freeBucketP, nextOf_cons, hnode, Exec.ok_bind, e1, hnode1, hx, if_true]
    · intro q hq; rw [d2, e4' q hq]
    · intro q hq; rw [d2, e4 q hq]
    · rw [d5, e5, List.append_assoc, parts_append, List.filter_append]
      rfl
  | cons n A ih =>
    intro fuel a m ps h hnd hf hi
    obtain ⟨f, rfl⟩ : ∃ f, fuel = f + 1 := ⟨fuel - 1, by simp at hf; omega⟩
    simp only [List.cons_append] at h hnd hf hi ⊢
    have hnode := (HSeg.node (a := []) h).2
    rw [List.map_cons, List.nodup_cons] at hnd
    have h0 : nextOf (A ++ x :: B) 0 ≠ 0 := fun e => by
      have := h.2.2.nextOf_ne.1 e
      simp at this
    obtain ⟨a1, m1, e1, e2, e3, e4, e5⟩ := ih (fuel := f) (ps := n.1 :: ps) h.2.2 hnd.2
      (by simp at hf ⊢; omega) (L.perm hi (by
            rw [List.map_cons, List.cons_append]
            exact List.perm_middle.symm))
    refine ⟨a1, m1, ?_, e2, e3, e4, e5⟩
    simp only [HTable.freeBucketP, nextOf_cons, hnode, Exec.ok_bind, if_neg h0, e1]

theorem freeBucketP_dead {q : Nat} (hq : q ≠ 0) : ∀ {A : List (Nat × K × V)} {fuel : Nat} {a : σ}
    {m : HMem K V}, HSeg m.n A q → m.n.node q = none →
    HTable.freeBucketP E bad fuel (nextOf A q) a m = .error .ub := by
  intro A
  induction A with
  | nil =>
    intro fuel a m _ hd
    cases fuel with
    | zero => rfl
    | succ f => simp [HTable.freeBucketP, HMem.node, NMem.get, hd]
  | cons n A ih =>
    intro fuel a m h hd
    cases fuel with
    | zero => rfl
    | succ f =>
      have hnode := (HSeg.node (a := []) h).2
      have h0 : nextOf A q ≠ 0 := by
        cases A with
        | nil => exact hq
        | cons y A => exact h.2.2.1
      simp only [HTable.freeBucketP, nextOf_cons, hnode, Exec.ok_bind, if_neg h0, ih h.2.2 hd,
        Exec.error_bind]

/-- The order in which `free_buckets` visits entries, split at one of them. -/
theorem order_split {n : Nat × K × V} : ∀ {cs : List (List (Nat × K × V))}
    {pre post : List (Nat × K × V)}, (cs.map List.reverse).flatten = pre ++ n :: post →
    ∃ Cs A B Ds, cs = Cs ++ (A ++ n :: B) :: Ds ∧ pre = (Cs.map List.reverse).flatten ++ B.reverse := by
  intro cs
  induction cs with
  | nil => intro pre post h; simp at h
  | cons c cs ih =>
    intro pre post h
    rw [List.map_cons, List.flatten_cons, List.append_eq_append_iff] at h
    rcases h with ⟨as, h1, h2⟩ | ⟨bs, h1, h2⟩
    · obtain ⟨Cs, A, B, Ds, rfl, rfl⟩ := ih h2
      exact ⟨c :: Cs, A, B, Ds, rfl, by rw [h1]; simp⟩
    · cases bs with
      | nil =>
        rw [List.nil_append] at h2
        obtain ⟨Cs, A, B, Ds, rfl, h3⟩ := ih (pre := []) h2.symm
        refine ⟨c :: Cs, A, B, Ds, rfl, ?_⟩
        rw [List.append_nil] at h1
        rw [List.map_cons, List.flatten_cons, List.append_assoc, ← h3, h1, List.append_nil]
      | cons y bs =>
        rw [List.cons_append, List.cons.injEq] at h2
        obtain ⟨rfl, rfl⟩ := h2
        refine ⟨[], bs.reverse, pre.reverse, cs, ?_, by simp⟩
        have := congrArg List.reverse h1
        simp only [List.reverse_reverse, List.reverse_append, List.reverse_cons,
          List.append_assoc, List.singleton_append] at this
        rw [this]; rfl

theorem freeChainsP_boom (L : HLaw E Inv) {fuel b : Nat} {post : List Nat} {x : Nat × K × V}
    {A B : List (Nat × K × V)} {Ds : List (List (Nat × K × V))}
    (hx : bad x.2.1 x.2.2 = true) (hB : ∀ n ∈ B, bad n.2.1 n.2.2 = false) :
    ∀ {Cs : List (List (Nat × K × V))} {a : σ} {m : HMem K V} {ps pre : List Nat},
    (∀ c ∈ Cs, ∀ n ∈ c, bad n.2.1 n.2.2 = false) →
    (∀ c ∈ Cs ++ (A ++ x :: B) :: Ds, HSeg m.n c 0) →
    ((Cs ++ (A ++ x :: B) :: Ds).flatten.map Prod.fst).Nodup →
    (Cs ++ (A ++ x :: B) :: Ds).flatten.length < fuel →
    Inv a m.n ((Cs ++ (A ++ x :: B) :: Ds).flatten.map Prod.fst ++ ps) →
    ArrIs m.b b (pre ++ (Cs ++ (A ++ x :: B) :: Ds).map (fun c => nextOf c 0) ++ post) →
    ∃ a' m', HTable.freeChainsP E bad fuel (.loc b pre.length)
        (Cs ++ (A ++ x :: B) :: Ds).length a m = .ok (.unwinds (a', m')) ∧ m'.b = m.b ∧
      (∀ q ∈ (Cs.flatten ++ B).map Prod.fst, m'.n.node q = none) ∧
      (∀ q, q ∉ (Cs.flatten ++ B).map Prod.fst → m'.n.node q = m.n.node q) ∧
      m'.n.dropped = m.n.dropped ++
        (parts ((Cs.map List.reverse).flatten ++ (B.reverse ++ [x]))).filter E.needs := by
  intro Cs
  induction Cs with
  | nil =>
    intro a m ps pre _ hcs hnd hf hi ha
    have hc := hcs (A ++ x :: B) (by simp)
    have hr : m.b.read (.loc b pre.length) = .ok (nextOf (A ++ x :: B) 0) := ha.read (by simp)
    have h0 : nextOf (A ++ x :: B) 0 ≠ 0 := fun e => by
      have := hc.nextOf_ne.1 e
      simp at this
    simp only [List.nil_append, List.flatten_cons, List.map_append, List.append_assoc] at hnd hi hf
    obtain ⟨a1, m1, e1, e2, e3, e4, e5⟩ := freeBucketP_boom L (fuel := fuel) (a := a)
      (ps := Ds.flatten.map Prod.fst ++ ps) hx hB hc
      (by
        rw [List.map_append]
        rw [← List.append_assoc] at hnd
        exact (List.nodup_append.1 hnd).1)
      (by simp at hf ⊢; omega) (by simpa using hi)
    refine ⟨a1, m1, ?_, e2, by simpa using e3, by simpa using e4, by simpa using e5⟩
    simp only [List.nil_append, List.length_cons, HTable.freeChainsP, hr, Exec.ok_bind, if_neg h0,
      e1]
  | cons c Cs ih =>
    intro a m ps pre hb hcs hnd hf hi ha
    have hr : m.b.read (.loc b pre.length) = .ok (nextOf c 0) := ha.read (by simp)
    have hc := hcs c (by simp)
    rw [List.cons_append, List.flatten_cons, List.map_append, List.nodup_append] at hnd
    rw [List.cons_append, List.flatten_cons, List.map_append, List.append_assoc] at hi
    rw [List.cons_append, List.flatten_cons, List.length_append] at hf
    have h1 : ∃ a1 m1, (if nextOf c 0 = 0 then .ok (.returns (a, m))
          else HTable.freeBucketP E bad fuel (nextOf c 0) a m) = .ok (.returns (a1, m1)) ∧
        Inv a1 m1.n ((Cs ++ (A ++ x :: B) :: Ds).flatten.map Prod.fst ++ ps) ∧ m1.b = m.b ∧
        (∀ q ∈ c.map Prod.fst, m1.n.node q = none) ∧
        (∀ q, q ∉ c.map Prod.fst → m1.n.node q = m.n.node q) ∧
        m1.n.dropped = m.n.dropped ++ (parts c.reverse).filter E.needs := by
      by_cases hc0 : c = []
      · subst hc0
        exact ⟨a, m, by simp, by simpa using hi, rfl, by simp, fun _ _ => rfl, by simp [parts]⟩
      · rw [if_neg (fun e => hc0 (hc.nextOf_ne.1 e))]
        obtain ⟨a1, m1, e1, _, e2, e3, e4, e5, e6⟩ := freeBucketP_ok L (fuel := fuel)
          (fun n hn => hb c (by simp) n hn) hc hc0 hnd.1 (by omega) hi
        exact ⟨a1, m1, e1, e2, e3, e4, e5, e6⟩
    obtain ⟨a1, m1, e1, e2, e3, e4', e4, e5⟩ := h1
    obtain ⟨a2, m2, f1, f3, f4', f4, f5⟩ := ih (a := a1) (m := m1) (ps := ps)
      (pre := pre ++ [nextOf c 0]) (fun d hd => hb d (by simp [hd])) (by
        intro d hd
        refine (hcs d (by simp only [List.cons_append, List.mem_cons]; exact .inr hd)).frame
          fun y hy => e4 y.1 ?_
        intro hm
        exact hnd.2.2 y.1 hm y.1 (List.mem_map_of_mem (List.mem_flatten.2 ⟨d, hd, hy⟩)) rfl)
      hnd.2.1 (by omega) e2 (by rw [e3]; simpa using ha)
    refine ⟨a2, m2, ?_, by rw [f3, e3], ?_, ?_, ?_⟩
    · rw [List.length_append, List.length_singleton] at f1
      simp only [List.cons_append, HTable.freeChainsP, List.length_cons, hr, Exec.ok_bind, e1,
        Ptr.next, f1]
    · intro q hq
      by_cases hm : q ∈ (Cs.flatten ++ B).map Prod.fst
      · exact f4' q hm
      · rw [f4 q hm]
        apply e4'
        simp only [List.flatten_cons, List.append_assoc, List.map_append, List.mem_append] at hq hm
        tauto
    · intro q hq
      simp only [List.flatten_cons, List.append_assoc, List.map_append, List.mem_append,
        not_or] at hq
      rw [f4 q (by simp only [List.map_append, List.mem_append, not_or]; tauto), e4 q hq.1]
    · rw [f5, e5, List.append_assoc, ← List.filter_append, ← parts_append]
      simp only [List.map_cons, List.flatten_cons, List.append_assoc]

theorem freeChainsP_dead {fuel b q : Nat} {post : List Nat} {A B : List (Nat × K × V)}
    {Ds : List (List (Nat × K × V))} {a : σ} {m : HMem K V} :
    ∀ {Cs : List (List (Nat × K × V))} {pre : List Nat},
    (∀ c ∈ Cs, ∀ n ∈ c, n.1 ≠ 0 ∧ m.n.node n.1 = none) →
    (Cs.flatten ≠ [] ∨ HSeg m.n A q ∧ q ≠ 0 ∧ m.n.node q = none ∧ nextOf B 0 = nextOf A q) →
    nextOf B 0 ≠ 0 →
    ArrIs m.b b (pre ++ (Cs ++ B :: Ds).map (fun c => nextOf c 0) ++ post) →
    HTable.freeChainsP E bad fuel (.loc b pre.length) (Cs ++ B :: Ds).length a m = .error .ub := by
  intro Cs
  induction Cs with
  | nil =>
    intro pre _ h hB ha
    obtain ⟨h1, h2, h3, h4⟩ := h.resolve_left (by simp)
    have hr : m.b.read (.loc b pre.length) = .ok (nextOf B 0) := ha.read (by simp)
    simp only [List.nil_append, List.length_cons, HTable.freeChainsP, hr, Exec.ok_bind, if_neg hB]
    rw [h4, freeBucketP_dead h2 h1 h3, Exec.error_bind]
  | cons c Cs ih =>
    intro pre hC h hB ha
    have hr : m.b.read (.loc b pre.length) = .ok (nextOf c 0) := ha.read (by simp)
    cases c with
    | nil =>
      have := ih (pre := pre ++ [0]) (fun d hd => hC d (by simp [hd])) (by simpa using h) hB
        (by simpa using ha)
      rw [List.length_append, List.length_singleton] at this
      simp only [List.cons_append, List.length_cons, HTable.freeChainsP, hr, Exec.ok_bind,
        nextOf_nil, if_true, Ptr.next, this]
    | cons n c =>
      obtain ⟨h1, h2⟩ := hC (n :: c) (by simp) n (by simp)
      have := freeBucketP_dead (E := E) (bad := bad) (A := ([] : List (Nat × K × V))) (fuel := fuel)
        (a := a) h1 trivial h2
      rw [nextOf_nil] at this
      simp only [List.cons_append, List.length_cons, HTable.freeChainsP, hr, Exec.ok_bind,
        nextOf_cons, if_neg h1, this, Exec.error_bind]

variable {ok : Prop} {w : World Nat} {wn : Nat → Option (Option (HCell K V))} {m : HMem K V}
  {t : HTable σ} {bl : List Nat} {cs : List (List (Nat × K × V))} {peak : Nat}

theorem HRep.many (h : HRep ok E Inv w wn m t peak bl cs) (hne : cs.flatten ≠ []) :
    1 < t.bucketCount := by
  by_contra h1
  have hbc : t.bucketCount = 1 := by have := h.core.pos; omega
  have hp := h.policy
  rw [hbc] at hp
  have hpk := h.peak
  rw [hp.one, h.count] at hpk
  exact hne (List.length_eq_zero_iff.1 (by omega))

theorem HRep.clearP_boom (L : HLaw E Inv) (h : HRep ok E Inv w wn m t peak bl cs)
    {pre post : List (Nat × K × V)} {x : Nat × K × V}
    (ho : (cs.map List.reverse).flatten = pre ++ x :: post)
    (hpre : ∀ n ∈ pre, bad n.2.1 n.2.2 = false) (hx : bad x.2.1 x.2.2 = true) :
    ∃ a' m', t.clearP E bad m = .ok (.unwinds ({ t with al := a' }, m')) ∧
      m'.n.dropped = m.n.dropped ++ (parts (pre ++ [x])).filter E.needs ∧ m'.b = m.b ∧
      (∀ q ∈ pre.map Prod.fst, m'.n.node q = none) ∧
      (pre = [] → m'.n.node = m.n.node) ∧
      (pre ≠ [] → HTable.clearP E bad { t with al := a' } m' = .error .ub) := by
  obtain ⟨Cs, A, B, Ds, rfl, rfl⟩ := order_split ho
  have h1 := h.many (by simp)
  have hseg := h.core.chains
  have hCs : ∀ c ∈ Cs, ∀ n ∈ c, bad n.2.1 n.2.2 = false := by
    intro c hc n hn
    refine hpre n (List.mem_append_left _ (List.mem_flatten.2 ⟨c.reverse, ?_, by simpa using hn⟩))
    exact List.mem_map_of_mem hc
  have hnd := h.core.nodup
  obtain ⟨a', m', e1, e2, e3, e4, e5⟩ := freeChainsP_boom L (E := E) (fuel := t.count + 1)
    (b := curArr E bl) (post := [sentinel]) (a := t.al) (m := m) (ps := []) (pre := []) (Ds := Ds)
    (Cs := Cs) (A := A) hx (fun n hn => hpre n (by simp [hn])) hCs
    hseg hnd (by rw [h.count]; omega)
    (by rw [List.append_nil]; exact h.core.inv) (by simpa [heads] using h.core.arr)
  have hlen := h.core.len
  rw [List.length_nil, hlen] at e1
  have hmem : ∀ q, q ∈ (Cs.flatten ++ B).map Prod.fst ↔
      q ∈ ((Cs.map List.reverse).flatten ++ B.reverse).map Prod.fst := by
    intro q
    simp only [List.mem_map, List.mem_append, List.mem_flatten, List.mem_reverse,
      exists_exists_and_eq_and]
  refine ⟨a', m', ?_, ?_, e2, ?_, ?_, ?_⟩
  · simp only [HTable.clearP, if_pos h1, h.core.start, e1, Exec.ok_bind]
  · rw [e5, List.append_assoc]
  · intro q hq
    exact e3 q ((hmem q).2 hq)
  · intro hp
    funext q
    exact e4 q (fun hm => by rw [hmem, hp] at hm; simp at hm)
  · intro hp
    have hAB := hseg (A ++ x :: B) (by simp)
    have h0 : nextOf (A ++ x :: B) 0 ≠ 0 := fun e => by
      have := hAB.nextOf_ne.1 e
      simp at this
    have := freeChainsP_dead (E := E) (bad := bad) (fuel := t.count + 1) (b := curArr E bl)
      (q := nextOf B 0) (post := [sentinel]) (A := A ++ [x]) (B := A ++ x :: B) (Ds := Ds)
      (a := a') (m := m') (Cs := Cs) (pre := []) (by
        intro c hc n hn
        refine ⟨?_, e3 n.1 (List.mem_map_of_mem (by
          simp only [List.mem_append, List.mem_flatten]; exact .inl ⟨c, hc, hn⟩))⟩
        obtain ⟨a1, b1, rfl⟩ := List.append_of_mem hn
        exact (HSeg.append.1 (hseg _ (List.mem_append_left _ hc))).2.1) (by
        by_cases hCf : Cs.flatten = []
        · right
          have hB : B ≠ [] := by
            rintro rfl
            apply hp
            rw [List.flatten_eq_nil_iff] at hCf
            simp only [List.reverse_nil, List.append_nil, List.flatten_eq_nil_iff, List.mem_map]
            rintro _ ⟨c, hc, rfl⟩
            rw [hCf c hc]; rfl
          have hs2 : HSeg m.n (A ++ [x]) (nextOf B 0) ∧ HSeg m.n B 0 := by
            rw [show A ++ x :: B = (A ++ [x]) ++ B by simp] at hAB
            exact HSeg.append.1 hAB
          refine ⟨?_, fun e => hB (hs2.2.nextOf_ne.1 e), ?_, ?_⟩
          · refine hs2.1.frame fun n hn => e4 n.1 ?_
            rw [hCf, List.nil_append]
            intro hm
            have hnd2 : ((A ++ [x] ++ B).map Prod.fst).Nodup := by
              have : ((Cs ++ (A ++ x :: B) :: Ds).flatten.map Prod.fst).Nodup := hnd
              rw [List.flatten_append, hCf, List.flatten_cons, List.nil_append, List.map_append,
                List.nodup_append] at this
              simpa using this.1
            rw [List.map_append, List.nodup_append] at hnd2
            exact hnd2.2.2 n.1 (List.mem_map_of_mem hn) n.1 hm rfl
          · cases B with
            | nil => exact absurd rfl hB
            | cons y B => exact e3 y.1 (by simp)
          · rw [show A ++ x :: B = (A ++ [x]) ++ B by simp, nextOf_append]
        · exact .inl hCf) h0 (by rw [e2]; simpa [heads] using h.core.arr)
    rw [List.length_nil, hlen] at this
    simp only [HTable.clearP, if_pos h1, h.core.start, this, Exec.error_bind]

/-- The state after the key and the value of one node have been dropped. -/
abbrev HMem.dropNode (E : HEnv K V σ) (m : HMem K V) (x : Nat × K × V) : HMem K V :=
  (m.dropKey E x.2.1).dropVal E x.2.2

theorem freeBucketP_first {x : Nat × K × V} (hx : bad x.2.1 x.2.2 = true) {a : σ} {m : HMem K V} :
    ∀ {A : List (Nat × K × V)} {fuel : Nat}, HSeg m.n (A ++ [x]) 0 → A.length < fuel →
    HTable.freeBucketP E bad fuel (nextOf (A ++ [x]) 0) a m =
      .ok (.unwinds (a, m.dropNode E x)) := by
  intro A
  induction A with
  | nil =>
    intro fuel h hf
    obtain ⟨f, rfl⟩ : ∃ f, fuel = f + 1 := ⟨fuel - 1, by simp at hf; omega⟩
    have hnode := (HSeg.node (a := []) h).2
    simp only [List.nil_append, HTable.freeBucketP, nextOf_cons, hnode, Exec.ok_bind, nextOf_nil,
      if_true, hx]
  | cons n A ih =>
    intro fuel h hf
    obtain ⟨f, rfl⟩ : ∃ f, fuel = f + 1 := ⟨fuel - 1, by simp at hf; omega⟩
    rw [List.cons_append] at h ⊢
    have hnode := (HSeg.node (a := []) h).2
    have h0 : nextOf (A ++ [x]) 0 ≠ 0 := fun e => by
      have := h.2.2.nextOf_ne.1 e
      simp at this
    simp only [HTable.freeBucketP, nextOf_cons, hnode, Exec.ok_bind, if_neg h0,
      ih h.2.2 (by simp at hf; omega)]

theorem freeChainsP_first {x : Nat × K × V} (hx : bad x.2.1 x.2.2 = true) {a : σ} {m : HMem K V}
    {A : List (Nat × K × V)} {Ds : List (List (Nat × K × V))} {fuel b : Nat} {post : List Nat}
    (h : HSeg m.n (A ++ [x]) 0) (hf : A.length < fuel) :
    ∀ {Cs : List (List (Nat × K × V))} {pre : List Nat}, Cs.flatten = [] →
    ArrIs m.b b (pre ++ (Cs ++ (A ++ [x]) :: Ds).map (fun c => nextOf c 0) ++ post) →
    HTable.freeChainsP E bad fuel (.loc b pre.length) (Cs ++ (A ++ [x]) :: Ds).length a m =
      .ok (.unwinds (a, m.dropNode E x)) := by
  intro Cs
  induction Cs with
  | nil =>
    intro pre _ ha
    have hr : m.b.read (.loc b pre.length) = .ok (nextOf (A ++ [x]) 0) := ha.read (by simp)
    have h0 : nextOf (A ++ [x]) 0 ≠ 0 := fun e => by
      have := h.nextOf_ne.1 e
      simp at this
    simp only [List.nil_append, List.length_cons, HTable.freeChainsP, hr, Exec.ok_bind, if_neg h0,
      freeBucketP_first hx h hf]
  | cons c Cs ih =>
    intro pre hc ha
    rw [List.flatten_cons, List.append_eq_nil_iff] at hc
    obtain ⟨rfl, hc⟩ := hc
    have hr : m.b.read (.loc b pre.length) = .ok (nextOf ([] : List (Nat × K × V)) 0) :=
      ha.read (by simp)
    have := ih (pre := pre ++ [0]) hc (by simpa using ha)
    rw [List.length_append, List.length_singleton] at this
    simp only [List.cons_append, List.length_cons, HTable.freeChainsP, hr, Exec.ok_bind,
      nextOf_nil, if_true, Ptr.next, this]

/-- A panic in the first destructor leaves the table as it was, so that the same destructors run
again. -/
theorem HRep.clearP_first (h : HRep ok E Inv w wn m t peak bl cs)
    {post : List (Nat × K × V)} {x : Nat × K × V}
    (ho : (cs.map List.reverse).flatten = x :: post) (hx : bad x.2.1 x.2.2 = true) :
    t.clearP E bad m = .ok (.unwinds (t, m.dropNode E x)) ∧
      t.clearP E bad (m.dropNode E x) = .ok (.unwinds (t, (m.dropNode E x).dropNode E x)) := by
  obtain ⟨Cs, A, B, Ds, rfl, hp⟩ := order_split (pre := []) ho
  have hp := List.append_eq_nil_iff.1 hp.symm
  have hB : B = [] := by simpa using hp.2
  subst hB
  have hCs : Cs.flatten = [] := by
    rw [List.flatten_eq_nil_iff]
    intro c hc
    have := List.flatten_eq_nil_iff.1 hp.1 c.reverse (List.mem_map_of_mem hc)
    simpa using this
  have h1 := h.many (by simp)
  have hlen := h.core.len
  have hseg := h.core.chains (A ++ [x]) (by simp)
  have hf : A.length < t.count + 1 := by rw [h.count]; simp; omega
  have key : ∀ m' : HMem K V, m'.n.node = m.n.node → m'.b = m.b →
      t.clearP E bad m' = .ok (.unwinds (t, m'.dropNode E x)) := by
    intro m' hn hb
    have := freeChainsP_first (E := E) (a := t.al) (m := m') (b := curArr E bl) (Ds := Ds)
      (post := [sentinel]) hx (hseg.frame fun n _ => by rw [hn]) hf (pre := []) hCs
      (by rw [hb]; simpa [heads] using h.core.arr)
    rw [List.length_nil, hlen, ← h.core.start] at this
    simp only [HTable.clearP, if_pos h1, this, Exec.ok_bind]
  obtain ⟨d1, d2, _, _, _⟩ := drops_ok (E := E) m x.2.1 x.2.2
  exact ⟨key m rfl rfl, key _ d2 d1⟩

theorem freeChainsP_ok (L : HLaw E Inv) {fuel b : Nat} {post : List Nat} :
    ∀ {cs : List (List (Nat × K × V))} {a : σ} {m : HMem K V} {ps pre : List Nat},
    (∀ c ∈ cs, ∀ n ∈ c, bad n.2.1 n.2.2 = false) →
    (∀ c ∈ cs, HSeg m.n c 0) → (cs.flatten.map Prod.fst).Nodup →
    cs.flatten.length < fuel → Inv a m.n (cs.flatten.map Prod.fst ++ ps) →
    ArrIs m.b b (pre ++ cs.map (fun c => nextOf c 0) ++ post) →
    HTable.freeChainsP E bad fuel (.loc b pre.length) cs.length a m =
      (HTable.freeChains E fuel (.loc b pre.length) cs.length a m).map .returns := by
  intro cs
  induction cs with
  | nil => intros; rfl
  | cons c cs ih =>
    intro a m ps pre hb hcs hnd hf hi ha
    have hr : m.b.read (.loc b pre.length) = .ok (nextOf c 0) := ha.read (by simp)
    have hc := hcs c (by simp)
    rw [List.flatten_cons, List.map_append, List.nodup_append] at hnd
    rw [List.flatten_cons, List.map_append, List.append_assoc] at hi
    rw [List.flatten_cons, List.length_append] at hf
    have h1 : ∃ a1 m1, (if nextOf c 0 = 0 then .ok (.returns (a, m))
          else HTable.freeBucketP E bad fuel (nextOf c 0) a m) = .ok (.returns (a1, m1)) ∧
        (if nextOf c 0 = 0 then .ok (a, m)
          else HTable.freeBucket E fuel (nextOf c 0) a m) = .ok (a1, m1) ∧
        Inv a1 m1.n (cs.flatten.map Prod.fst ++ ps) ∧ m1.b = m.b ∧
        (∀ q, q ∉ c.map Prod.fst → m1.n.node q = m.n.node q) := by
      by_cases hc0 : c = []
      · subst hc0
        exact ⟨a, m, by simp, by simp, by simpa using hi, rfl, fun _ _ => rfl⟩
      · rw [if_neg (fun e => hc0 (hc.nextOf_ne.1 e)), if_neg (fun e => hc0 (hc.nextOf_ne.1 e))]
        obtain ⟨a1, m1, e1, e1', e2, e3, _, e5, _⟩ := freeBucketP_ok L (fuel := fuel)
          (fun n hn => hb c (by simp) n hn) hc hc0 hnd.1 (by omega) hi
        exact ⟨a1, m1, e1, e1', e2, e3, e5⟩
    obtain ⟨a1, m1, e1, e1', e2, e3, e4⟩ := h1
    have := ih (a := a1) (m := m1) (ps := ps)
      (pre := pre ++ [nextOf c 0]) (fun d hd => hb d (by simp [hd])) (by
        intro d hd
        refine (hcs d (by simp [hd])).frame fun y hy => e4 y.1 ?_
        intro hm
        exact hnd.2.2 y.1 hm y.1 (List.mem_map_of_mem (List.mem_flatten.2 ⟨d, hd, hy⟩)) rfl)
      hnd.2.1 (by omega) e2 (by rw [e3]; simpa using ha)
    rw [List.length_append, List.length_singleton] at this
    simp only [HTable.freeChainsP, HTable.freeChains, List.length_cons, hr, Exec.ok_bind, e1, e1',
      Ptr.next, this]

theorem HRep.clearP_returns (L : HLaw E Inv) (h : HRep ok E Inv w wn m t peak bl cs)
    (hb : ∀ n ∈ cs.flatten, bad n.2.1 n.2.2 = false) :
    t.clearP E bad m = (t.clear E m).map .returns := by
  by_cases h1 : 1 < t.bucketCount
  · have := freeChainsP_ok L (E := E) (fuel := t.count + 1) (b := curArr E bl)
      (post := [sentinel]) (cs := cs) (a := t.al) (m := m) (ps := []) (pre := [])
      (fun c hc n hn => hb n (List.mem_flatten.2 ⟨c, hc, hn⟩))
      h.core.chains h.core.nodup (by rw [h.count]; omega)
      (by rw [List.append_nil]; exact h.core.inv) (by simpa [heads] using h.core.arr)
    rw [List.length_nil, h.core.len] at this
    obtain ⟨a, m', e1, _, _⟩ := h.freeBuckets L
    simp only [HTable.clear, HTable.freeBuckets, if_pos h1, h.core.start] at e1 ⊢
    simp only [HTable.clearP, if_pos h1, h.core.start, this]
    cases hfc : HTable.freeChains E (t.count + 1) (.loc (curArr E bl) 0) t.bucketCount t.al m with
    | error e => rw [hfc] at e1; simp at e1
    | ok r =>
      obtain ⟨a2, m2⟩ := r
      simp only [Except.map, Exec.ok_bind]
      cases fillNull E (.loc (curArr E bl) 0) t.bucketCount m2 with
      | error e => rfl
      | ok m3 => rfl
  · simp only [HTable.clearP, HTable.clear, HTable.freeBuckets, if_neg h1]
    rfl

theorem first_split {α : Type} {f : α → Bool} : ∀ {l : List α}, (∃ x ∈ l, f x = true) →
    ∃ pre x post, l = pre ++ x :: post ∧ (∀ y ∈ pre, f y = false) ∧ f x = true := by
  intro l
  induction l with
  | nil => rintro ⟨x, hx, _⟩; simp at hx
  | cons y l ih =>
    rintro ⟨x, hx, hfx⟩
    cases hy : f y with
    | true => exact ⟨[], y, l, rfl, by simp, hy⟩
    | false =>
      rcases List.mem_cons.1 hx with rfl | hx
      · rw [hy] at hfx; cases hfx
      · obtain ⟨pre, z, post, rfl, h1, h2⟩ := ih ⟨x, hx, hfx⟩
        exact ⟨y :: pre, z, post, rfl, by simpa [hy] using h1, h2⟩

end Verif
