import Verif.HashTable.Ops
import Verif.HashTable.Leaks
import Verif.Spec.Collisions

/-!
# How deep freeing a hash table recurses

`free_bucket` of `HashTable/Model.lean` again, returning also how many of its calls were active at
the same time; `HTable.freeBucketT_fst` says that it is the same otherwise.
-/

set_option autoImplicit false

namespace Verif
open Spec

variable {K V σ : Type}

namespace HTable

/-- `free_bucket` (src/internal/hash_table/mod.rs:322-332): also the most calls active at a time,
this one included. -/
def freeBucketT (E : HEnv K V σ) : Nat → Nat → σ → HMem K V → Exec ((σ × HMem K V) × Nat)
  | 0, _, _, _ => .error .ub
  | fuel + 1, p, a, m => do
    let c ← m.node p
    let ((a, m), d) ← (if c.next = 0 then .ok ((a, m), 0) else freeBucketT E fuel c.next a m)
    let c ← m.node p
    let m := (m.dropKey E c.key).dropVal E c.val
    let (a, n) ← E.A.dealloc p E.size E.align a m.n
    .ok ((a, { m with n := n }), d + 1)

/-- The loop of `free_buckets` (src/internal/hash_table/mod.rs:342-344), likewise. -/
def freeChainsT (E : HEnv K V σ) (fuel : Nat) : Ptr → Nat → σ → HMem K V →
    Exec ((σ × HMem K V) × Nat)
  | _, 0, a, m => .ok ((a, m), 0)
  | p, n + 1, a, m => do
    let h ← m.b.read p
    let ((a, m), d1) ← (if h = 0 then .ok ((a, m), 0) else freeBucketT E fuel h a m)
    let (r, d2) ← freeChainsT E fuel p.next n a m
    .ok (r, max d1 d2)

/-- `free_buckets` (src/internal/hash_table/mod.rs:335-348), likewise. -/
def freeBucketsT (E : HEnv K V σ) (t : HTable σ) (m : HMem K V) :
    Exec ((HTable σ × HMem K V) × Nat) :=
  if 1 < t.bucketCount then do
    let ((a, m), d) ← freeChainsT E (t.count + 1) t.buckets t.bucketCount t.al m
    let m ← fillNull E t.buckets t.bucketCount m
    .ok (({ t with al := a }, m), d)
  else .ok ((t, m), 0)

/-- `clear` (src/internal/hash_table/mod.rs:63-66), likewise. -/
def clearT (E : HEnv K V σ) (t : HTable σ) (m : HMem K V) : Exec ((HTable σ × HMem K V) × Nat) := do
  let ((t, m), d) ← t.freeBucketsT E m
  .ok (({ t with count := 0 }, m), d)

/-- `drop` (src/internal/hash_table/mod.rs:431-435), likewise. -/
def dropT (E : HEnv K V σ) (t : HTable σ) (m : HMem K V) : Exec ((σ × HMem K V) × Nat) := do
  let ((t, m), d) ← t.freeBucketsT E m
  .ok ((t.al, m), d)

theorem freeBucketT_fst (E : HEnv K V σ) : ∀ (f p : Nat) (a : σ) (m : HMem K V),
    (freeBucketT E f p a m).map Prod.fst = freeBucket E f p a m := by
  intro f
  induction f with
  | zero => intro p a m; rfl
  | succ f ih =>
    have side : ∀ (q : Nat) (a : σ) (m : HMem K V),
        (if q = 0 then .ok (a, m) else freeBucket E f q a m) =
        (if q = 0 then .ok ((a, m), 0) else freeBucketT E f q a m).map Prod.fst := by
      intro q a m
      by_cases hq : q = 0
      · simp [hq, Except.map]
      · simp [hq, ih]
    intro p a m
    simp only [freeBucketT, freeBucket, side]
    cases m.node p with
    | error e => rfl
    | ok c =>
      simp only [Exec.ok_bind]
      cases (if c.next = 0 then .ok ((a, m), 0) else freeBucketT E f c.next a m) with
      | error e => rfl
      | ok r =>
        obtain ⟨⟨a1, m1⟩, d1⟩ := r
        simp only [Exec.ok_bind, Except.map]
        cases m1.node p with
        | error e => rfl
        | ok c =>
          simp only [Exec.ok_bind]
          cases E.A.dealloc p E.size E.align a1 ((m1.dropKey E c.key).dropVal E c.val).n <;> rfl

theorem freeChainsT_fst (E : HEnv K V σ) (f : Nat) : ∀ (n : Nat) (p : Ptr) (a : σ) (m : HMem K V),
    (freeChainsT E f p n a m).map Prod.fst = freeChains E f p n a m := by
  intro n
  induction n with
  | zero => intro p a m; rfl
  | succ n ih =>
    intro p a m
    have side : ∀ (q : Nat) (a : σ) (m : HMem K V),
        (if q = 0 then .ok (a, m) else freeBucket E f q a m) =
        (if q = 0 then .ok ((a, m), 0) else freeBucketT E f q a m).map Prod.fst := by
      intro q a m
      by_cases hq : q = 0
      · simp [hq, Except.map]
      · simp [hq, freeBucketT_fst]
    simp only [freeChainsT, freeChains, side]
    cases m.b.read p with
    | error e => rfl
    | ok h =>
      simp only [Exec.ok_bind]
      cases (if h = 0 then .ok ((a, m), 0) else freeBucketT E f h a m) with
      | error e => rfl
      | ok r =>
        obtain ⟨⟨a1, m1⟩, d1⟩ := r
        simp only [Exec.ok_bind, Except.map, ← ih]
        cases freeChainsT E f p.next n a1 m1 <;> rfl

theorem freeBucketsT_fst (E : HEnv K V σ) (t : HTable σ) (m : HMem K V) :
    (t.freeBucketsT E m).map Prod.fst = t.freeBuckets E m := by
  unfold freeBucketsT freeBuckets
  by_cases h : 1 < t.bucketCount
  · simp only [if_pos h, ← freeChainsT_fst]
    cases freeChainsT E (t.count + 1) t.buckets t.bucketCount t.al m with
    | error e => rfl
    | ok r =>
      obtain ⟨⟨a, m1⟩, d⟩ := r
      simp only [Exec.ok_bind, Except.map]
      cases fillNull E t.buckets t.bucketCount m1 <;> rfl
  · simp [if_neg h, Except.map]

theorem dropT_fst (E : HEnv K V σ) (t : HTable σ) (m : HMem K V) :
    (t.dropT E m).map Prod.fst = t.drop E m := by
  simp only [dropT, drop, ← freeBucketsT_fst]
  cases t.freeBucketsT E m <;> rfl

theorem clearT_fst (E : HEnv K V σ) (t : HTable σ) (m : HMem K V) :
    (t.clearT E m).map Prod.fst = t.clear E m := by
  simp only [clearT, clear, ← freeBucketsT_fst]
  cases t.freeBucketsT E m <;> rfl

end HTable

/-- A bucket's chain is freed with as many calls active as it is long. -/
theorem freeBucketT_depth {E : HEnv K V σ} : ∀ {ns : List (Nat × K × V)} {fuel : Nat} {a : σ}
    {m : HMem K V} {r : (σ × HMem K V) × Nat}, HSeg m.n ns 0 → ns ≠ [] →
    HTable.freeBucketT E fuel (nextOf ns 0) a m = .ok r → r.2 = ns.length := by
  intro ns
  induction ns with
  | nil => intro _ _ _ _ _ h; exact absurd rfl h
  | cons n ns ih =>
    intro fuel a m r h _ hr
    cases fuel with
    | zero => cases hr
    | succ f =>
      have hnode := (HSeg.node (a := []) h).2
      simp only [HTable.freeBucketT, nextOf_cons, hnode, Exec.ok_bind] at hr
      obtain ⟨⟨⟨a1, m1⟩, d⟩, h1, hr⟩ := Exec.bind_ok hr
      obtain ⟨c, _, hr⟩ := Exec.bind_ok hr
      obtain ⟨⟨a2, m2⟩, _, hr⟩ := Exec.bind_ok hr
      cases hr
      simp only [List.length_cons, Nat.add_right_cancel_iff]
      by_cases hns : ns = []
      · subst hns
        simp at h1
        simp [h1]
      · rw [if_neg fun e => hns (h.2.2.nextOf_ne.1 e)] at h1
        exact ih h.2.2 hns h1

/-- All chains are freed with as many calls active as the longest is long. -/
theorem freeChainsT_depth {E : HEnv K V σ} {Inv : σ → HNMem K V → List Nat → Prop} (L : HLaw E Inv)
    {fuel b : Nat} {post : List Nat} :
    ∀ {cs : List (List (Nat × K × V))} {a : σ} {m : HMem K V} {ps pre : List Nat}
      {r : (σ × HMem K V) × Nat},
    (∀ c ∈ cs, HSeg m.n c 0) → (cs.flatten.map Prod.fst).Nodup →
    cs.flatten.length < fuel → Inv a m.n (cs.flatten.map Prod.fst ++ ps) →
    ArrIs m.b b (pre ++ cs.map (fun c => nextOf c 0) ++ post) →
    HTable.freeChainsT E fuel (.loc b pre.length) cs.length a m = .ok r →
    r.2 = (cs.map List.length).foldr max 0 := by
  intro cs
  induction cs with
  | nil => intro a m ps pre r _ _ _ _ _ hr; cases hr; rfl
  | cons c cs ih =>
    intro a m ps pre r hcs hnd hf hi ha hr
    have hrd : m.b.read (.loc b pre.length) = .ok (nextOf c 0) := ha.read (by simp)
    have hc := hcs c (by simp)
    rw [List.flatten_cons, List.map_append, List.nodup_append] at hnd
    rw [List.flatten_cons, List.map_append, List.append_assoc] at hi
    have h1 : ∃ a1 m1, (if nextOf c 0 = 0 then .ok ((a, m), 0)
          else HTable.freeBucketT E fuel (nextOf c 0) a m) = .ok ((a1, m1), c.length) ∧
        Inv a1 m1.n (cs.flatten.map Prod.fst ++ ps) ∧ m1.b = m.b ∧
        (∀ q, q ∉ c.map Prod.fst → m1.n.node q = m.n.node q) := by
      by_cases hc0 : c = []
      · subst hc0
        exact ⟨a, m, by simp, by simpa using hi, rfl, fun _ _ => rfl⟩
      · rw [if_neg (fun e => hc0 (hc.nextOf_ne.1 e))]
        obtain ⟨a1, m1, e1, e2, e3, e4, _⟩ := freeBucket_ok L (fuel := fuel) hc hc0 hnd.1 (by simp at hf; omega) hi
        rw [← HTable.freeBucketT_fst] at e1
        cases hT : HTable.freeBucketT E fuel (nextOf c 0) a m with
        | error e => rw [hT] at e1; cases e1
        | ok r =>
          have hd := freeBucketT_depth hc hc0 hT
          obtain ⟨r1, r2⟩ := r
          rw [hT] at e1
          cases e1
          simp only at hd
          subst hd
          exact ⟨a1, m1, rfl, e2, e3, e4⟩
    obtain ⟨a1, m1, e1, e2, e3, e4⟩ := h1
    simp only [HTable.freeChainsT, List.length_cons, hrd, Exec.ok_bind, e1, Ptr.next] at hr
    obtain ⟨⟨r2, d2⟩, h2, hr⟩ := Exec.bind_ok hr
    cases hr
    have := ih (a := a1) (m := m1) (ps := ps) (pre := pre ++ [nextOf c 0]) (r := (r2, d2)) (by
        intro d hd
        refine (hcs d (by simp [hd])).frame fun x hx => e4 x.1 ?_
        intro hm
        exact hnd.2.2 x.1 hm x.1 (List.mem_map_of_mem (List.mem_flatten.2 ⟨d, hd, hx⟩)) rfl)
      hnd.2.1 (by simp only [List.flatten_cons, List.length_append] at hf; omega) e2
      (by rw [e3]; simpa using ha) (by simpa using h2)
    simp only at this
    simp [this]

/-- With every entry in its bucket, the longest chain is that of the fullest bucket. -/
theorem Home.longest {hash : K → Nat} {n : Nat} {cs : List (List (Nat × K × V))}
    (h : Home hash n cs) (hlen : cs.length = n) :
    (cs.map List.length).foldr max 0 = fullest hash n ((ents cs).map Prod.fst) := by
  subst hlen
  have key : cs.map List.length = (List.range cs.length).map fun i =>
      inBucket hash cs.length i ((ents cs).map Prod.fst) := by
    apply List.ext_getElem (by simp)
    intro i h1 h2
    simp only [List.getElem_map, List.getElem_range, List.length_map] at h1 ⊢
    have hcount : ∀ (l : List (List (Nat × K × V))) (off : Nat),
        (∀ (j : Nat) (c : List (Nat × K × V)), l[j]? = some c →
          ∀ x ∈ c, hash x.2.1 % cs.length = off + j) →
        (l.flatten.countP fun x => hash x.2.1 % cs.length = i) =
          if off ≤ i then (l[i - off]?.map List.length).getD 0 else 0 := by
      intro l
      induction l with
      | nil => intro off _; simp
      | cons d l ih =>
        intro off hl
        rw [List.flatten_cons, List.countP_append, ih (off + 1) (by
          intro j c hj x hx
          rw [hl (j + 1) c (by simpa using hj) x hx]; omega)]
        have hd := hl 0 d (by simp)
        by_cases hio : i = off
        · subst hio
          have : (d.countP fun x => hash x.2.1 % cs.length = i) = d.length := by
            rw [List.countP_eq_length]
            intro x hx
            simpa using hd x hx
          rw [this]
          simp
        · have : (d.countP fun x => hash x.2.1 % cs.length = i) = 0 := by
            rw [List.countP_eq_zero]
            intro x hx
            have := hd x hx
            simp only [decide_eq_true_eq]
            omega
          rw [this, Nat.zero_add]
          by_cases hle : off ≤ i
          · rw [if_pos hle, if_pos (by omega : off + 1 ≤ i), show i - off = (i - (off + 1)) + 1 by omega,
              List.getElem?_cons_succ]
          · rw [if_neg hle, if_neg (by omega)]
    have hc := hcount cs 0 (by intro j c hj x hx; rw [h j c hj x hx]; omega)
    simp only [Nat.zero_le, if_true, Nat.sub_zero, List.getElem?_eq_getElem h1, Option.map_some,
      Option.getD_some] at hc
    rw [← hc, inBucket, ents, List.map_map, List.countP_map]
    rfl
  rw [key, fullest]

theorem fullest_perm {hash : K → Nat} {n : Nat} {l l' : List K} (h : l.Perm l') :
    fullest hash n l = fullest hash n l' := by
  simp only [fullest, inBucket, h.countP_eq]

theorem foldr_max_ge {l : List Nat} {x : Nat} (h : x ∈ l) : x ≤ l.foldr max 0 := by
  induction l with
  | nil => cases h
  | cons y l ih =>
    rcases List.mem_cons.1 h with rfl | h
    · exact Nat.le_max_left _ _
    · exact (ih h).trans (Nat.le_max_right _ _)

theorem foldr_max_le {l : List Nat} {b : Nat} (h : ∀ x ∈ l, x ≤ b) : l.foldr max 0 ≤ b := by
  induction l with
  | nil => exact Nat.zero_le _
  | cons y l ih =>
    exact max_le (h y (by simp)) (ih fun x hx => h x (by simp [hx]))

end Verif
