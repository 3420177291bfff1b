import Verif.HashTable.Rep
import Verif.FixedVector.Proofs

/-! The representation of a whole table, and what rehashing and freeing do to it. -/

set_option autoImplicit false

namespace Verif
open Spec

variable {K V σ : Type}

theorem split_at {α : Type} {l : List α} {i : Nat} {x : α} (h : l[i]? = some x) :
    ∃ l1 l2, l = l1 ++ x :: l2 ∧ l1.length = i := by
  obtain ⟨hi, hx⟩ := List.getElem?_eq_some_iff.1 h
  refine ⟨l.take i, l.drop (i + 1), ?_, by simp; omega⟩
  rw [← hx, List.cons_getElem_drop_succ, List.take_append_drop]

theorem set_mid {α : Type} (a b : List α) (x y : α) :
    (a ++ x :: b).set a.length y = a ++ y :: b := by
  rw [List.set_append_right _ _ (Nat.le_refl _)]
  simp

/-- The words of the bucket array for chains `cs`. -/
def heads (cs : List (List (Nat × K × V))) : List Nat := cs.map (fun c => nextOf c 0) ++ [sentinel]

theorem heads_length (cs : List (List (Nat × K × V))) : (heads cs).length = cs.length + 1 := by
  simp [heads]

theorem heads_mid (l1 l2 : List (List (Nat × K × V))) (c : List (Nat × K × V)) :
    (heads (l1 ++ c :: l2))[l1.length]? = some (nextOf c 0) := by
  simp [heads]

theorem heads_set (l1 l2 : List (List (Nat × K × V))) (c c' : List (Nat × K × V)) :
    (heads (l1 ++ c :: l2)).set l1.length (nextOf c' 0) = heads (l1 ++ c' :: l2) := by
  simp [heads]

/-- Every node is in the bucket its hash selects. -/
def Home (hash : K → Nat) (bc : Nat) (cs : List (List (Nat × K × V))) : Prop :=
  ∀ i c, cs[i]? = some c → ∀ n ∈ c, hash n.2.1 % bc = i

theorem Home.replace {hash : K → Nat} {bc : Nat} {l1 l2 : List (List (Nat × K × V))}
    {c c' : List (Nat × K × V)} (h : Home hash bc (l1 ++ c :: l2))
    (hc : ∀ n ∈ c', hash n.2.1 % bc = l1.length) : Home hash bc (l1 ++ c' :: l2) := by
  intro i d hd n hn
  by_cases hi : i < l1.length
  · rw [List.getElem?_append_left hi] at hd
    exact h i d (by rw [List.getElem?_append_left hi]; exact hd) n hn
  · by_cases hi' : i = l1.length
    · subst hi'
      simp at hd
      subst hd
      exact hc n hn
    · have hge : l1.length ≤ i := by omega
      obtain ⟨j, hj⟩ : ∃ j, i - l1.length = j + 1 := ⟨i - l1.length - 1, by omega⟩
      rw [List.getElem?_append_right hge, hj, List.getElem?_cons_succ] at hd
      refine h i d ?_ n hn
      rw [List.getElem?_append_right hge, hj, List.getElem?_cons_succ]
      exact hd

theorem Home.mid {hash : K → Nat} {bc : Nat} {l1 l2 : List (List (Nat × K × V))}
    {c : List (Nat × K × V)} (h : Home hash bc (l1 ++ c :: l2)) :
    ∀ n ∈ c, hash n.2.1 % bc = l1.length := h l1.length c (by simp)

/-- `moveChain` moves every node of `ns` into the bucket of the new array that its hash
selects. -/
theorem moveChain_ok {E : HEnv K V σ} {nb bc : Nat} (hnb : nb ≠ E.stat) (hbc : 0 < bc) :
    ∀ {ns : List (Nat × K × V)} {cs : List (List (Nat × K × V))} {fuel : Nat} {m : HMem K V},
    cs.length = bc → HSeg m.n ns 0 → (∀ c ∈ cs, HSeg m.n c 0) →
    ((ns ++ cs.flatten).map Prod.fst).Nodup → ArrIs m.b nb (heads cs) → Home E.hash bc cs →
    ns.length < fuel →
    ∃ m' cs', HTable.moveChain E (.loc nb 0) bc fuel (nextOf ns 0) m = .ok m' ∧ cs'.length = bc ∧
      (∀ c ∈ cs', HSeg m'.n c 0) ∧ cs'.flatten.Perm (ns ++ cs.flatten) ∧
      ArrIs m'.b nb (heads cs') ∧ Home E.hash bc cs' ∧ NSame m.n m'.n ∧
      (∀ q, q ∉ (ns ++ cs.flatten).map Prod.fst → m'.n.node q = m.n.node q) ∧
      ∀ b, b ≠ nb → m'.b.live b = m.b.live b := by
  intro ns
  induction ns with
  | nil =>
    intro cs fuel m hl _ hcs _ ha hh hf
    obtain ⟨f, rfl⟩ : ∃ f, fuel = f + 1 := ⟨fuel - 1, by omega⟩
    exact ⟨m, cs, by simp [HTable.moveChain], hl, hcs, .refl _, ha, hh, NSame.refl _,
      fun _ _ => rfl, fun _ _ => rfl⟩
  | cons n ns ih =>
    intro cs fuel m hl hs hcs hnd ha hh hf
    obtain ⟨f, rfl⟩ : ∃ f, fuel = f + 1 := ⟨fuel - 1, by omega⟩
    have hi : E.hash n.2.1 % bc < cs.length := by rw [hl]; exact Nat.mod_lt _ hbc
    obtain ⟨l1, l2, hcs', hl1⟩ := split_at (List.getElem?_eq_getElem hi)
    generalize cs[E.hash n.2.1 % bc] = c at hcs'
    subst hcs'
    have hnode := (HSeg.node (a := []) hs).2
    have hn0 : n.1 ≠ 0 := hs.1
    obtain ⟨m1, e1, e2, e3, e4⟩ := HMem.modify_ok hnode (fun d => { d with next := nextOf c 0 })
    obtain ⟨m2, f1, f2, f3, f4⟩ := (show ArrIs m1.b nb _ by rw [e2]; exact ha).write hnb
      (i := l1.length) (by rw [heads_length]; simp) n.1
    rw [show n.1 = nextOf (n :: c) 0 from rfl, heads_set] at f3
    have hnd' := hnd
    rw [List.cons_append, List.map_cons, List.nodup_cons] at hnd
    have hnot : ∀ x ∈ ns ++ (l1 ++ c :: l2).flatten, m2.n.node x.1 = m.n.node x.1 := by
      intro x hx
      rw [f2, e3, Function.update_of_ne]
      intro h
      exact hnd.1 (by rw [← h]; exact List.mem_map_of_mem hx)
    have hperm : (ns ++ (l1 ++ (n :: c) :: l2).flatten).Perm
        ((n :: ns) ++ (l1 ++ c :: l2).flatten) := by
      simp only [List.flatten_append, List.flatten_cons, List.cons_append]
      rw [← List.append_assoc, ← List.append_assoc ns]
      exact List.perm_middle
    obtain ⟨m', cs', g1, g2, g3, g4, g5, g6, g7, g8, g9⟩ := ih (cs := l1 ++ (n :: c) :: l2) (fuel := f)
      (m := m2) (by rw [← hl]; simp) (hs.2.2.frame fun x hx => hnot x (by simp [hx])) (by
        intro d hd
        simp only [List.mem_append, List.mem_cons] at hd
        rcases hd with hd | rfl | hd
        · exact (hcs d (by simp [hd])).frame fun x hx => hnot x (by
            simp only [List.mem_append, List.mem_flatten]
            exact .inr ⟨d, by simp [hd], hx⟩)
        · refine ⟨hn0, ?_, (hcs c (by simp)).frame fun x hx => hnot x (by
            simp only [List.mem_append, List.mem_flatten]
            exact .inr ⟨c, by simp, hx⟩)⟩
          rw [f2, e3, Function.update_self]
        · exact (hcs d (by simp [hd])).frame fun x hx => hnot x (by
            simp only [List.mem_append, List.mem_flatten]
            exact .inr ⟨d, by simp [hd], hx⟩))
      ((hperm.map Prod.fst).nodup_iff.2 hnd') f3
      (hh.replace (by
        intro x hx
        rcases List.mem_cons.1 hx with rfl | hx
        · rw [hl1]
        · exact hh.mid x hx)) (by simp at hf; omega)
    refine ⟨m', cs', ?_, g2, g3, g4.trans hperm, g5, g6,
      e4.trans (by rw [f2] at g7; exact g7), ?_, ?_⟩
    · have hp : m.b.ptrAdd (.loc nb 0) (E.hash n.2.1 % bc) = .ok (.loc nb l1.length) := by
        have := ha.ptrAdd (i := 0) (n := l1.length) (by rw [heads_length]; simp; omega)
        rw [← hl1]; simpa using this
      have hr : m.b.read (.loc nb l1.length) = .ok (nextOf c 0) := ha.read (heads_mid _ _ _)
      simp only [HTable.moveChain, nextOf_cons, if_neg hn0, hnode, Exec.ok_bind, bucketIndex,
        if_neg (show bc ≠ 0 by omega), hp, hr, e1, f1, g1]
    · intro q hq
      rw [g8 q (fun hm => hq ((hperm.map Prod.fst).mem_iff.1 hm)), f2, e3, Function.update_of_ne]
      rintro rfl
      exact hq (by simp)
    · intro b hb
      rw [g9 b hb, f4 b hb, e2]

/-- `moveChains` moves all nodes of the remaining old buckets `ds`. -/
theorem moveChains_ok {E : HEnv K V σ} {nb bc ob fuel : Nat} (hnb : nb ≠ E.stat) (hbc : 0 < bc)
    (hne : ob ≠ nb) :
    ∀ {ds : List (List (Nat × K × V))} {cs : List (List (Nat × K × V))} {pre post : List Nat}
      {m : HMem K V}, (ob = E.stat → ds.flatten = []) →
    cs.length = bc → (∀ d ∈ ds, HSeg m.n d 0) → (∀ c ∈ cs, HSeg m.n c 0) →
    ((ds.flatten ++ cs.flatten).map Prod.fst).Nodup →
    ArrIs m.b ob (pre ++ ds.map (fun c => nextOf c 0) ++ post) → ArrIs m.b nb (heads cs) →
    Home E.hash bc cs → ds.flatten.length < fuel →
    ∃ m' cs', HTable.moveChains E fuel (.loc nb 0) bc (.loc ob pre.length) ds.length m = .ok m' ∧
      cs'.length = bc ∧ (∀ c ∈ cs', HSeg m'.n c 0) ∧ cs'.flatten.Perm (ds.flatten ++ cs.flatten) ∧
      ArrIs m'.b ob (pre ++ List.replicate ds.length 0 ++ post) ∧
      ArrIs m'.b nb (heads cs') ∧ Home E.hash bc cs' ∧ NSame m.n m'.n ∧
      (∀ q, q ∉ (ds.flatten ++ cs.flatten).map Prod.fst → m'.n.node q = m.n.node q) ∧
      (∀ b, b ≠ nb → b ≠ ob → m'.b.live b = m.b.live b) ∧
      (ob = E.stat → m'.b.live ob = m.b.live ob) := by
  intro ds
  induction ds with
  | nil =>
    intro cs pre post m _ hl _ hcs _ ha1 ha2 hh _
    exact ⟨m, cs, rfl, hl, hcs, by simp, by simpa using ha1, ha2, hh, NSame.refl _,
      fun _ _ => rfl, fun _ _ _ => rfl, fun _ => rfl⟩
  | cons d ds ih =>
    intro cs pre post m hst hl hds hcs hnd ha1 ha2 hh hf
    have hr : m.b.read (.loc ob pre.length) = .ok (nextOf d 0) := ha1.read (by simp)
    have hd := hds d (by simp)
    have hzero : pre ++ List.replicate (d :: ds).length 0 ++ post =
        pre ++ [0] ++ List.replicate ds.length 0 ++ post := by
      simp [List.replicate_succ]
    by_cases hd0 : d = []
    · subst hd0
      obtain ⟨m', cs', g1, g2, g3, g4, g5, g6, g7, g8, g9, g10, g11⟩ := ih (cs := cs) (pre := pre ++ [0])
        (post := post) (m := m) (by simpa using hst) hl (fun x hx => hds x (by simp [hx])) hcs
        (by simpa using hnd) (by simpa using ha1) ha2 hh (by simpa using hf)
      refine ⟨m', cs', ?_, g2, g3, by simpa using g4, by rw [hzero]; exact g5, g6, g7, g8,
        by simpa using g9, g10, g11⟩
      simp only [List.length_append, List.length_cons, List.length_nil, Nat.zero_add] at g1
      simp only [HTable.moveChains, hr, nextOf_nil, Exec.ok_bind, if_true, List.length_cons, Ptr.next, g1]
    · have hnst : ob ≠ E.stat := by
        intro h
        have := hst h
        simp only [List.flatten_cons, List.append_eq_nil_iff] at this
        exact hd0 this.1
      have hnd1 : ((d ++ cs.flatten).map Prod.fst).Nodup := by
        refine List.Nodup.sublist ?_ hnd
        refine List.Sublist.map _ (List.Sublist.append ?_ (List.Sublist.refl _))
        simp
      obtain ⟨m1, cs1, e1, e2, e3, e4, e5, e6, e7, e8, e9⟩ := moveChain_ok hnb hbc (fuel := fuel) hl hd hcs
        hnd1 ha2 hh (by simp at hf; omega)
      have ha1' : ArrIs m1.b ob (pre ++ (d :: ds).map (fun c => nextOf c 0) ++ post) :=
        ha1.congr (e9 ob hne)
      obtain ⟨m2, f1, f2, f3, f4⟩ := ha1'.write hnst (i := pre.length) (by simp) 0
      have hset : (pre ++ (d :: ds).map (fun c => nextOf c 0) ++ post).set pre.length 0 =
          pre ++ [0] ++ ds.map (fun c => nextOf c 0) ++ post := by
        simp
      rw [hset] at f3
      have hout : ∀ x ∈ ds.flatten, x.1 ∉ (d ++ cs.flatten).map Prod.fst := by
        intro x hx hm
        rw [List.map_append, List.mem_append] at hm
        simp only [List.flatten_cons, List.map_append, List.append_assoc] at hnd
        rw [List.nodup_append] at hnd
        obtain ⟨_, h2, h3⟩ := hnd
        have hx' := List.mem_map_of_mem (f := Prod.fst) hx
        rcases hm with hm | hm
        · exact h3 x.1 hm x.1 (by simp only [List.mem_append]; exact .inl hx') rfl
        · rw [List.nodup_append] at h2
          exact h2.2.2 x.1 hx' x.1 hm rfl
      have hperm : (ds.flatten ++ cs1.flatten).Perm ((d :: ds).flatten ++ cs.flatten) := by
        refine (List.Perm.append_left ds.flatten e4).trans ?_
        simp only [List.flatten_cons]
        rw [← List.append_assoc]
        exact List.Perm.append_right _ List.perm_append_comm
      obtain ⟨m', cs', g1, g2, g3, g4, g5, g6, g7, g8, g9, g10, g11⟩ := ih (cs := cs1)
        (pre := pre ++ [0]) (post := post) (m := m2) (fun h => absurd h hnst) e2 (by
          intro x hx
          rw [f2]
          refine (hds x (by simp [hx])).frame fun y hy => e8 y.1 (hout y ?_)
          exact List.mem_flatten.2 ⟨x, hx, hy⟩) (by rw [f2]; exact e3)
        ((hperm.map Prod.fst).nodup_iff.2 hnd) f3 (e5.congr (f4 nb (Ne.symm hne))) e6
        (by simp only [List.flatten_cons, List.length_append] at hf; omega)
      refine ⟨m', cs', ?_, g2, g3, g4.trans hperm, by rw [hzero]; exact g5, g6, g7,
        e7.trans (by rw [f2] at g8; exact g8), ?_, ?_, fun h => absurd h hnst⟩
      · have hh0 : nextOf d 0 ≠ 0 := fun h => hd0 (hd.nextOf_ne.1 h)
        simp only [List.length_append, List.length_cons, List.length_nil, Nat.zero_add] at g1
        simp only [HTable.moveChains, hr, Exec.ok_bind, if_neg hh0, e1, f1, List.length_cons,
          Ptr.next, g1]
      · intro q hq
        rw [g9 q (fun hm => hq ((hperm.map Prod.fst).mem_iff.1 hm)), f2, e8]
        intro hm
        exact hq (by
          simp only [List.flatten_cons, List.map_append, List.mem_append] at hm ⊢
          tauto)
      · intro b hb hb'
        rw [g10 b hb hb', f4 b hb', e9 b hb]

/-- What freeing the entries `ns` drops. -/
def parts (ns : List (Nat × K × V)) : List (K ⊕ V) := ns.flatMap fun n => [.inl n.2.1, .inr n.2.2]

/-- Whether a key or value has a destructor. -/
def HEnv.needs (E : HEnv K V σ) : K ⊕ V → Bool
  | .inl _ => E.ndK
  | .inr _ => E.ndV

theorem parts_append (a b : List (Nat × K × V)) : parts (a ++ b) = parts a ++ parts b := by
  simp [parts]

/-- The law of the allocator, for the layout the table uses. -/
abbrev HLaw (E : HEnv K V σ) (Inv : σ → HNMem K V → List Nat → Prop) : Prop :=
  NLaw E.A none E.size E.align E.size E.align Inv

section
variable {E : HEnv K V σ} {Inv : σ → HNMem K V → List Nat → Prop}

theorem drops_ok (m : HMem K V) (k : K) (v : V) :
    ((m.dropKey E k).dropVal E v).b = m.b ∧
    ((m.dropKey E k).dropVal E v).n.node = m.n.node ∧
    ((m.dropKey E k).dropVal E v).n.link = m.n.link ∧
    ((m.dropKey E k).dropVal E v).n.reg = m.n.reg ∧
    ((m.dropKey E k).dropVal E v).n.dropped =
      m.n.dropped ++ [Sum.inl k, Sum.inr v].filter E.needs := by
  unfold HMem.dropKey HMem.dropVal NMem.logDrop
  cases h1 : E.ndK <;> cases h2 : E.ndV <;> simp [HEnv.needs, h1, h2]

theorem freeBucket_ok (L : HLaw E Inv) : ∀ {ns : List (Nat × K × V)} {fuel : Nat} {a : σ}
    {m : HMem K V} {ps : List Nat}, HSeg m.n ns 0 → ns ≠ [] → (ns.map Prod.fst).Nodup →
    ns.length < fuel + 1 → Inv a m.n (ns.map Prod.fst ++ ps) →
    ∃ a' m', HTable.freeBucket E fuel (nextOf ns 0) a m = .ok (a', m') ∧ Inv a' m'.n ps ∧
      m'.b = m.b ∧ (∀ q, q ∉ ns.map Prod.fst → m'.n.node q = m.n.node q) ∧
      m'.n.dropped.Perm (m.n.dropped ++ (parts ns).filter E.needs) := by
  intro ns
  induction ns with
  | nil => intro _ _ _ _ _ h; exact absurd rfl h
  | cons n ns ih =>
    intro fuel a m ps h _ hnd hf hi
    obtain ⟨f, rfl⟩ : ∃ f, fuel = f + 1 := ⟨fuel - 1, by simp at hf; omega⟩
    have hnode := (HSeg.node (a := []) h).2
    rw [List.map_cons, List.nodup_cons] at hnd
    -- the rest of the chain
    have hrest : ∃ a1 m1, (if nextOf ns 0 = 0 then .ok (a, m)
          else HTable.freeBucket E f (nextOf ns 0) a m) = .ok (a1, m1) ∧
        Inv a1 m1.n (n.1 :: ps) ∧ m1.b = m.b ∧
        (∀ q, q ∉ ns.map Prod.fst → m1.n.node q = m.n.node q) ∧
        m1.n.dropped.Perm (m.n.dropped ++ (parts ns).filter E.needs) := by
      by_cases hns : ns = []
      · subst hns
        exact ⟨a, m, by simp, by simpa using hi, rfl, fun _ _ => rfl, by simp [parts]⟩
      · have h0 : nextOf ns 0 ≠ 0 := fun e => hns (h.2.2.nextOf_ne.1 e)
        rw [if_neg h0]
        exact ih h.2.2 hns hnd.2 (by simp at hf; omega)
          (L.perm hi (by
            rw [List.map_cons, List.cons_append]
            exact List.perm_middle.symm))
    obtain ⟨a1, m1, e1, e2, e3, e4, e5⟩ := hrest
    have hnode1 : m1.node n.1 = .ok ⟨n.2.1, n.2.2, nextOf ns 0⟩ := by
      simp only [HMem.node, NMem.get, e4 _ hnd.1] at hnode ⊢
      exact hnode
    obtain ⟨d1, d2, d3, d4, d5⟩ := drops_ok (E := E) m1 n.2.1 n.2.2
    obtain ⟨a2, m2, f1, f2, f3, f4⟩ := L.dealloc (p := n.1)
      (L.frame (m' := ((m1.dropKey E n.2.1).dropVal E n.2.2).n) e2
        (fun q => by rw [d2]) d3 d4) (by simp)
    refine ⟨a2, { (m1.dropKey E n.2.1).dropVal E n.2.2 with n := m2 }, ?_, by simpa using f4,
      by simp only; rw [d1, e3], ?_, ?_⟩
    · simp only [HTable.freeBucket, nextOf_cons, hnode, Exec.ok_bind, e1, hnode1, f1]
    · intro q hq
      simp only [List.map_cons, List.mem_cons, not_or] at hq
      simp only [f2, d2, Function.update_of_ne hq.1, e4 q hq.2]
    · simp only [f3, d5]
      refine (List.Perm.append_right _ e5).trans ?_
      rw [List.append_assoc]
      refine List.Perm.append_left _ ?_
      rw [show parts (n :: ns) = [Sum.inl n.2.1, Sum.inr n.2.2] ++ parts ns from rfl,
        List.filter_append]
      exact List.perm_append_comm

theorem freeChains_ok (L : HLaw E Inv) {fuel b : Nat} {post : List Nat} :
    ∀ {cs : List (List (Nat × K × V))} {a : σ} {m : HMem K V} {ps pre : List Nat},
    (∀ c ∈ cs, HSeg m.n c 0) → (cs.flatten.map Prod.fst).Nodup →
    cs.flatten.length < fuel → Inv a m.n (cs.flatten.map Prod.fst ++ ps) →
    ArrIs m.b b (pre ++ cs.map (fun c => nextOf c 0) ++ post) →
    ∃ a' m', HTable.freeChains E fuel (.loc b pre.length) cs.length a m = .ok (a', m') ∧
      Inv a' m'.n ps ∧ m'.b = m.b ∧
      (∀ q, q ∉ cs.flatten.map Prod.fst → m'.n.node q = m.n.node q) ∧
      m'.n.dropped.Perm (m.n.dropped ++ (parts cs.flatten).filter E.needs) := by
  intro cs
  induction cs with
  | nil =>
    intro a m ps pre _ _ _ hi _
    exact ⟨a, m, rfl, by simpa using hi, rfl, fun _ _ => rfl, by simp [parts]⟩
  | cons c cs ih =>
    intro a m ps pre hcs hnd hf hi ha
    have hr : m.b.read (.loc b pre.length) = .ok (nextOf c 0) := ha.read (by simp)
    have hc := hcs c (by simp)
    rw [List.flatten_cons, List.map_append, List.nodup_append] at hnd
    rw [List.flatten_cons, List.map_append, List.append_assoc] at hi
    have h1 : ∃ a1 m1, (if nextOf c 0 = 0 then .ok (a, m)
          else HTable.freeBucket E fuel (nextOf c 0) a m) = .ok (a1, m1) ∧
        Inv a1 m1.n (cs.flatten.map Prod.fst ++ ps) ∧ m1.b = m.b ∧
        (∀ q, q ∉ c.map Prod.fst → m1.n.node q = m.n.node q) ∧
        m1.n.dropped.Perm (m.n.dropped ++ (parts c).filter E.needs) := by
      by_cases hc0 : c = []
      · subst hc0
        exact ⟨a, m, by simp, by simpa using hi, rfl, fun _ _ => rfl, by simp [parts]⟩
      · rw [if_neg (fun e => hc0 (hc.nextOf_ne.1 e))]
        exact freeBucket_ok L hc hc0 hnd.1 (by simp at hf; omega) hi
    obtain ⟨a1, m1, e1, e2, e3, e4, e5⟩ := h1
    obtain ⟨a2, m2, f1, f2, f3, f4, f5⟩ := ih (a := a1) (m := m1) (ps := ps)
      (pre := pre ++ [nextOf c 0]) (by
        intro d hd
        refine (hcs d (by simp [hd])).frame fun x hx => e4 x.1 ?_
        intro hm
        exact hnd.2.2 x.1 hm x.1 (List.mem_map_of_mem (List.mem_flatten.2 ⟨d, hd, hx⟩)) rfl)
      hnd.2.1 (by simp only [List.flatten_cons, List.length_append] at hf; omega) e2 (by rw [e3]; simpa using ha)
    refine ⟨a2, m2, ?_, f2, by rw [f3, e3], ?_, ?_⟩
    · simp only [List.length_append, List.length_cons, List.length_nil, Nat.zero_add] at f1
      simp only [HTable.freeChains, List.length_cons, hr, Exec.ok_bind, e1, Ptr.next, f1]
    · intro q hq
      simp only [List.flatten_cons, List.map_append, List.mem_append, not_or] at hq
      rw [f4 q hq.2, e4 q hq.1]
    · refine f5.trans ((List.Perm.append_right _ e5).trans ?_)
      rw [List.flatten_cons, parts_append, List.filter_append, List.append_assoc]

end

end Verif
