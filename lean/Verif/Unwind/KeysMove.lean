import Verif.Unwind.Keys
import Verif.HashTable.Any
import Verif.Deque.Stale

/-! What searching and rehashing do when the hash function or the equality panics. -/

set_option autoImplicit false

namespace Verif
open Spec

variable {K V σ : Type} {ok : Prop} {E : HEnv K V σ} {Inv : σ → HNMem K V → List Nat → Prop}
  {w : World Nat} {wn : Nat → Option (Option (HCell K V))} {m : HMem K V} {t : HTable σ}
  {bl : List Nat} {cs : List (List (Nat × K × V))}

theorem findInBucketU_ok (k : K) : ∀ {c : List (Nat × K × V)} {fuel : Nat}, HSeg m.n c 0 →
    c.length < fuel → ∃ e, e ≤ c.length ∧ ∀ n, findInBucketU E fuel (nextOf c 0) k n m =
      .ok (if n < e then none
        else some ((c.find? fun x => E.eq x.2.1 k).map Prod.fst, n - e)) := by
  intro c
  induction c with
  | nil =>
    intro fuel _ hf
    obtain ⟨f, rfl⟩ : ∃ f, fuel = f + 1 := ⟨fuel - 1, by omega⟩
    exact ⟨0, Nat.le_refl _, fun n => by simp [findInBucketU]⟩
  | cons x c ih =>
    intro fuel h hf
    obtain ⟨f, rfl⟩ : ∃ f, fuel = f + 1 := ⟨fuel - 1, by omega⟩
    have hn := (HSeg.node (a := []) h).2
    cases he : E.eq x.2.1 k with
    | true =>
      refine ⟨1, by simp, fun n => ?_⟩
      simp only [findInBucketU, nextOf_cons, if_neg h.1, hn, Exec.ok_bind, List.find?_cons, he]
      cases n with
      | zero => simp
      | succ n => simp
    | false =>
      obtain ⟨e, e1, e2⟩ := ih h.2.2 (fuel := f) (by simp at hf; omega)
      refine ⟨e + 1, by simp; omega, fun n => ?_⟩
      simp only [findInBucketU, nextOf_cons, if_neg h.1, hn, Exec.ok_bind, List.find?_cons, he]
      cases n with
      | zero => simp
      | succ n => simp [e2 n]

theorem removeLoopU_ok (k : K) : ∀ {c : List (Nat × K × V)} {fuel : Nat} {s : HSlot},
    HSeg m.n c 0 → c.length < fuel → s.read m = .ok (nextOf c 0) →
    ∃ e r, HTable.removeLoop E k fuel s m = .ok r ∧ ∀ n, HTable.removeLoopU E k fuel s n m =
      .ok (if n < e then none else some r) := by
  intro c
  induction c with
  | nil =>
    intro fuel s _ hf hs
    obtain ⟨f, rfl⟩ : ∃ f, fuel = f + 1 := ⟨fuel - 1, by omega⟩
    exact ⟨0, (s, 0), by simp [HTable.removeLoop, hs], fun n => by simp [HTable.removeLoopU, hs]⟩
  | cons x c ih =>
    intro fuel s h hf hs
    obtain ⟨f, rfl⟩ : ∃ f, fuel = f + 1 := ⟨fuel - 1, by omega⟩
    have hn := (HSeg.node (a := []) h).2
    have h0 := h.1
    cases he : E.eq x.2.1 k with
    | true =>
      refine ⟨1, (s, x.1), ?_, fun n => ?_⟩
      · simp only [HTable.removeLoop, hs, nextOf_cons, Exec.ok_bind, if_neg h0, hn, he, if_true]
      · simp only [HTable.removeLoopU, hs, nextOf_cons, Exec.ok_bind, if_neg h0, hn, he, if_true]
        cases n <;> simp
    | false =>
      obtain ⟨e, r, e1, e2⟩ := ih h.2.2 (fuel := f) (s := .next x.1) (by simp at hf; omega)
        (by simp [HSlot.read, hn])
      refine ⟨e + 1, r, ?_, fun n => ?_⟩
      · simp only [HTable.removeLoop, hs, nextOf_cons, Exec.ok_bind, if_neg h0, hn, he,
          Bool.false_eq_true, if_false, e1]
      · simp only [HTable.removeLoopU, hs, nextOf_cons, Exec.ok_bind, if_neg h0, hn, he,
          Bool.false_eq_true, if_false]
        cases n with
        | zero => simp
        | succ n => simp [e2 n]

/-- A search makes one call of the hash function and `e` of the equality; if none of them panics it
finds what it always finds. -/
theorem HCore.findU (h : HCore ok E Inv w wn m t bl cs) (k : K) : ∃ e b o, e ≤ cs.flatten.length ∧
    t.find E k m = .ok (b, o) ∧ ∀ n, t.findU E k n m =
      .ok (if n < e + 1 then none else some (b, o, n - (e + 1))) := by
  obtain ⟨l1, c, l2, rfl, hl1, hb, hr, _⟩ := h.search k
  have hfit := h.fits
  simp only [List.flatten_append, List.flatten_cons, List.length_append] at hfit
  have hc := h.chains c (by simp)
  have hf := findInBucket_ok (E := E) k hc (fuel := t.count + 1) (by omega)
  obtain ⟨e, e1, e2⟩ := findInBucketU_ok (E := E) k hc (fuel := t.count + 1) (by omega)
  refine ⟨e, _, _, ?_, by simp only [HTable.find, hb, hr, hf, Exec.ok_bind]; rfl, fun n => ?_⟩
  · simp only [List.flatten_append, List.flatten_cons, List.length_append]; omega
  · cases n with
    | zero => simp [HTable.findU]
    | succ n =>
      simp only [HTable.findU, hb, hr, Exec.ok_bind, e2 n]
      by_cases hlt : n < e
      · simp [hlt]
      · rw [if_neg hlt, if_neg (by omega)]
        simp

theorem HCore.removeU (h : HCore ok E Inv w wn m t bl cs) (k : K) : ∃ e, ∀ n,
    t.removeEntryU E k n m = if n < e then .ok (none, t, m) else
      (t.removeEntry E k m).map fun r => (some r.1, r.2.1, r.2.2) := by
  obtain ⟨l1, c, l2, rfl, hl1, hb, hr, _⟩ := h.search k
  have hfit := h.fits
  simp only [List.flatten_append, List.flatten_cons, List.length_append] at hfit
  have hc := h.chains c (by simp)
  obtain ⟨e, ⟨s, p⟩, e1, e2⟩ := removeLoopU_ok (E := E) k hc (fuel := t.count + 1)
    (s := .bucket (.loc (curArr E bl) l1.length)) (by omega) hr
  refine ⟨e + 1, fun n => ?_⟩
  cases n with
  | zero => simp [HTable.removeEntryU]
  | succ n =>
    simp only [HTable.removeEntryU, HTable.removeEntry, hb, Exec.ok_bind, e1, e2 n]
    by_cases hlt : n < e
    · simp [hlt]
    · rw [if_neg hlt, if_neg (by omega)]
      dsimp only
      by_cases hp : p = 0
      · simp [hp, Except.map]
      · simp only [if_neg hp]
        cases m.node p with
        | error x => rfl
        | ok c' =>
          simp only [Exec.ok_bind]
          cases s.write E m c'.next with
          | error x => rfl
          | ok m1 =>
            simp only [Exec.ok_bind]
            cases E.A.dealloc p E.size E.align t.al m1.n with
            | error x => rfl
            | ok r =>
              simp only [Exec.ok_bind]
              split <;> rfl

/-- Moving one chain, of which the first `n` nodes are moved before a panic. -/
theorem moveChainU_ok {nb bc : Nat} (hnb : nb ≠ E.stat) (hbc : 0 < bc) :
    ∀ {ns : List (Nat × K × V)} {cs : List (List (Nat × K × V))} {fuel n : Nat} {m : HMem K V},
    cs.length = bc → HSeg m.n ns 0 → (∀ c ∈ cs, HSeg m.n c 0) →
    ((ns ++ cs.flatten).map Prod.fst).Nodup → ArrIs m.b nb (heads cs) → Home E.hash bc cs →
    ns.length < fuel →
    ∃ m' cs', HTable.moveChainU E (.loc nb 0) bc fuel (nextOf ns 0) n m =
        .ok (if n < ns.length then none else some (n - ns.length), m') ∧
      cs'.length = bc ∧ (∀ c ∈ cs', HSeg m'.n c 0) ∧
      cs'.flatten.Perm (ns.take n ++ cs.flatten) ∧
      ArrIs m'.b nb (heads cs') ∧ Home E.hash bc cs' ∧ NSame m.n m'.n ∧
      (∀ q, q ∉ (ns.take n ++ cs.flatten).map Prod.fst → m'.n.node q = m.n.node q) ∧
      ∀ b, b ≠ nb → m'.b.live b = m.b.live b := by
  intro ns
  induction ns with
  | nil =>
    intro cs fuel n m hl _ hcs _ ha hh hf
    obtain ⟨f, rfl⟩ : ∃ f, fuel = f + 1 := ⟨fuel - 1, by omega⟩
    exact ⟨m, cs, by simp [HTable.moveChainU], hl, hcs, by simp, ha, hh, NSame.refl _,
      fun _ _ => rfl, fun _ _ => rfl⟩
  | cons x ns ih =>
    intro cs fuel n m hl hs hcs hnd ha hh hf
    obtain ⟨f, rfl⟩ : ∃ f, fuel = f + 1 := ⟨fuel - 1, by omega⟩
    have hnode := (HSeg.node (a := []) hs).2
    have hn0 : x.1 ≠ 0 := hs.1
    cases n with
    | zero =>
      refine ⟨m, cs, ?_, hl, hcs, by simp, ha, hh, NSame.refl _, fun _ _ => rfl, fun _ _ => rfl⟩
      simp [HTable.moveChainU, hn0, hnode]
    | succ n =>
    have hi : E.hash x.2.1 % bc < cs.length := by rw [hl]; exact Nat.mod_lt _ hbc
    obtain ⟨l1, l2, hcs', hl1⟩ := split_at (List.getElem?_eq_getElem hi)
    generalize cs[E.hash x.2.1 % bc] = c at hcs'
    subst hcs'
    obtain ⟨m1, e1, e2, e3, e4⟩ := HMem.modify_ok hnode (fun d => { d with next := nextOf c 0 })
    obtain ⟨m2, f1, f2, f3, f4⟩ := (show ArrIs m1.b nb _ by rw [e2]; exact ha).write hnb
      (i := l1.length) (by rw [heads_length]; simp) x.1
    rw [show x.1 = nextOf (x :: c) 0 from rfl, heads_set] at f3
    have hnd' := hnd
    rw [List.cons_append, List.map_cons, List.nodup_cons] at hnd
    have hnot : ∀ y ∈ ns ++ (l1 ++ c :: l2).flatten, m2.n.node y.1 = m.n.node y.1 := by
      intro y hy
      rw [f2, e3, Function.update_of_ne]
      intro h
      exact hnd.1 (by rw [← h]; exact List.mem_map_of_mem hy)
    have hperm : ∀ l : List (Nat × K × V), (l ++ (l1 ++ (x :: c) :: l2).flatten).Perm
        ((x :: l) ++ (l1 ++ c :: l2).flatten) := by
      intro l
      simp only [List.flatten_append, List.flatten_cons, List.cons_append]
      rw [← List.append_assoc, ← List.append_assoc l]
      exact List.perm_middle
    obtain ⟨m', cs', g1, g2, g3, g4, g5, g6, g7, g8, g9⟩ := ih (cs := l1 ++ (x :: c) :: l2)
      (fuel := f) (n := n)
      (m := m2) (by rw [← hl]; simp) (hs.2.2.frame fun y hy => hnot y (by simp [hy])) (by
        intro d hd
        simp only [List.mem_append, List.mem_cons] at hd
        rcases hd with hd | rfl | hd
        · exact (hcs d (by simp [hd])).frame fun y hy => hnot y (by
            simp only [List.mem_append, List.mem_flatten]
            exact .inr ⟨d, by simp [hd], hy⟩)
        · refine ⟨hn0, ?_, (hcs c (by simp)).frame fun y hy => hnot y (by
            simp only [List.mem_append, List.mem_flatten]
            exact .inr ⟨c, by simp, hy⟩)⟩
          rw [f2, e3, Function.update_self]
        · exact (hcs d (by simp [hd])).frame fun y hy => hnot y (by
            simp only [List.mem_append, List.mem_flatten]
            exact .inr ⟨d, by simp [hd], hy⟩))
      (((hperm ns).map Prod.fst).nodup_iff.2 hnd') f3
      (hh.replace (by
        intro y hy
        rcases List.mem_cons.1 hy with rfl | hy
        · rw [hl1]
        · exact hh.mid y hy)) (by simp at hf; omega)
    refine ⟨m', cs', ?_, g2, g3, ?_, g5, g6, e4.trans (by rw [f2] at g7; exact g7), ?_, ?_⟩
    · have hp : m.b.ptrAdd (.loc nb 0) (E.hash x.2.1 % bc) = .ok (.loc nb l1.length) := by
        have := ha.ptrAdd (i := 0) (n := l1.length) (by rw [heads_length]; simp; omega)
        rw [← hl1]; simpa using this
      have hr : m.b.read (.loc nb l1.length) = .ok (nextOf c 0) := ha.read (heads_mid _ _ _)
      simp only [HTable.moveChainU, nextOf_cons, if_neg hn0, hnode, Exec.ok_bind, bucketIndex,
        if_neg (show bc ≠ 0 by omega), hp, hr, e1, f1, g1, List.length_cons, Nat.add_lt_add_iff_right,
        Nat.add_sub_add_right]
    · rw [List.take_succ_cons]
      exact g4.trans (hperm _)
    · intro q hq
      rw [List.take_succ_cons] at hq
      rw [g8 q (fun hm => hq (((hperm _).map Prod.fst).mem_iff.1 hm)), f2, e3,
        Function.update_of_ne]
      rintro rfl
      exact hq (by simp)
    · intro b hb
      rw [g9 b hb, f4 b hb, e2]

/-- A chain moved without a panic is moved as always. -/
theorem moveChainU_returns {nb : Ptr} {bc : Nat} : ∀ {fuel p n n' : Nat} {m m' : HMem K V},
    HTable.moveChainU E nb bc fuel p n m = .ok (some n', m') →
    HTable.moveChain E nb bc fuel p m = .ok m' := by
  intro fuel
  induction fuel with
  | zero => intro p n n' m m' h; cases h
  | succ f ih =>
    intro p n n' m m' h
    simp only [HTable.moveChainU] at h
    simp only [HTable.moveChain]
    split at h
    · rw [if_pos ‹_›]
      simp only [Except.ok.injEq, Prod.mk.injEq] at h
      rw [h.2]
    · rw [if_neg ‹_›]
      obtain ⟨c, h1, h⟩ := Exec.of_bind_ok h
      rw [h1]
      cases n with
      | zero => simp at h
      | succ n =>
        obtain ⟨i, h2, h⟩ := Exec.of_bind_ok h
        obtain ⟨s, h3, h⟩ := Exec.of_bind_ok h
        obtain ⟨x, h4, h⟩ := Exec.of_bind_ok h
        obtain ⟨m1, h5, h⟩ := Exec.of_bind_ok h
        obtain ⟨m2, h6, h⟩ := Exec.of_bind_ok h
        simp only [Exec.ok_bind, h2, h3, h4, h5, h6]
        exact ih h

theorem moveChainsU_returns {nb : Ptr} {bc fuel : Nat} : ∀ {l : Nat} {p : Ptr} {n n' : Nat}
    {m m' : HMem K V}, HTable.moveChainsU E fuel nb bc p l n m = .ok (some n', m') →
    HTable.moveChains E fuel nb bc p l m = .ok m' := by
  intro l
  induction l with
  | zero =>
    intro p n n' m m' h
    simp only [HTable.moveChainsU, Except.ok.injEq, Prod.mk.injEq] at h
    rw [HTable.moveChains, h.2]
  | succ l ih =>
    intro p n n' m m' h
    simp only [HTable.moveChainsU] at h
    simp only [HTable.moveChains]
    obtain ⟨x, h1, h⟩ := Exec.of_bind_ok h
    rw [h1]
    simp only [Exec.ok_bind]
    split at h
    · rw [if_pos ‹_›]
      exact ih h
    · rw [if_neg ‹_›]
      obtain ⟨⟨o, m1⟩, h2, h⟩ := Exec.of_bind_ok h
      cases o with
      | none => simp at h
      | some n1 =>
        obtain ⟨m2, h3, h⟩ := Exec.of_bind_ok h
        rw [moveChainU_returns h2]
        simp only [Exec.ok_bind, h3]
        exact ih h

/-- Moving all chains `ds`, if no hash panics. -/
theorem moveChainsU_all {nb bc ob fuel : Nat} (hnb : nb ≠ E.stat) (hbc : 0 < bc)
    (hne : ob ≠ nb) :
    ∀ {ds : List (List (Nat × K × V))} {cs : List (List (Nat × K × V))} {pre post : List Nat}
      {n : Nat} {m : HMem K V}, (ob = E.stat → ds.flatten = []) →
    cs.length = bc → (∀ d ∈ ds, HSeg m.n d 0) → (∀ c ∈ cs, HSeg m.n c 0) →
    ((ds.flatten ++ cs.flatten).map Prod.fst).Nodup →
    ArrIs m.b ob (pre ++ ds.map (fun c => nextOf c 0) ++ post) → ArrIs m.b nb (heads cs) →
    Home E.hash bc cs → ds.flatten.length < fuel →
    (ds.flatten.length ≤ n ∧ ∃ m', HTable.moveChainsU E fuel (.loc nb 0) bc (.loc ob pre.length)
        ds.length n m = .ok (some (n - ds.flatten.length), m')) ∨
    (∃ (A : List (List (Nat × K × V))) (d : List (Nat × K × V)) (B : List (List (Nat × K × V)))
      (j : Nat) (m' : HMem K V) (cs' : List (List (Nat × K × V))), ds = A ++ d :: B ∧ j < d.length ∧ A.flatten.length + j = n ∧
      HTable.moveChainsU E fuel (.loc nb 0) bc (.loc ob pre.length) ds.length n m =
        .ok (none, m') ∧
      (∀ c ∈ cs', HSeg m'.n c 0) ∧ cs'.flatten.Perm (A.flatten ++ d.take j ++ cs.flatten) ∧
      ArrIs m'.b ob (pre ++ List.replicate A.length 0 ++ (d :: B).map (fun c => nextOf c 0) ++
        post) ∧
      m'.b.live nb ≠ none ∧ NSame m.n m'.n ∧
      (∀ q, q ∉ (A.flatten ++ d.take j ++ cs.flatten).map Prod.fst → m'.n.node q = m.n.node q) ∧
      (∀ b, b ≠ nb → b ≠ ob → m'.b.live b = m.b.live b)) := by
  intro ds
  induction ds with
  | nil =>
    intro cs pre post n m _ hl _ hcs _ ha1 ha2 hh _
    exact .inl ⟨Nat.zero_le _, m, rfl⟩
  | cons d ds ih =>
    intro cs pre post n m hst hl hds hcs hnd ha1 ha2 hh hf
    have hr : m.b.read (.loc ob pre.length) = .ok (nextOf d 0) := ha1.read (by simp)
    have hd := hds d (by simp)
    by_cases hd0 : d = []
    · subst hd0
      rcases ih (cs := cs) (pre := pre ++ [0]) (post := post) (n := n) (m := m)
        (by simpa using hst) hl (fun x hx => hds x (by simp [hx])) hcs
        (by simpa using hnd) (by simpa using ha1) ha2 hh (by simpa using hf) with
        ⟨h1, m', h2⟩ | ⟨A, d, B, j, m', cs', h1, h2, h3, h4, h5, h6, h7, h8, h9, h10, h11⟩
      · refine .inl ⟨by simpa using h1, m', ?_⟩
        simp only [List.length_append, List.length_cons, List.length_nil, Nat.zero_add] at h2
        simp only [HTable.moveChainsU, hr, nextOf_nil, Exec.ok_bind, if_true, List.length_cons,
          Ptr.next, h2, List.flatten_cons, List.nil_append]
      · refine .inr ⟨[] :: A, d, B, j, m', cs', by rw [h1]; rfl, h2, by simpa using h3, ?_, h5,
          by simpa using h6, by simpa [List.replicate_succ] using h7, h8, h9, by simpa using h10,
          h11⟩
        simp only [List.length_append, List.length_cons, List.length_nil, Nat.zero_add] at h4
        simp only [HTable.moveChainsU, hr, nextOf_nil, Exec.ok_bind, if_true, List.length_cons,
          Ptr.next, h4]
    · have hnst : ob ≠ E.stat := by
        intro h
        have := hst h
        simp only [List.flatten_cons, List.append_eq_nil_iff] at this
        exact hd0 this.1
      have hnd1 : ((d ++ cs.flatten).map Prod.fst).Nodup := by
        refine List.Nodup.sublist ?_ hnd
        refine List.Sublist.map _ (List.Sublist.append ?_ (List.Sublist.refl _))
        simp
      have hh0 : nextOf d 0 ≠ 0 := fun h => hd0 (hd.nextOf_ne.1 h)
      obtain ⟨m1, cs1, e1, e2, e3, e4, e5, e6, e7, e8, e9⟩ := moveChainU_ok hnb hbc (fuel := fuel)
        (n := n) hl hd hcs hnd1 ha2 hh (by simp at hf; omega)
      have ha1' : ArrIs m1.b ob (pre ++ (d :: ds).map (fun c => nextOf c 0) ++ post) :=
        ha1.congr (e9 ob hne)
      by_cases hlt : n < d.length
      · right
        rw [if_pos hlt] at e1
        refine ⟨[], d, ds, n, m1, cs1, rfl, hlt, by simp, ?_, e3, by simpa using e4,
          by simpa using ha1', ?_, e7, by simpa using e8, fun b hb _ => e9 b hb⟩
        · simp only [HTable.moveChainsU, hr, Exec.ok_bind, if_neg hh0, e1, List.length_cons]
        · obtain ⟨blk, h1, _⟩ := e5
          rw [h1]; simp
      rw [if_neg hlt] at e1
      rw [List.take_of_length_le (by omega)] at e4 e8
      obtain ⟨m2, f1, f2, f3, f4⟩ := ha1'.write hnst (i := pre.length) (by simp) 0
      have hset : (pre ++ (d :: ds).map (fun c => nextOf c 0) ++ post).set pre.length 0 =
          pre ++ [0] ++ ds.map (fun c => nextOf c 0) ++ post := by
        simp
      rw [hset] at f3
      have hout : ∀ x ∈ ds.flatten, x.1 ∉ (d ++ cs.flatten).map Prod.fst := by
        intro x hx hm
        rw [List.map_append, List.mem_append] at hm
        simp only [List.flatten_cons, List.map_append, List.append_assoc] at hnd
        rw [List.nodup_append] at hnd
        obtain ⟨_, h2, h3⟩ := hnd
        have hx' := List.mem_map_of_mem (f := Prod.fst) hx
        rcases hm with hm | hm
        · exact h3 x.1 hm x.1 (by simp only [List.mem_append]; exact .inl hx') rfl
        · rw [List.nodup_append] at h2
          exact h2.2.2 x.1 hx' x.1 hm rfl
      have hperm : ∀ l : List (Nat × K × V), (l ++ cs1.flatten).Perm (d ++ l ++ cs.flatten) := by
        intro l
        refine (List.Perm.append_left l e4).trans ?_
        rw [← List.append_assoc]
        exact List.Perm.append_right _ List.perm_append_comm
      have hstep : ∀ r, HTable.moveChainsU E fuel (.loc nb 0) bc (.loc ob (pre ++ [0]).length)
            ds.length (n - d.length) m2 = r →
          HTable.moveChainsU E fuel (.loc nb 0) bc (.loc ob pre.length) (d :: ds).length n m = r := by
        intro r hr'
        simp only [List.length_append, List.length_cons, List.length_nil, Nat.zero_add] at hr'
        simp only [HTable.moveChainsU, hr, Exec.ok_bind, if_neg hh0, e1, f1, List.length_cons,
          Ptr.next, hr']
      rcases ih (cs := cs1) (n := n - d.length)
        (pre := pre ++ [0]) (post := post) (m := m2) (fun h => absurd h hnst) e2 (by
          intro x hx
          rw [f2]
          refine (hds x (by simp [hx])).frame fun y hy => e8 y.1 (hout y ?_)
          exact List.mem_flatten.2 ⟨x, hx, hy⟩) (by rw [f2]; exact e3)
        (((hperm ds.flatten).map Prod.fst).nodup_iff.2 hnd) f3 (e5.congr (f4 nb (Ne.symm hne))) e6
        (by simp only [List.flatten_cons, List.length_append] at hf; omega) with
        ⟨h1, m', h2⟩ | ⟨A, d', B, j, m', cs', h1, h2, h3, h4, h5, h6, h7, h8, h9, h10, h11⟩
      · refine .inl ⟨by simp only [List.flatten_cons, List.length_append]; omega, m', ?_⟩
        rw [hstep _ h2, List.flatten_cons, List.length_append, Nat.sub_sub]
      · refine .inr ⟨d :: A, d', B, j, m', cs', by rw [h1]; rfl, h2, ?_, hstep _ h4, h5, ?_,
          by simpa [List.replicate_succ] using h7, h8, e7.trans (by rw [f2] at h9; exact h9), ?_, ?_⟩
        · simp only [List.flatten_cons, List.length_append]; omega
        · refine h6.trans ((hperm _).trans (List.Perm.of_eq ?_))
          simp
        · intro q hq
          have hq' : q ∉ (d ++ (A.flatten ++ d'.take j) ++ cs.flatten).map Prod.fst := by
            simpa using hq
          rw [h10 q (fun hm => hq' (((hperm _).map Prod.fst).mem_iff.1 hm)), f2, e8]
          intro hm
          exact hq' (by
            simp only [List.map_append, List.mem_append] at hm ⊢
            tauto)
        · intro b hb hb'
          rw [h11 b hb hb', f4 b hb', e9 b hb]

end Verif
