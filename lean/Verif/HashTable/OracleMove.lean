import Verif.HashTable.Oracle
import Verif.Unwind.KeysRun

/-! Searching and rehashing when hash function and equality have a state and may panic. -/

set_option autoImplicit false

namespace Verif
open Spec

variable {τ K V σ : Type} {ok : Prop} {E : HEnv K V σ} {F : HashFns τ K}
  {Inv : σ → HNMem K V → List Nat → Prop}
  {w : World Nat} {wn : Nat → Option (Option (HCell K V))} {m : HMem K V} {t : HTable σ}
  {bl : List Nat} {cs : List (List (Nat × K × V))}

/-- Neither the hash function nor the equality ever panics. -/
def HashFns.Calm (F : HashFns τ K) : Prop :=
  (∀ s k, (F.hash s k).1 ≠ none) ∧ ∀ s a b, (F.eq s a b).1 ≠ none

theorem findInBucketO_ok (k : K) : ∀ {c : List (Nat × K × V)} {fuel : Nat} (s : τ), HSeg m.n c 0 →
    c.length < fuel → ∃ o s', findInBucketO F fuel (nextOf c 0) k s m = .ok (o, s') ∧
      (F.Calm → o ≠ none) ∧ ∀ p, o = some (some p) → ∃ x ∈ c, p = x.1 := by
  intro c
  induction c with
  | nil =>
    intro fuel s _ hf
    obtain ⟨f, rfl⟩ : ∃ f, fuel = f + 1 := ⟨fuel - 1, by omega⟩
    exact ⟨some none, s, by simp [findInBucketO], by simp, by simp⟩
  | cons x c ih =>
    intro fuel s h hf
    obtain ⟨f, rfl⟩ : ∃ f, fuel = f + 1 := ⟨fuel - 1, by omega⟩
    have hn := (HSeg.node (a := []) h).2
    rcases he : F.eq s x.2.1 k with ⟨_ | _ | _, s'⟩
    · refine ⟨none, s', ?_, fun hc => absurd (by rw [he]) (hc.2 s x.2.1 k), by simp⟩
      simp only [findInBucketO, nextOf_cons, if_neg h.1, hn, Exec.ok_bind, he]
    · obtain ⟨o, s1, e1, e2, e3⟩ := ih s' h.2.2 (fuel := f) (by simp at hf; omega)
      refine ⟨o, s1, ?_, e2, fun p hp => ?_⟩
      · simp only [findInBucketO, nextOf_cons, if_neg h.1, hn, Exec.ok_bind, he, e1]
      · obtain ⟨y, hy, h1⟩ := e3 p hp
        exact ⟨y, List.mem_cons_of_mem _ hy, h1⟩
    · refine ⟨some (some x.1), s', ?_, by simp, fun p hp => ⟨x, by simp, ?_⟩⟩
      · simp only [findInBucketO, nextOf_cons, if_neg h.1, hn, Exec.ok_bind, he]
      · simpa using hp.symm

theorem removeLoopO_ok (k : K) : ∀ {c : List (Nat × K × V)} {fuel : Nat} {sl : HSlot} (s : τ),
    HSeg m.n c 0 → c.length < fuel → sl.read m = .ok (nextOf c 0) →
    ∃ o s', HTable.removeLoopO F k fuel sl s m = .ok (o, s') ∧ (F.Calm → o ≠ none) ∧
      ∀ r, o = some r → ∃ c1 c2, c = c1 ++ c2 ∧ r = (slotAfter sl c1, nextOf c2 0) := by
  intro c
  induction c with
  | nil =>
    intro fuel sl s _ hf hs
    obtain ⟨f, rfl⟩ : ∃ f, fuel = f + 1 := ⟨fuel - 1, by omega⟩
    refine ⟨some (sl, 0), s, by simp [HTable.removeLoopO, hs], by simp, fun r hr => ⟨[], [], rfl, ?_⟩⟩
    simpa [slotAfter] using hr.symm
  | cons x c ih =>
    intro fuel sl s h hf hs
    obtain ⟨f, rfl⟩ : ∃ f, fuel = f + 1 := ⟨fuel - 1, by omega⟩
    have hn := (HSeg.node (a := []) h).2
    have h0 := h.1
    rcases he : F.eq s x.2.1 k with ⟨_ | _ | _, s'⟩
    · refine ⟨none, s', ?_, fun hc => absurd (by rw [he]) (hc.2 s x.2.1 k), by simp⟩
      simp only [HTable.removeLoopO, hs, nextOf_cons, Exec.ok_bind, if_neg h0, hn, he]
    · obtain ⟨o, s1, e1, e2, e3⟩ := ih s' h.2.2 (fuel := f) (sl := .next x.1) (by simp at hf; omega)
        (by simp [HSlot.read, hn])
      refine ⟨o, s1, ?_, e2, fun r hr => ?_⟩
      · simp only [HTable.removeLoopO, hs, nextOf_cons, Exec.ok_bind, if_neg h0, hn, he, e1]
      · obtain ⟨c1, c2, rfl, h2⟩ := e3 r hr
        exact ⟨x :: c1, c2, rfl, by rw [slotAfter_cons]; exact h2⟩
    · refine ⟨some (sl, x.1), s', ?_, by simp, fun r hr => ⟨[], x :: c, rfl, ?_⟩⟩
      · simp only [HTable.removeLoopO, hs, nextOf_cons, Exec.ok_bind, if_neg h0, hn, he]
      · simpa [slotAfter] using hr.symm

/-- The bucket of a hash. -/
theorem HCore.bucketAt (h : HCore ok E Inv w wn m t bl cs) (hk : Nat) :
    ∃ l1 c l2, cs = l1 ++ c :: l2 ∧ l1.length = hk % t.bucketCount ∧
      t.bucketAt hk m = .ok (.loc (curArr E bl) l1.length) ∧
      m.b.read (.loc (curArr E bl) l1.length) = .ok (nextOf c 0) := by
  have hi : hk % t.bucketCount < cs.length := by
    rw [h.len]; exact Nat.mod_lt _ h.pos
  obtain ⟨l1, l2, hcs, hl1⟩ := split_at (List.getElem?_eq_getElem hi)
  generalize cs[hk % t.bucketCount] = c at hcs
  subst hcs
  refine ⟨l1, c, l2, rfl, hl1, ?_, h.arr.read (heads_mid _ _ _)⟩
  have := h.arr.ptrAdd (i := 0) (n := l1.length) (by rw [heads_length]; simp; omega)
  have hp := h.pos
  simp only [HTable.bucketAt, if_neg (show t.bucketCount ≠ 0 by omega), h.start, ← hl1, this,
    Nat.zero_add]

/-- A search finds some entry, or none and some bucket. -/
theorem HCore.findO (h : HCore ok E Inv w wn m t bl cs) (k : K) (s : τ) :
    ∃ o s', t.findO F k s m = .ok (o, s') ∧ (F.Calm → o ≠ none) ∧
      (o = none ∨
      (∃ b l1 l2 c1 c2 x, o = some (b, some x.1) ∧ cs = l1 ++ (c1 ++ x :: c2) :: l2 ∧
        m.node x.1 = .ok ⟨x.2.1, x.2.2, nextOf c2 0⟩) ∨
      ∃ l1 c l2, o = some (.loc (curArr E bl) l1.length, none) ∧ cs = l1 ++ c :: l2) := by
  rcases hh : F.hash s k with ⟨_ | hk, s1⟩
  · exact ⟨none, s1, by simp only [HTable.findO, hh], fun hc => absurd (by rw [hh]) (hc.1 s k),
      .inl rfl⟩
  obtain ⟨l1, c, l2, rfl, _, e2, e3⟩ := h.bucketAt hk
  have hc := h.chains c (by simp)
  have hfit := h.fits
  simp only [List.flatten_append, List.flatten_cons, List.length_append] at hfit
  obtain ⟨o, s2, f1, f2, f3⟩ := findInBucketO_ok (F := F) k s1 hc (fuel := t.count + 1) (by omega)
  refine ⟨o.map fun o => (.loc (curArr E bl) l1.length, o), s2, by simp only [HTable.findO, hh, e2, e3, f1, Exec.ok_bind], ?_, ?_⟩
  · intro hcalm
    have := f2 hcalm
    cases o <;> simp_all
  · cases o with
    | none => exact .inl rfl
    | some o =>
      cases o with
      | none => exact .inr (.inr ⟨l1, c, l2, rfl, rfl⟩)
      | some p =>
        obtain ⟨x, hx, rfl⟩ := f3 p rfl
        obtain ⟨c1, c2, rfl⟩ := List.append_of_mem hx
        exact .inr (.inl ⟨_, l1, l2, c1, c2, x, rfl, rfl, hc.node.2⟩)

/-- Moving one chain, of which the first `j` nodes are moved before a panic. -/
theorem moveChainO_ok {nb bc : Nat} (hnb : nb ≠ E.stat) (hbc : 0 < bc) :
    ∀ {ns : List (Nat × K × V)} {cs : List (List (Nat × K × V))} {fuel : Nat} {s : τ} {m : HMem K V},
    cs.length = bc → HSeg m.n ns 0 → (∀ c ∈ cs, HSeg m.n c 0) →
    ((ns ++ cs.flatten).map Prod.fst).Nodup → ArrIs m.b nb (heads cs) → ns.length < fuel →
    ∃ o s' m' cs' j, HTable.moveChainO E F (.loc nb 0) bc fuel (nextOf ns 0) s m = .ok (o, s', m') ∧
      (F.Calm → o = true) ∧ (o = true → j = ns.length) ∧ (o = false → j < ns.length) ∧
      cs'.length = bc ∧ (∀ c ∈ cs', HSeg m'.n c 0) ∧
      cs'.flatten.Perm (ns.take j ++ cs.flatten) ∧
      ArrIs m'.b nb (heads cs') ∧ NSame m.n m'.n ∧
      (∀ q, q ∉ (ns.take j ++ cs.flatten).map Prod.fst → m'.n.node q = m.n.node q) ∧
      ∀ b, b ≠ nb → m'.b.live b = m.b.live b := by
  intro ns
  induction ns with
  | nil =>
    intro cs fuel s m hl _ hcs _ ha hf
    obtain ⟨f, rfl⟩ : ∃ f, fuel = f + 1 := ⟨fuel - 1, by omega⟩
    exact ⟨true, s, m, cs, 0, by simp [HTable.moveChainO], fun _ => rfl, fun _ => rfl, by simp, hl,
      hcs, by simp, ha, NSame.refl _, fun _ _ => rfl, fun _ _ => rfl⟩
  | cons x ns ih =>
    intro cs fuel s m hl hs hcs hnd ha hf
    obtain ⟨f, rfl⟩ : ∃ f, fuel = f + 1 := ⟨fuel - 1, by omega⟩
    have hnode := (HSeg.node (a := []) hs).2
    have hn0 : x.1 ≠ 0 := hs.1
    rcases hh : F.hash s x.2.1 with ⟨_ | hk, s1⟩
    · refine ⟨false, s1, m, cs, 0, ?_, fun hc => absurd (by rw [hh]) (hc.1 s x.2.1), by simp,
        by simp, hl, hcs, by simp, ha, NSame.refl _, fun _ _ => rfl, fun _ _ => rfl⟩
      simp only [HTable.moveChainO, nextOf_cons, if_neg hn0, hnode, Exec.ok_bind, hh]
    have hi : hk % bc < cs.length := by rw [hl]; exact Nat.mod_lt _ hbc
    obtain ⟨l1, l2, hcs', hl1⟩ := split_at (List.getElem?_eq_getElem hi)
    generalize cs[hk % bc] = c at hcs'
    subst hcs'
    obtain ⟨m1, e1, e2, e3, e4⟩ := HMem.modify_ok hnode (fun d => { d with next := nextOf c 0 })
    obtain ⟨m2, f1, f2, f3, f4⟩ := (show ArrIs m1.b nb _ by rw [e2]; exact ha).write hnb
      (i := l1.length) (by rw [heads_length]; simp) x.1
    rw [show x.1 = nextOf (x :: c) 0 from rfl, heads_set] at f3
    have hnd' := hnd
    rw [List.cons_append, List.map_cons, List.nodup_cons] at hnd
    have hnot : ∀ y ∈ ns ++ (l1 ++ c :: l2).flatten, m2.n.node y.1 = m.n.node y.1 := by
      intro y hy
      rw [f2, e3, Function.update_of_ne]
      intro h
      exact hnd.1 (by rw [← h]; exact List.mem_map_of_mem hy)
    have hperm : ∀ l : List (Nat × K × V), (l ++ (l1 ++ (x :: c) :: l2).flatten).Perm
        ((x :: l) ++ (l1 ++ c :: l2).flatten) := by
      intro l
      simp only [List.flatten_append, List.flatten_cons, List.cons_append]
      rw [← List.append_assoc, ← List.append_assoc l]
      exact List.perm_middle
    obtain ⟨o, s', m', cs', j, g1, g2, g3, g4, g5, g6, g7, g8, g9, g10, g11⟩ :=
      ih (cs := l1 ++ (x :: c) :: l2) (fuel := f) (s := s1)
      (m := m2) (by rw [← hl]; simp) (hs.2.2.frame fun y hy => hnot y (by simp [hy])) (by
        intro d hd
        simp only [List.mem_append, List.mem_cons] at hd
        rcases hd with hd | rfl | hd
        · exact (hcs d (by simp [hd])).frame fun y hy => hnot y (by
            simp only [List.mem_append, List.mem_flatten]
            exact .inr ⟨d, by simp [hd], hy⟩)
        · refine ⟨hn0, ?_, (hcs c (by simp)).frame fun y hy => hnot y (by
            simp only [List.mem_append, List.mem_flatten]
            exact .inr ⟨c, by simp, hy⟩)⟩
          rw [f2, e3, Function.update_self]
        · exact (hcs d (by simp [hd])).frame fun y hy => hnot y (by
            simp only [List.mem_append, List.mem_flatten]
            exact .inr ⟨d, by simp [hd], hy⟩))
      (((hperm ns).map Prod.fst).nodup_iff.2 hnd') f3 (by simp at hf; omega)
    refine ⟨o, s', m', cs', j + 1, ?_, g2, fun ho => by simp [g3 ho],
      fun ho => by have := g4 ho; simp; omega, g5, g6, ?_, g8,
      e4.trans (by rw [f2] at g9; exact g9), ?_, ?_⟩
    · have hp : m.b.ptrAdd (.loc nb 0) (hk % bc) = .ok (.loc nb l1.length) := by
        have := ha.ptrAdd (i := 0) (n := l1.length) (by rw [heads_length]; simp; omega)
        rw [← hl1]; simpa using this
      have hr : m.b.read (.loc nb l1.length) = .ok (nextOf c 0) := ha.read (heads_mid _ _ _)
      simp only [HTable.moveChainO, nextOf_cons, if_neg hn0, hnode, Exec.ok_bind, hh,
        if_neg (show bc ≠ 0 by omega), hp, hr, e1, f1, g1]
    · rw [List.take_succ_cons]
      exact g7.trans (hperm _)
    · intro q hq
      rw [List.take_succ_cons] at hq
      rw [g10 q (fun hm => hq (((hperm _).map Prod.fst).mem_iff.1 hm)), f2, e3,
        Function.update_of_ne]
      rintro rfl
      exact hq (by simp)
    · intro b hb
      rw [g11 b hb, f4 b hb, e2]

set_option maxHeartbeats 400000 in
/-- Moving all chains `ds`, until a hash panics. -/
theorem moveChainsO_all {nb bc ob fuel : Nat} (hnb : nb ≠ E.stat) (hbc : 0 < bc)
    (hne : ob ≠ nb) :
    ∀ {ds : List (List (Nat × K × V))} {cs : List (List (Nat × K × V))} {pre post : List Nat}
      {s : τ} {m : HMem K V}, (ob = E.stat → ds.flatten = []) →
    cs.length = bc → (∀ d ∈ ds, HSeg m.n d 0) → (∀ c ∈ cs, HSeg m.n c 0) →
    ((ds.flatten ++ cs.flatten).map Prod.fst).Nodup →
    ArrIs m.b ob (pre ++ ds.map (fun c => nextOf c 0) ++ post) → ArrIs m.b nb (heads cs) →
    ds.flatten.length < fuel →
    (∃ (s' : τ) (m' : HMem K V) (cs' : List (List (Nat × K × V))),
      HTable.moveChainsO E F fuel (.loc nb 0) bc (.loc ob pre.length) ds.length s m =
        .ok (true, s', m') ∧
      cs'.length = bc ∧ (∀ c ∈ cs', HSeg m'.n c 0) ∧ cs'.flatten.Perm (ds.flatten ++ cs.flatten) ∧
      ArrIs m'.b ob (pre ++ List.replicate ds.length 0 ++ post) ∧
      ArrIs m'.b nb (heads cs') ∧ NSame m.n m'.n ∧
      (∀ q, q ∉ (ds.flatten ++ cs.flatten).map Prod.fst → m'.n.node q = m.n.node q) ∧
      (∀ b, b ≠ nb → b ≠ ob → m'.b.live b = m.b.live b) ∧
      (ob = E.stat → m'.b.live ob = m.b.live ob)) ∨
    (∃ (A : List (List (Nat × K × V))) (d : List (Nat × K × V)) (B : List (List (Nat × K × V)))
      (j : Nat) (s' : τ) (m' : HMem K V) (cs' : List (List (Nat × K × V))), ds = A ++ d :: B ∧
      j < d.length ∧ ¬ F.Calm ∧
      HTable.moveChainsO E F fuel (.loc nb 0) bc (.loc ob pre.length) ds.length s m =
        .ok (false, s', m') ∧
      (∀ c ∈ cs', HSeg m'.n c 0) ∧ cs'.flatten.Perm (A.flatten ++ d.take j ++ cs.flatten) ∧
      ArrIs m'.b ob (pre ++ List.replicate A.length 0 ++ (d :: B).map (fun c => nextOf c 0) ++
        post) ∧
      m'.b.live nb ≠ none ∧ NSame m.n m'.n ∧
      (∀ q, q ∉ (A.flatten ++ d.take j ++ cs.flatten).map Prod.fst → m'.n.node q = m.n.node q) ∧
      (∀ b, b ≠ nb → b ≠ ob → m'.b.live b = m.b.live b)) := by
  intro ds
  induction ds with
  | nil =>
    intro cs pre post s m _ hl _ hcs _ ha1 ha2 _
    exact .inl ⟨s, m, cs, rfl, hl, hcs, by simp, by simpa using ha1, ha2, NSame.refl _,
      fun _ _ => rfl, fun _ _ _ => rfl, fun _ => rfl⟩
  | cons d ds ih =>
    intro cs pre post s m hst hl hds hcs hnd ha1 ha2 hf
    have hr : m.b.read (.loc ob pre.length) = .ok (nextOf d 0) := ha1.read (by simp)
    have hd := hds d (by simp)
    have hzero : pre ++ List.replicate (d :: ds).length 0 ++ post =
        pre ++ [0] ++ List.replicate ds.length 0 ++ post := by
      simp [List.replicate_succ]
    by_cases hd0 : d = []
    · subst hd0
      rcases ih (cs := cs) (pre := pre ++ [0]) (post := post) (s := s) (m := m)
        (by simpa using hst) hl (fun x hx => hds x (by simp [hx])) hcs
        (by simpa using hnd) (by simpa using ha1) ha2 (by simpa using hf) with
        ⟨s', m', cs', g1, g2, g3, g4, g5, g6, g7, g8, g9, g10⟩ |
          ⟨A, d, B, j, s', m', cs', h1, h2, h3, h4, h5, h6, h7, h8, h9, h10, h11⟩
      · refine .inl ⟨s', m', cs', ?_, g2, g3, by simpa using g4, by rw [hzero]; exact g5, g6, g7,
          by simpa using g8, g9, g10⟩
        simp only [List.length_append, List.length_cons, List.length_nil, Nat.zero_add] at g1
        simp only [HTable.moveChainsO, hr, nextOf_nil, Exec.ok_bind, if_true, List.length_cons,
          Ptr.next, g1]
      · refine .inr ⟨[] :: A, d, B, j, s', m', cs', by rw [h1]; rfl, h2, h3, ?_, h5,
          by simpa using h6, by simpa [List.replicate_succ] using h7, h8, h9, by simpa using h10,
          h11⟩
        simp only [List.length_append, List.length_cons, List.length_nil, Nat.zero_add] at h4
        simp only [HTable.moveChainsO, hr, nextOf_nil, Exec.ok_bind, if_true, List.length_cons,
          Ptr.next, h4]
    · have hnst : ob ≠ E.stat := by
        intro h
        have := hst h
        simp only [List.flatten_cons, List.append_eq_nil_iff] at this
        exact hd0 this.1
      have hnd1 : ((d ++ cs.flatten).map Prod.fst).Nodup := by
        refine List.Nodup.sublist ?_ hnd
        refine List.Sublist.map _ (List.Sublist.append ?_ (List.Sublist.refl _))
        simp
      have hh0 : nextOf d 0 ≠ 0 := fun h => hd0 (hd.nextOf_ne.1 h)
      obtain ⟨o, s1, m1, cs1, i, e1, e2, e3, e4, e5, e6, e7, e8, e9, e10, e11⟩ :=
        moveChainO_ok (E := E) (F := F) hnb hbc (fuel := fuel)
        (s := s) hl hd hcs hnd1 ha2 (by simp at hf; omega)
      have ha1' : ArrIs m1.b ob (pre ++ (d :: ds).map (fun c => nextOf c 0) ++ post) :=
        ha1.congr (e11 ob hne)
      cases o with
      | false =>
        right
        refine ⟨[], d, ds, i, s1, m1, cs1, rfl, e4 rfl, fun hc => by simpa using e2 hc, ?_, e6,
          by simpa using e7, by simpa using ha1', ?_, e9, by simpa using e10, fun b hb _ => e11 b hb⟩
        · simp only [HTable.moveChainsO, hr, Exec.ok_bind, if_neg hh0, e1, List.length_cons]
        · obtain ⟨blk, h1, _⟩ := e8
          rw [h1]; simp
      | true =>
      obtain rfl := e3 rfl
      rw [List.take_length] at e7 e10
      obtain ⟨m2, f1, f2, f3, f4⟩ := ha1'.write hnst (i := pre.length) (by simp) 0
      have hset : (pre ++ (d :: ds).map (fun c => nextOf c 0) ++ post).set pre.length 0 =
          pre ++ [0] ++ ds.map (fun c => nextOf c 0) ++ post := by
        simp
      rw [hset] at f3
      have hout : ∀ x ∈ ds.flatten, x.1 ∉ (d ++ cs.flatten).map Prod.fst := by
        intro x hx hm
        rw [List.map_append, List.mem_append] at hm
        simp only [List.flatten_cons, List.map_append, List.append_assoc] at hnd
        rw [List.nodup_append] at hnd
        obtain ⟨_, h2, h3⟩ := hnd
        have hx' := List.mem_map_of_mem (f := Prod.fst) hx
        rcases hm with hm | hm
        · exact h3 x.1 hm x.1 (by simp only [List.mem_append]; exact .inl hx') rfl
        · rw [List.nodup_append] at h2
          exact h2.2.2 x.1 hx' x.1 hm rfl
      have hperm : ∀ l : List (Nat × K × V), (l ++ cs1.flatten).Perm (d ++ l ++ cs.flatten) := by
        intro l
        refine (List.Perm.append_left l e7).trans ?_
        rw [← List.append_assoc]
        exact List.Perm.append_right _ List.perm_append_comm
      have hstep : ∀ r, HTable.moveChainsO E F fuel (.loc nb 0) bc (.loc ob (pre ++ [0]).length)
            ds.length s1 m2 = r →
          HTable.moveChainsO E F fuel (.loc nb 0) bc (.loc ob pre.length) (d :: ds).length s m = r := by
        intro r hr'
        simp only [List.length_append, List.length_cons, List.length_nil, Nat.zero_add] at hr'
        simp only [HTable.moveChainsO, hr, Exec.ok_bind, if_neg hh0, e1, f1, List.length_cons,
          Ptr.next, hr']
      rcases ih (cs := cs1) (s := s1)
        (pre := pre ++ [0]) (post := post) (m := m2) (fun h => absurd h hnst) e5 (by
          intro x hx
          rw [f2]
          refine (hds x (by simp [hx])).frame fun y hy => e10 y.1 (hout y ?_)
          exact List.mem_flatten.2 ⟨x, hx, hy⟩) (by rw [f2]; exact e6)
        (((hperm ds.flatten).map Prod.fst).nodup_iff.2 hnd) f3 (e8.congr (f4 nb (Ne.symm hne)))
        (by simp only [List.flatten_cons, List.length_append] at hf; omega) with
        ⟨s', m', cs', g1, g2, g3, g4, g5, g6, g7, g8, g9, g10⟩ |
          ⟨A, d', B, j, s', m', cs', h1, h2, h3, h4, h5, h6, h7, h8, h9, h10, h11⟩
      · refine .inl ⟨s', m', cs', hstep _ g1, g2, g3, g4.trans (hperm _), by rw [hzero]; exact g5, g6,
          e9.trans (by rw [f2] at g7; exact g7), ?_, ?_, fun h => absurd h hnst⟩
        · intro q hq
          have hq' : q ∉ (d ++ ds.flatten ++ cs.flatten).map Prod.fst := by simpa using hq
          rw [g8 q (fun hm => hq' (((hperm _).map Prod.fst).mem_iff.1 hm)), f2, e10]
          intro hm
          exact hq' (by
            simp only [List.map_append, List.mem_append] at hm ⊢
            exact hm.elim (fun hm => .inl (.inl hm)) .inr)
        · intro b hb hb'
          rw [g9 b hb hb', f4 b hb', e11 b hb]
      · refine .inr ⟨d :: A, d', B, j, s', m', cs', by rw [h1]; rfl, h2, h3, hstep _ h4, h5, ?_,
          by simpa [List.replicate_succ] using h7, h8, e9.trans (by rw [f2] at h9; exact h9), ?_, ?_⟩
        · refine h6.trans ((hperm _).trans (List.Perm.of_eq ?_))
          simp
        · intro q hq
          have hq' : q ∉ (d ++ (A.flatten ++ d'.take j) ++ cs.flatten).map Prod.fst := by
            simpa using hq
          rw [h10 q (fun hm => hq' (((hperm _).map Prod.fst).mem_iff.1 hm)), f2, e10]
          intro hm
          exact hq' (by
            simp only [List.map_append, List.mem_append] at hm ⊢
            exact hm.elim (fun hm => .inl (.inl hm)) .inr)
        · intro b hb hb'
          rw [h11 b hb hb', f4 b hb', e11 b hb]

/-- Rehashing: done, or left by a panic. -/
theorem HCore.rehashO (L : HLaw E Inv) (h : HCore False E Inv w wn m t bl cs) {bc : Nat}
    (hbc : 0 < bc) (s : τ) :
    (∃ s' t' m' nb cs', t.rehashO E F bc s m = .ok (true, s', t', m') ∧
      HCore False E Inv w wn m' t' (nb :: bl) cs' ∧ cs'.flatten.Perm cs.flatten ∧
      t'.bucketCount = bc ∧ t'.count = t.count ∧ t'.nextResize = t.nextResize ∧
      m'.n.dropped = m.n.dropped) ∨
    (∃ (s' : τ) (m' : HMem K V) (nb b0 : Nat) (bs : List Nat) (cs' : List (List (Nat × K × V)))
      (lost : List (Nat × K × V)),
      t.rehashO E F bc s m = .ok (false, s', t, m') ∧ ¬ F.Calm ∧ bl = b0 :: bs ∧
      cs.flatten.Perm (cs'.flatten ++ lost) ∧
      HCore False E (fun a m ps => Inv a m (ps ++ lost.map Prod.fst)) w wn m' t (b0 :: nb :: bs) cs' ∧
      m'.n.dropped = m.n.dropped) := by
  have hstat : m.b.live E.stat ≠ none := by
    rw [h.out E.stat (fun hm => h.stat (h.blNew _ hm).1)]; exact h.stat
  obtain ⟨nb, mb, m1, m2, p, e1, e2, e3, e4, e5, e6, e7, e8, e9⟩ := newArray_ok hstat bc
  have hnbl : nb ∉ bl := fun hm => (h.blNew nb hm).2 e3
  have hcur : curArr E bl ≠ nb := by
    intro hc
    obtain ⟨blk, h1, _⟩ := h.arr
    rw [hc, e3] at h1
    cases h1
  have hflat : (List.replicate bc ([] : List (Nat × K × V))).flatten = [] := by simp
  have hheads : heads (List.replicate bc ([] : List (Nat × K × V))) =
      List.replicate bc 0 ++ [sentinel] := by simp [heads]
  rcases moveChainsO_all (E := E) (F := F) (nb := nb)
    (bc := bc) (ob := curArr E bl) (fuel := t.count + 1) e2 hbc hcur (ds := cs)
    (cs := List.replicate bc []) (pre := []) (post := [sentinel]) (s := s) (m := m2) (by
      intro hs
      by_cases hb : bl = []
      · rw [h.empty hb]; rfl
      · exact absurd hs (curArr_ne h hb))
    (by simp) (by rw [e7]; exact h.chains) (by
      intro c hc
      rw [List.eq_of_mem_replicate hc]
      trivial)
    (by rw [hflat, List.append_nil]; exact h.nodup)
    (by
      have := h.arr.congr (e9 (curArr E bl) hcur)
      simpa [heads] using this)
    (by rw [hheads]; exact e8)
    (by have := h.fits; omega) with ⟨s', m3, cs', f1, f2, f3, f4, f5, f6, f8, f9, f10, f11⟩ |
      ⟨A, d, B, j, s', m3, cs3, f1, f2, f3, f4, f5, f6, f7, f8, f9, f10, f11⟩
  · left
    rw [hflat, List.append_nil] at f4 f9
    simp only [List.length_nil, h.len] at f1
    obtain ⟨a, m4, g1, g2, g3, g4⟩ := h.rehashEnd L False.elim hbc hnbl hcur e3 e7 e9 f2 f3 f4 f5 f6
      False.elim f8 f9 f10 f11
    refine ⟨s', { t with al := a, buckets := .loc nb 0, bucketCount := bc }, m4, nb, cs', ?_, g2, f4,
      rfl, rfl, rfl, g3⟩
    simp only [HTable.rehashO, e1, Exec.ok_bind, e4, e5, e6, h.start, f1, g1]
  · right
    rw [hflat, List.append_nil] at f6 f10
    simp only [List.length_nil, h.len] at f4
    have hbl : bl ≠ [] := by
      intro hb
      have hlen := congrArg List.flatten (h.empty hb)
      rw [f1] at hlen
      simp only [List.flatten_append, List.flatten_cons, List.flatten_nil, List.append_nil,
        List.append_eq_nil_iff] at hlen
      rw [hlen.2.1] at f2
      simp at f2
    obtain ⟨b0, bs, mid, lost, rfl, g2, g3, g4, g5, g6, g7, g8⟩ := h.rehashStop L hnbl hbl e3 e7 e9
      f1 f2 f5 f6 f7 f8 f9 f10 f11
    refine ⟨s', m3, nb, b0, bs, _, lost, ?_, f3, rfl, ?_, g6, g7⟩
    · simp only [HTable.rehashO, e1, Exec.ok_bind, e4, e5, e6, h.start, f4]
    · rw [f1]
      simp only [List.flatten_append, List.flatten_cons, List.flatten_replicate_nil,
        List.nil_append]
      rw [← List.append_assoc]
      refine (g5.append_right B.flatten).trans ?_
      rw [List.append_assoc, List.append_assoc]
      exact List.Perm.append_left _ List.perm_append_comm

end Verif
