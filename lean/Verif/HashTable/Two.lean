import Verif.HashTable.Facts

/-! Two tables in one memory. -/

set_option autoImplicit false

namespace Verif
open Spec

variable {K V σ : Type} {E : HEnv K V σ} {Inv Inv' : σ → HNMem K V → List Nat → Prop} {w : World Nat}
  {wn : Nat → Option (Option (HCell K V))} {m m' : HMem K V} {t t' : HTable σ} {bl : List Nat}
  {cs cs' : List (List (Nat × K × V))} {peak : Nat}

/-- The arrays that are not among `bl`. -/
def arraysBut (m : HMem K V) (bl : List Nat) : World Nat := fun b =>
  if b ∈ bl then none else m.b.live b

/-- The nodes that are not among `ps`. -/
def nodesBut (m : HMem K V) (ps : List Nat) : Nat → Option (Option (HCell K V)) := fun q =>
  if q ∈ ps then none else m.n.node q

/-- A change elsewhere leaves a table as it is. -/
theorem HRep.other (h : HRep True E Inv w wn m t peak bl cs)
    (hn : ∀ q ∈ addrs cs, m'.n.node q = m.n.node q) (hb : ∀ b ∈ bl, m'.b.live b = m.b.live b)
    (hs : m'.b.live E.stat = m.b.live E.stat) (hi : Inv' t.al m'.n (addrs cs)) :
    HRep True E Inv' (arraysBut m' bl) (nodesBut m' (addrs cs)) m' t peak bl cs where
  core :=
    have hstat : E.stat ∉ bl := fun hm => h.core.stat (h.core.blNew _ hm).1
    { len := h.core.len
      pos := h.core.pos
      chains := fun c hc => (h.core.chains c hc).frame fun n hm =>
        hn n.1 (List.mem_map_of_mem (List.mem_flatten.2 ⟨c, hc, hm⟩))
      nodup := h.core.nodup
      homes := h.core.homes
      dist := h.core.dist
      fits := h.core.fits
      inv := hi
      start := h.core.start
      arr := h.core.arr.congr (by
        cases bl with
        | nil => exact hs
        | cons b bl => exact hb b (by simp))
      blNodup := h.core.blNodup
      blNew := fun b hm => ⟨if_pos hm, by rw [hb b hm]; exact (h.core.blNew b hm).2⟩
      out := fun b hm => (if_neg hm).symm
      stat := by
        unfold arraysBut
        rw [if_neg hstat, hs, h.core.out _ hstat]
        exact h.core.stat
      empty := h.core.empty
      keep := by
        intro q hq
        unfold nodesBut at hq ⊢
        by_cases hm : q ∈ addrs cs
        · rw [if_pos hm] at hq; exact absurd rfl hq
        · exact ⟨hm, by rw [if_neg hm]⟩ }
  count := h.count
  policy := h.policy
  peak := h.peak
  arrs := h.arrs

/-- Both tables are intact and own disjoint nodes and arrays. -/
structure TwoTables {K V : Type} (E : HEnv K V Unit) (n0 : HNMem K V) (m : HMem K V)
    (t1 t2 : HTable Unit) (s1 s2 : List (K × V)) (bl1 bl2 : List Nat)
    (cs1 cs2 : List (List (Nat × K × V))) : Prop where
  rep1 : ∃ pk, HRep True E (fun a m ps => DefInv n0 E.size E.align a m (ps ++ addrs cs2))
    (arraysBut m bl1) (nodesBut m (addrs cs1)) m t1 pk bl1 cs1
  rep2 : ∃ pk, HRep True E (fun a m ps => DefInv n0 E.size E.align a m (ps ++ addrs cs1))
    (arraysBut m bl2) (nodesBut m (addrs cs2)) m t2 pk bl2 cs2
  perm1 : (ents cs1).Perm s1
  perm2 : (ents cs2).Perm s2
  disj : ∀ b ∈ bl1, b ∉ bl2

theorem TwoTables.symm {K V : Type} {E : HEnv K V Unit} {n0 : HNMem K V} {m : HMem K V}
    {t1 t2 : HTable Unit} {s1 s2 : List (K × V)} {bl1 bl2 : List Nat}
    {cs1 cs2 : List (List (Nat × K × V))} (h : TwoTables E n0 m t1 t2 s1 s2 bl1 bl2 cs1 cs2) :
    TwoTables E n0 m t2 t1 s2 s1 bl2 bl1 cs2 cs1 :=
  ⟨h.rep2, h.rep1, h.perm2, h.perm1, fun b h2 h1 => h.disj b h1 h2⟩

/-- A call on the first table. -/
theorem TwoTables.step {K V : Type} {E : HEnv K V Unit} {n0 : HNMem K V} {m : HMem K V}
    {t1 t2 : HTable Unit} {s1 s2 : List (K × V)} {bl1 bl2 : List Nat}
    {cs1 cs2 : List (List (Nat × K × V))} (L : HLaw E (DefInv n0 E.size E.align))
    (he : PartialEquiv E.eq) (hh : HashOk E) (h : TwoTables E n0 m t1 t2 s1 s2 bl1 bl2 cs1 cs2)
    (op : MapOp K V) (hmax : (op.step E.eq s1).2.length ≤ maxEntries) :
    ∃ t1' m' bl1' cs1', t1.step E op m = .ok ((op.step E.eq s1).1, t1', m') ∧
      TwoTables E n0 m' t1' t2 (op.step E.eq s1).2 s2 bl1' bl2 cs1' cs2 := by
  obtain ⟨pk1, r1⟩ := h.rep1
  obtain ⟨pk2, r2⟩ := h.rep2
  have hst := step_perm he h.perm1 r1.core.distinct op
  obtain ⟨t1', m', bl1', cs1', e1, e2⟩ := r1.step (L.aside (addrs cs2)) he hh op
    (by rw [hst.2.length_eq]; exact hmax)
  have hd1 : DefInv n0 E.size E.align () m.n (addrs cs1 ++ addrs cs2) := r1.core.inv
  have hd2 : DefInv n0 E.size E.align () m'.n (addrs cs1' ++ addrs cs2) := e2.rep.core.inv
  rw [hst.1] at e1
  -- what the other table owns is not touched
  have hnode : ∀ q ∈ addrs cs2, m'.n.node q = m.n.node q := by
    intro q hq
    have hq1 : q ∉ addrs cs1 := fun hm => List.disjoint_of_nodup_append hd1.nodup hm hq
    have hw : nodesBut m (addrs cs1) q = m.n.node q := if_neg hq1
    have hl : nodesBut m (addrs cs1) q ≠ none := by
      rw [hw]; exact (hd1.live q (by simp [hq])).2
    rw [(e2.rep.core.keep q hl).2, hw]
  have hnew : ∀ b, b ∉ bl1 → m.b.live b ≠ none → b ∉ bl1' ∧ m'.b.live b = m.b.live b := by
    intro b hb1 hb
    have hw : arraysBut m bl1 b = m.b.live b := if_neg hb1
    have hnb : b ∉ bl1' := fun hm => hb (by rw [← hw]; exact (e2.rep.core.blNew b hm).1)
    exact ⟨hnb, by rw [e2.rep.core.out b hnb, hw]⟩
  have harr : ∀ b ∈ bl2, b ∉ bl1' ∧ m'.b.live b = m.b.live b := fun b hb =>
    hnew b (fun h1 => h.disj b h1 hb) (r2.core.blNew b hb).2
  have hstat : m'.b.live E.stat = m.b.live E.stat := by
    have hs1 : E.stat ∉ bl1 := fun hm => r1.core.stat (r1.core.blNew _ hm).1
    refine (hnew _ hs1 ?_).2
    have := r1.core.stat
    unfold arraysBut at this
    rwa [if_neg hs1] at this
  refine ⟨t1', m', bl1', cs1', e1,
    ⟨⟨max pk1 (op.step E.eq (ents cs1)).2.length, ?_⟩, ⟨pk2, ?_⟩, e2.perm.trans hst.2, h.perm2,
    fun b h1 h2 => (harr b h2).1 h1⟩⟩
  · exact HRep.other e2.rep (fun _ _ => rfl) (fun _ _ => rfl) rfl hd2
  · exact r2.other hnode (fun b hb => (harr b hb).2) hstat (L.perm hd2 List.perm_append_comm)

end Verif
