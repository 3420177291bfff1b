import Verif.Handed.Model
import Verif.FixedVector.Move
import Verif.Text.Proofs
import Verif.Vector.Iter
import Verif.Deque.Inv
import Verif.LinkedList.Inv
import Verif.Pool.Overflow
import Verif.HashTable.Grants

/-! Containers that C++ code built satisfy the invariants that histories keep. -/

set_option autoImplicit false

namespace Verif
open Spec

variable {α K V N D : Type}

/-- Memory without the blocks `bs`. -/
def worldBut (m : Mem α) (bs : List Nat) : World α := fun p => if p ∈ bs then none else m.live p

theorem HandedVec.inv {m : Mem α} {v : Vec} {bs : List Nat} {cap : Nat} {xs : List α}
    (h : HandedVec m v bs cap xs) :
    VInv (fun _ => False) defaultFits (worldBut m bs) m v xs cap := by
  refine ⟨by simp, worldBut m bs, fun _ _ => rfl, ?_⟩
  rcases h with ⟨rfl, rfl, rfl, rfl⟩ | ⟨b, blk, rfl, h1, h2, h3, h4, h5, rfl⟩
  · exact .inl ⟨by funext p; simp [worldBut], rfl, rfl, rfl⟩
  · refine .inr ⟨b, blk, by simp [worldBut], ?_, ⟨h2, h3⟩, by omega, h4, ?_, rfl⟩
    · funext p
      by_cases hp : p = b
      · subst hp; simp [h1]
      · simp [worldBut, hp]
    · intro i hi
      rw [List.getElem?_eq_getElem hi]
      exact h5 i _ (List.getElem?_eq_getElem hi)

theorem HandedStr.inv {m : Mem UInt8} {v : Vec} {bs : List Nat} {cap : Nat} {xs : List UInt8}
    (h : HandedStr m v bs cap xs) : SInv (worldBut m bs) m v xs cap := by
  refine ⟨by simp, worldBut m bs, fun _ _ => rfl, ?_⟩
  rcases h with ⟨rfl, rfl, rfl, rfl⟩ | ⟨b, blk, rfl, h1, h2, h3, h4, h5, rfl⟩
  · exact .inl ⟨by funext p; simp [worldBut], rfl, rfl, rfl⟩
  · refine .inr ⟨b, blk, by simp [worldBut], ?_, ⟨h2, h3⟩, by omega, h4, ?_, rfl⟩
    · funext p
      by_cases hp : p = b
      · subst hp; simp [h1]
      · simp [worldBut, hp]
    · intro i hi
      rw [List.getElem?_eq_getElem hi]
      exact h5 i _ (by rw [List.getElem?_append_left hi, List.getElem?_eq_getElem hi])

theorem HandedStr.terminated {m : Mem UInt8} {v : Vec} {bs : List Nat} {cap : Nat}
    {xs : List UInt8} (h : HandedStr m v bs cap xs) : Str.Terminated v m := by
  rcases h with ⟨rfl, rfl, rfl, rfl⟩ | ⟨b, blk, rfl, h1, h2, h3, h4, h5, rfl⟩
  · exact .inl rfl
  · have := h5 xs.length 0 (by simp)
    have hl : xs.length < blk.size := by omega
    exact .inr (by simp [Mem.read, Mem.cell, h1, this, hl])

theorem HandedFixedVec.inv {m : Mem α} {f : FVec} {bs : List Nat} {cap : Nat} {xs : List α}
    (h : HandedFixedVec m f bs cap xs) : FInvA (worldBut m (f.buf :: bs)) f m xs cap := by
  obtain ⟨hp, hc, ⟨kb, k1, k2, k3⟩, b, blk, e1, e2, e3, e4, e5⟩ := h
  have hcells : ∀ i, i < xs.length → blk.cells i = xs[i]? := by
    intro i hi
    rw [List.getElem?_eq_getElem hi]
    exact e4 i _ (List.getElem?_eq_getElem hi)
  refine ⟨hp, hc, by simp [worldBut], ⟨by rintro p rfl; simp [k1], ?_⟩, ?_⟩
  · rcases e5 with ⟨rfl, rfl, rfl⟩ | ⟨hb, rfl, g1, g2⟩
    · obtain rfl : blk = kb := by rw [e2] at k1; exact Option.some.inj k1
      refine ⟨worldBut m [f.buf], fun _ _ => rfl, .inr ⟨f.buf, blk, by simp [worldBut], ?_,
        ⟨k3, .inl ⟨rfl, k2⟩⟩, by omega, e3, hcells, e1⟩⟩
      funext p
      by_cases hp : p = f.buf
      · subst hp; simp [e2]
      · simp [worldBut, hp]
    · refine ⟨worldBut m [b], ?_, .inr ⟨b, blk, by simp [worldBut], ?_,
        ⟨g2, .inr ⟨hb, g1⟩⟩, by omega, e3, hcells, e1⟩⟩
      · intro p hp
        simp [worldBut, hp]
      · funext p
        by_cases hp : p = b
        · subst hp; simp [e2]
        · simp [worldBut, hp]
  · intro hbeg
    rw [e1] at hbeg
    rcases e5 with ⟨_, _, rfl⟩ | ⟨hb, _⟩
    · rfl
    · exact absurd (by simpa using hbeg) hb

theorem HandedDeque.rep {E : DEnv α} {m : DMem α} {d : Deque} {pb lo bo : Nat} {bl : List Nat}
    {xs : List α} (h : HandedDeque E.S m d pb lo bo bl xs) :
    DRep E (worldBut m.t bl) (worldBut m.p [pb]) m d pb lo bo bl xs := by
  have hS : 0 < E.S := Nat.lt_of_le_of_lt (Nat.zero_le _) h.offset
  have hget : ∀ i, i < bl.length → bl[i]? = some (bl.getD i 0) := by
    intro i hi
    simp [List.getD_eq_getElem?_getD, List.getElem?_eq_getElem hi]
  have hdiv : ∀ k, k ≤ xs.length → (bo + k) / E.S < bl.length := by
    intro k hk
    have := Nat.div_le_div_right (c := E.S) (show bo + k ≤ bo + xs.length by omega)
    rw [h.count]; omega
  have hb0 : bo / E.S = 0 := Nat.div_eq_of_lt h.offset
  refine ⟨⟨h.distinct, ?_, ?_, ?_⟩, ⟨by simp [worldBut], ?_, ?_, h.room, ?_⟩, h.ptrs, h.offset, ?_,
    ?_, h.count, ?_⟩
  · intro b hb; simp [worldBut, hb]
  · intro b hb; simp [worldBut, hb]
  · intro b hb
    obtain ⟨blk, e1, e2, e3⟩ := h.subs b hb
    exact ⟨blk, e1, e3, e2⟩
  · intro b hb; simp [worldBut, hb]
  · obtain ⟨blk, e1, e2, e3⟩ := h.array
    exact ⟨blk, e1, e3, e2⟩
  · intro i hi; exact h.slots i _ (hget i hi)
  · rw [h.begin _ (hget 0 (by rw [h.count]; exact Nat.succ_pos _))]
    simp [itAt, cellPtr, hb0, Nat.mod_eq_of_lt h.offset]
  · rw [h.finish _ (hget _ (hdiv _ (Nat.le_refl _)))]
    simp [itAt, cellPtr]
  · intro k x hx
    have hk : k < xs.length := (List.getElem?_eq_some_iff.1 hx).1
    exact h.elems k x _ hx (hget _ (hdiv k (by omega)))

/-- Memory without the nodes `ps`. -/
def memBut (m : NMem N D) (ps : List Nat) : NMem N D :=
  { m with
    node := fun q => if q ∈ ps then none else m.node q
    reg := fun q => if q ∈ ps then none else m.reg q
    top_ok := by
      intro a r h
      by_cases ha : a ∈ ps
      · simp [ha] at h
      · exact m.top_ok a r (by simpa [ha] using h) }

theorem HandedNodes.inv {m : NMem N D} {size align : Nat} {ps : List Nat}
    (h : HandedNodes m size align ps) : DefInv (memBut m ps) size align () m ps where
  wf := h.wf
  nodup := h.distinct
  out a ha := by simp [memBut, ha]
  ins p hp := ⟨by simp [memBut, hp], h.reg p hp⟩
  node q hq := by simp [memBut, hq]
  live p hp := ⟨by simp [memBut, hp], h.node p hp⟩
  solid := h.solid
  aligned := h.aligned

theorem lchain_of_ring {m : LMem α} {b : Nat} : ∀ {ps : List Nat} {a : Nat},
    (∀ i x y, (a :: ps ++ [b])[i]? = some x → (a :: ps ++ [b])[i + 1]? = some y →
      LMem.next m x = .ok y ∧ LMem.prev m y = .ok x) → LChain m a ps b
  | [], a, h => h 0 a b rfl rfl
  | p :: ps, a, h => by
    have h0 := h 0 a p rfl rfl
    refine ⟨h0.1, h0.2, lchain_of_ring fun i x y hx hy => h (i + 1) x y ?_ ?_⟩
    · simpa using hx
    · simpa using hy

theorem HandedList.rep {size align : Nat} {m : LMem α} {l : LList Unit} {ps : List Nat}
    {xs : List α} (h : HandedList size align m l ps xs) :
    LRep (DefInv (memBut m ps) size align) m l ps xs :=
  ⟨lchain_of_ring h.ring, List.nodup_cons.2 ⟨h.sentinel, h.nodes.distinct⟩, h.elems, h.size,
    h.nodes.inv⟩

theorem HandedFree.chain {m : NMem N D} : ∀ {fs : List Nat} {p : Nat},
    HandedFree m p fs → FreeChain m p fs
  | [], _, h => h
  | _ :: _, _, ⟨h1, h2, q, h3, h4⟩ => ⟨h1, h1 ▸ h2, q, h1 ▸ h3, h4.chain⟩

/-- Memory without the nodes `ps` and without the blocks `qs`. -/
def memBut2 (m : NMem N D) (ps qs : List Nat) : NMem N D :=
  { memBut m qs with node := fun q => if q ∈ ps then none else m.node q }

theorem HandedFixedList.rep {size align start c : Nat} {m : LMem α} {l : LList OPool}
    {ps fs : List Nat} {xs : List α} (h : HandedFixedList size align start c m l ps fs xs) :
    let m0 := memBut2 m ps (ps.filter fun p => ¬ (start ≤ p ∧ p < start + c * size))
    LRep (OInv m0 l.al.poolBegin start size align c) m l ps xs ∧
      ∃ obj r, Room m0 l.al.poolBegin start size c obj r := by
  intro m0
  obtain ⟨obj, r, e1, e2, e3, e4, e5⟩ := h.object
  obtain ⟨k, k1, k2, k3⟩ := h.pool
  have hin : ∀ p ∈ ps.filter (fun p => start ≤ p ∧ p < start + c * size),
      p ∈ ps ∧ start ≤ p ∧ p < start + c * size := by
    intro p hp
    simpa using hp
  refine ⟨⟨lchain_of_ring h.ring, List.nodup_cons.2 ⟨h.sentinel, h.distinct⟩, h.elems, h.size,
    ps.filter (fun p => start ≤ p ∧ p < start + c * size),
    ps.filter (fun p => ¬ (start ≤ p ∧ p < start + c * size)), fs, k,
    memBut m (ps.filter fun p => ¬ (start ≤ p ∧ p < start + c * size)), ?_, ?_⟩, obj, r, ?_⟩
  · have := List.filter_append_perm (fun p => decide (start ≤ p ∧ p < start + c * size)) ps
    refine this.symm.trans ?_
    simp only [decide_not]
    exact .refl _
  · refine ⟨⟨h.pos, h.start0, k1, k2, h.capacity, h.free.chain, k3, ?_, ?_⟩, rfl, rfl, ?_,
      h.overflow.inv⟩
    · intro p hp
      obtain ⟨h1, h2, h3⟩ := hin p hp
      exact (h.inline p h2 h3).2 h1
    · intro q hq1 hq2 hq3
      by_contra hn
      exact hq3 (by simpa using ⟨(h.inline q hq1 hq2).1 hn, hq1, hq2⟩)
    · intro q hq
      by_cases hp : q ∈ ps
      · have hq' : q ∈ ps.filter fun p => ¬ (start ≤ p ∧ p < start + c * size) := by
          simp only [List.mem_filter, decide_eq_true_eq] at hq ⊢
          exact ⟨hp, fun hb => hq ⟨hp, hb⟩⟩
        simp only [m0, memBut2, memBut, if_pos hp, if_pos hq']
      · have hq' : q ∉ ps.filter fun p => ¬ (start ≤ p ∧ p < start + c * size) :=
          fun hm => hp (List.mem_of_mem_filter hm)
        simp only [m0, memBut2, memBut, if_neg hp, if_neg hq']
  · refine ⟨?_, e3, e4, e5, ?_⟩
    · have hq' : obj ∉ ps.filter fun p => ¬ (start ≤ p ∧ p < start + c * size) :=
        fun hm => e2 (List.mem_of_mem_filter hm)
      simp only [m0, memBut2, memBut, if_neg hq', e1]
    · intro q h1 h2
      simp only [m0, memBut2]
      split_ifs with hq
      · rfl
      · by_contra hn
        exact hq ((h.inline q h1 h2).1 hn)

theorem HandedChain.seg {m : HNMem K V} : ∀ {ns : List (Nat × K × V)} {p : Nat},
    HandedChain m p ns → HSeg m ns 0 ∧ p = nextOf ns 0
  | [], _, h => ⟨trivial, h⟩
  | (a, k, v) :: ns, p, ⟨h1, h2, q, h3, h4⟩ => by
    obtain ⟨e1, rfl⟩ := h4.seg
    subst h1
    exact ⟨⟨h2, h3, e1⟩, rfl⟩

theorem HandedTable.rep {E : HEnv K V Unit} {m : HMem K V} {t : HTable Unit} {bs : List Nat}
    {cs : List (List (Nat × K × V))} (h : HandedTable E m t bs cs) :
    HRepP PolicyLoose True E (DefInv (memBut m.n (addrs cs)) E.size E.align) (worldBut m.b bs)
      (memBut m.n (addrs cs)).node m t t.count bs cs := by
  have hstat : ArrIs m.b E.stat [0, sentinel] := by
    obtain ⟨blk, e1, e2, e3, e4⟩ := h.static
    refine ⟨blk, e1, e2, fun i hi => ?_⟩
    match i, hi with
    | 0, _ => exact e3
    | 1, _ => exact e4
  have hdist : Distinct E.eq (ents cs) := by
    have := h.distinct
    unfold Distinct ents
    rw [List.pairwise_map] at this ⊢
    exact this
  have hkeep : ∀ q, (memBut m.n (addrs cs)).node q ≠ none →
      q ∉ addrs cs ∧ m.n.node q = (memBut m.n (addrs cs)).node q := by
    intro q hq
    by_cases hm : q ∈ addrs cs
    · simp [memBut, hm] at hq
    · exact ⟨hm, by simp [memBut, hm]⟩
  rcases h.array with ⟨rfl, h1, h2, h3, rfl⟩ | ⟨b, rfl, h1, h2, h3, blk, h4, h5, h6, h7⟩
  · refine ⟨⟨h.buckets, by omega, by simp [HSeg], by simp [addrs], fun _ => h.homes, fun _ => hdist,
      by rw [h.count], h.nodes.inv, by rw [h1]; rfl, hstat, List.nodup_nil, by simp,
      by simp [worldBut], ?_, fun _ => rfl, hkeep⟩, h.count,
      .inr ⟨h2, h3, ?_⟩, Nat.le_refl _, by simp [h2]⟩
    · obtain ⟨blk, e1, _⟩ := h.static
      simp [worldBut, e1]
    · rw [h.count]; rfl
  · refine ⟨⟨h.buckets, by omega, ?_, h.nodes.distinct, fun _ => h.homes, fun _ => hdist,
      by rw [h.count], h.nodes.inv, by rw [h2]; rfl, ?_, by simp, ?_, ?_, ?_, by simp, hkeep⟩,
      h.count, .inl h3, Nat.le_refl _, ?_⟩
    · intro c hc
      obtain ⟨i, hi⟩ := List.getElem?_of_mem hc
      obtain ⟨p, _, e2⟩ := h7 i c hi
      exact e2.seg.1
    · refine ⟨blk, h4, by rw [h5, heads_length, h.buckets], fun i hi => ?_⟩
      rw [heads_length] at hi
      unfold heads
      by_cases hlt : i < cs.length
      · obtain ⟨p, e1, e2⟩ := h7 i _ (List.getElem?_eq_getElem hlt)
        rw [List.getElem?_append_left (by simpa using hlt), List.getElem?_map,
          List.getElem?_eq_getElem hlt, e1, e2.seg.2]
        rfl
      · have hi' : i = cs.length := by omega
        subst hi'
        rw [List.getElem?_append_right (by simp), h.buckets, h6]
        simp [sentinel, h.buckets]
    · intro b' hb'
      obtain rfl : b' = b := by simpa using hb'
      exact ⟨by simp [worldBut], by simp [h4]⟩
    · intro b' hb'
      have : b' ≠ b := by simpa using hb'
      simp [worldBut, this]
    · obtain ⟨blk, e1, _⟩ := h.static
      simp [worldBut, e1, Ne.symm h1]
    · constructor
      · intro hn; simp at hn
      · intro hn; omega

/-- A history of calls, with any growth policy that keeps the law. -/
theorem HRepP.run {σ : Type} {P : Nat → Nat → Nat → Prop} {most : Nat} {E : HEnv K V σ}
    {Inv : σ → HNMem K V → List Nat → Prop} {w : World Nat}
    {wn : Nat → Option (Option (HCell K V))} (hP : PolicyLaw P most) (L : HLaw E Inv)
    (he : PartialEquiv E.eq) (hh : HashOk E) (ops : List (MapOp K V)) :
    ∀ {m : HMem K V} {t : HTable σ} {peak : Nat} {bl : List Nat} {cs : List (List (Nat × K × V))},
    HRepP P True E Inv w wn m t peak bl cs → MapOp.peak E.eq ops (ents cs) ≤ most →
    ∃ t' m' peak' bl' cs', t.run E ops m = .ok ((MapOp.run E.eq ops (ents cs)).1, t', m') ∧
      HRepP P True E Inv w wn m' t' peak' bl' cs' ∧
      (ents cs').Perm (MapOp.run E.eq ops (ents cs)).2 ∧
      m'.n.dropped.Perm (m.n.dropped ++ (MapOp.allDrops E.eq ops (ents cs)).filter E.needs) ∧
      bl <:+ bl' := by
  induction ops with
  | nil =>
    intro m t peak bl cs h _
    exact ⟨t, m, peak, bl, cs, rfl, h, .refl _, by simp [MapOp.allDrops], List.suffix_refl _⟩
  | cons op ops ih =>
    intro m t peak bl cs h hmax
    have hle := le_peak E.eq ops (op.step E.eq (ents cs)).2
    simp only [MapOp.peak] at hmax
    obtain ⟨t1, m1, bl1, cs1, e1, e2⟩ := h.step hP L he hh op (by omega)
    have hp := e2.perm
    obtain ⟨a1, a2⟩ := allDrops_perm he ops hp (e2.rep.core.distinct)
    obtain ⟨r1, r2⟩ := run_perm he ops hp (e2.rep.core.distinct)
    obtain ⟨t2, m2, pk2, bl2, cs2, f1, f2, f3, f4, f5⟩ := ih e2.rep (by rw [a2]; omega)
    rw [r1] at f1
    refine ⟨t2, m2, pk2, bl2, cs2, ?_, f2, f3.trans r2, ?_, e2.arrays.trans f5⟩
    · simp only [HTable.run, e1, Exec.ok_bind, f1, MapOp.run]
    · refine f4.trans ?_
      simp only [MapOp.allDrops, List.filter_append]
      rw [← List.append_assoc]
      exact List.Perm.append e2.drops (a1.filter _)

end Verif
