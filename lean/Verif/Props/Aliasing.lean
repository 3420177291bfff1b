import Verif.Borrow.Iter
import Verif.Borrow.OthersProofs
import Verif.Props.Vector
import Verif.Props.Deque
import Verif.Props.HashTable

/-! C130 and C131: the references the library makes. -/

set_option autoImplicit false

namespace Verif
open Spec

variable {α : Type}

/-! ## C130 -/

/-- C130.  A vector put through any calls under the aliasing rules of Spec/Borrow.lean, beginning
with any permissions `S0` on other memory.  Missing from the full statement: the calls that look at
more than one element as a slice (`SeqOp.viewed`), which are undefined behaviour, all of them.  All
others do what the sequence does. -/
theorem C130_vector_borrows_partial (R : RawAlloc α) (nd : Bool) (m0 : Mem α) {S0 : Borrows}
    (hS : Fresh S0) (ops : List (SeqOp α)) (hops : nd = true → ∀ op ∈ ops, op.isSlice = false) :
    match SeqOp.runNarrow ops [] with
    | .error e => TVec.run stackedBorrows (defaultAllocator R) nd ops TVec.new ⟨m0, S0⟩ = .error e
    | .ok (os, xs) => ∃ v M, TVec.run stackedBorrows (defaultAllocator R) nd ops TVec.new ⟨m0, S0⟩ = .ok (os, v, M) ∧
        (xs.length ≤ 1 →
          (∃ M', v.asSlice stackedBorrows M = .ok (xs, M')) ∧
          ∃ M', v.clear stackedBorrows (defaultAllocator R) nd M = .ok (TVec.new, M') ∧ M'.mem.live = m0.live) ∧
        (1 < xs.length → ∀ (i : Nat) (x : α),
          v.asSlice stackedBorrows M = .error .ub ∧ v.setAt stackedBorrows nd i x M = .error .ub ∧
          v.clear stackedBorrows (defaultAllocator R) nd M = .error .ub) := by
  have h := Owned.run (L := stackedLaw) (R := R) nd ops hops (VInv.new defaultFits m0) (Owned.new S0 hS m0)
  cases hr : SeqOp.runNarrow ops [] with
  | error e => rw [show SeqOp.runViews (fun n => decide (n ≤ 1)) ops [] = _ from hr] at h; exact h
  | ok r =>
    obtain ⟨os, xs⟩ := r
    rw [show SeqOp.runViews (fun n => decide (n ≤ 1)) ops [] = _ from hr] at h
    obtain ⟨v, m, t, S, cap, e, hv, H⟩ := h
    refine ⟨⟨v, t⟩, ⟨m, S⟩, e, ?_, ?_⟩
    · intro hl
      refine ⟨?_, ?_⟩
      · obtain ⟨S', e1, _⟩ := H.asSlice hv.len (decide_eq_true hl) hv.slice
        exact ⟨_, e1⟩
      · obtain ⟨m', e1, _, e2, _⟩ := hv.clear (defaultAllocator_lawful R) nd
        obtain ⟨t', S', e3, _⟩ := H.clear hv.len (decide_eq_true hl) e1
        obtain ⟨_, _, e4⟩ := bind_inv e3
        simp only [Except.ok.injEq, Prod.mk.injEq] at e4
        rw [← e4.1] at e3
        exact ⟨_, e3, funext fun p => e2 p not_false⟩
    · intro hl i x
      have hw : decide (xs.length ≤ 1) = false := decide_eq_false (by omega)
      exact ⟨H.asSlice_wide hv.len hw, H.setAt_wide hv.len hw, H.clear_wide hv.len hw⟩

/-- C130.  Two or more pushes: every call is allowed, and the vector cannot be looked at or dropped. -/
theorem C130_vector_slice_ub (R : RawAlloc α) (nd : Bool) (m0 : Mem α) {S0 : Borrows} (hS : Fresh S0)
    (xs : List α) (hx : 1 < xs.length) :
    ∃ v M, TVec.run stackedBorrows (defaultAllocator R) nd (xs.map .push) TVec.new ⟨m0, S0⟩ =
        .ok (xs.map fun _ => .unit, v, M) ∧
      v.asSlice stackedBorrows M = .error .ub ∧ v.clear stackedBorrows (defaultAllocator R) nd M = .error .ub := by
  have key : ∀ (ys zs : List α), SeqOp.runNarrow (ys.map .push) zs =
      .ok (ys.map fun _ => .unit, zs ++ ys) := by
    intro ys
    induction ys with
    | nil => intro zs; rw [SeqOp.runNarrow]; simp [SeqOp.runViews]
    | cons y ys ih =>
      intro zs
      unfold SeqOp.runNarrow at ih ⊢
      simp [SeqOp.runViews, SeqOp.viewed, SeqOp.step, ih]
  have h := C130_vector_borrows_partial R nd m0 hS (xs.map .push) (by
    intro _ op ho
    obtain ⟨x, _, rfl⟩ := List.mem_map.1 ho
    rfl)
  rw [key xs []] at h
  obtain ⟨v, M, e, _, h2⟩ := h
  have := h2 (by simpa using hx) 0 (xs[0]'(by omega))
  exact ⟨v, M, e, this.1, this.2.2⟩

/-- C130.  The vector's owning iterator: `next` and `next_back` are always allowed, in any order.
Missing from the full statement: dropping it is undefined behaviour unless at most one element is
left and the front cursor is not at the end of the block. -/
theorem C130_into_iter_borrows_partial (R : RawAlloc α) (nd : Bool) (m0 : Mem α) {S0 : Borrows}
    (hS : Fresh S0) (ops : List (SeqOp α)) (hops : nd = true → ∀ op ∈ ops, op.isSlice = false)
    {os : List (Out α)} {xs : List α} (hr : SeqOp.runNarrow ops [] = .ok (os, xs)) (hx : xs ≠ [])
    (its : List IterOp) :
    ∃ v M cap it M', TVec.run stackedBorrows (defaultAllocator R) nd ops TVec.new ⟨m0, S0⟩ = .ok (os, v, M) ∧
      v.vec.capacity = .ok cap ∧
      TIntoIter.run stackedBorrows its v.intoIter M = .ok ((IterOp.run its xs).1, it, M') ∧
      if (IterOp.run its xs).2.length ≤ 1 ∧ IterOp.taken its xs < cap then
        ∃ M'', it.drop stackedBorrows (defaultAllocator R) nd M' = .ok M'' ∧ M''.mem.live = m0.live ∧
          M''.mem.dropped = M.mem.dropped ++ if nd then (IterOp.run its xs).2 else []
      else it.drop stackedBorrows (defaultAllocator R) nd M' = .error .ub := by
  have h := Owned.run (L := stackedLaw) (R := R) nd ops hops (VInv.new defaultFits m0) (Owned.new S0 hS m0)
  rw [show SeqOp.runViews (fun n => decide (n ≤ 1)) ops [] = _ from hr] at h
  obtain ⟨v, m, t, S, cap, e, hv, H⟩ := h
  rcases H.intoIter hv.default_rep with ⟨_, h0, _⟩ | ⟨b, hc, hi⟩
  · exact absurd h0 hx
  · obtain ⟨it, S', e1, h1⟩ := hi.run its
    refine ⟨⟨v, t⟩, ⟨m, S⟩, cap, ⟨it, t⟩, ⟨m, S'⟩, e, hv.capacity, e1, ?_⟩
    have hd := h1.drop (R := R) nd
    rw [Nat.zero_add] at hd
    simp only [decide_eq_true_eq] at hd
    by_cases hc : (IterOp.run its xs).2.length ≤ 1 ∧ IterOp.taken its xs < cap
    · rw [if_pos hc] at hd ⊢
      obtain ⟨m', S'', d1, d2, d3⟩ := hd
      exact ⟨_, d1, d2, d3⟩
    · rw [if_neg hc] at hd ⊢
      exact hd

/-- C130.  Deques: once two subarrays' worth of elements are held, `Drop` looks at the pointers to
its subarrays through a reference to the first, which is undefined behaviour, and so does the growth
of the pointer array. -/
theorem C130_deque_slice_ub (E : DEnv α) (hS : 0 < E.S) (ops : List (DeqOp α)) (m0 : DMem α)
    (hx : 2 * E.S ≤ (DeqOp.run ops []).2.length) :
    ∃ d m, Deque.history E ops m0 = .ok ((DeqOp.run ops []).1, d, m) ∧
      ∀ (S0 : Borrows) (t : Nat), Fresh S0 →
        d.freedPointers stackedBorrows S0 t = .error .ub ∧ d.allPointers stackedBorrows S0 t = .error .ub := by
  obtain ⟨d, m, drops, e, ⟨pb, lo, bo, bl, h⟩, _⟩ := history_inv E hS ops m0
  refine ⟨d, m, e, fun S0 t hF => ?_⟩
  have h1 : 2 ≤ (bo + (DeqOp.run ops []).2.length) / E.S := by
    rw [Nat.le_div_iff_mul_le hS]
    omega
  have h2 := h.len
  have h3 := h.p.fits
  have h0 : bo / E.S = 0 := Nat.div_eq_of_lt h.b_lt
  refine ⟨?_, sliceMut_wide hF t d.ptrs (by omega)⟩
  unfold Deque.freedPointers
  rw [h.b, h.e]
  simp only [itAt, h0, Ptr.offsetFrom, Nat.add_zero]
  rw [if_pos ⟨trivial, by omega⟩]
  simp only [Exec.ok_bind]
  exact sliceMut_wide hF t _ (by omega)

/-- C130.  Hash tables: growing the bucket array, also for the first entry, looks at the old buckets
through a mutable reference to the first, which is undefined behaviour: a new map's bucket is static
memory that may only be read, later there are several.  Once there has been an entry, so is
`iter_mut`. -/
theorem C130_hash_slice_ub {K V : Type} {E : HEnv K V Unit} {m0 : HMem K V} (S : HSetting E m0)
    (ops : List (MapOp K V)) (hpk : MapOp.peak E.eq ops [] ≤ 2557710464) :
    ∃ t m, HTable.history E ops m0 = .ok ((MapOp.run E.eq ops []).1, t, m) ∧
      ∀ (S0 : Borrows) (tag : Nat), Fresh S0 →
        (∀ i ∈ S0.items E.stat 0, i.grant = .sharedRO ∨ i.grant = .disabled) →
        t.oldBuckets stackedBorrows S0 tag = .error .ub ∧
        (MapOp.peak E.eq ops [] ≠ 0 → t.mutBuckets stackedBorrows S0 tag = .error .ub) := by
  obtain ⟨t, m, bl, cs, e, h⟩ := S.run ops hpk
  refine ⟨t, m, e, fun S0 tag hF hro => ?_⟩
  have h2 := h.rep.core.pos
  refine ⟨?_, fun hne => ?_⟩
  · by_cases h1 : t.bucketCount = 1
    · have hs := h.rep.core.start
      rw [h.rep.arrs.2 h1] at hs
      unfold HTable.oldBuckets
      rw [hs]
      exact sliceMut_readonly hro
    · exact sliceMut_wide hF tag _ (by omega)
  · have h1 : t.bucketCount ≠ 1 := fun hc => hne (h.arrays (h.rep.arrs.2 hc))
    exact slice_wide hF tag _ (by omega)

/-- C130.  Lists: a list can be made at a place that belongs to `o` alone, and the first push, at
either end, is undefined behaviour: borrowing the list ends the permissions of the pointers to the
sentinel that are stored in it. -/
theorem C130_list_push_ub {S0 : Borrows} {o b : Nat} (ho : o < S0.next)
    (h0 : ∀ j, j < 2 → S0.items b j = [⟨.unique, o⟩]) :
    ∃ s S1, Sentinel.new stackedBorrows S0 o (.loc b 0) = .ok (s, S1) ∧
      s.pushBack stackedBorrows S1 o (.loc b 0) = .error .ub ∧ s.pushFront stackedBorrows S1 o (.loc b 0) = .error .ub := by
  obtain ⟨S1, e1, h1⟩ := Sole.access (S := S0) (n := 2) ⟨ho, h0⟩ .write
  obtain ⟨S2, e2, n2, h2⟩ := h1.lend
  obtain ⟨S3, e3, n3, h3, _⟩ := h2.pointerTo (c := 2) (Nat.le_refl 2)
  obtain ⟨S4, e4, n4, h4, _⟩ := h3.write (c := 1) (by omega)
  obtain ⟨S5, e5, n5, h5, _⟩ := h4.pointerTo (c := 2) (Nat.le_refl 2)
  obtain ⟨S6, e6, n6, h6, _⟩ := h5.write (c := 0) (by omega)
  have ho1 := h1.1
  refine ⟨⟨S4.next + 1, S2.next + 1⟩, S6, ?_, ?_, ?_⟩
  · simp only [stacked_access, stacked_reborrow, Sentinel.new, Sentinel.init, e1, e2, e3, e4, e5, e6, Exec.ok_bind, Ptr.next,
      Nat.zero_add]
  · obtain ⟨S7, e7, n7, h7⟩ := h6.again
    have l7 : Lent S7 o S6.next b 2 :=
      ⟨by omega, by omega, fun j hj => ⟨[], by simpa using h7 j hj, by simp⟩⟩
    obtain ⟨S8, e8, n8, _, h8, _⟩ := l7.pointerTo (c := 2) (Nat.le_refl 2)
    obtain ⟨S9, e9, n9, h9⟩ := access_cells (a := .read) (t := S7.next + 1) (b := b) (o := 1) (n := 1)
      (S := S8) (by
        intro j g1 g2
        rw [show j = 1 by omega, h8 1 (by omega)]
        simp [touch, splitAt, Item.allows])
    have k9 : ∀ j, j < 2 → S9.items b j = S8.items b j := by
      intro j hj
      rw [h9]
      by_cases hc : 1 ≤ j ∧ j < 1 + 1
      · rw [if_pos hc, h8 j hj]
        simp [touch, splitAt, Item.allows]
      · rw [if_neg hc]
    obtain ⟨S10, e10, n10, h10⟩ := access_cells (a := .read) (t := S7.next + 1) (b := b) (o := 1) (n := 1)
      (S := S9) (by
        intro j g1 g2
        rw [show j = 1 by omega, k9 1 (by omega), h8 1 (by omega)]
        simp [touch, splitAt, Item.allows])
    have k10 : S10.items b 0 = S8.items b 0 := by
      rw [h10, if_neg (by omega), k9 0 (by omega)]
    have e11 : S10.access (S2.next + 1) .write (.loc b 0) 1 = .error .ub := by
      refine access_none fun i hi => ?_
      rw [k10, h8 0 (by omega)] at hi
      simp only [List.mem_cons, List.not_mem_nil, or_false] at hi
      rcases hi with rfl | rfl | rfl | rfl <;> dsimp only <;> omega
    simp only [stacked_access, stacked_reborrow, Sentinel.pushBack, e7, e8, e9, e10, e11, Exec.ok_bind, Exec.error_bind, Ptr.next,
      Nat.zero_add]
  · obtain ⟨S7, e7, n7, h7⟩ := h6.again
    obtain ⟨S8, e8, n8, h8⟩ := access_cells (a := .read) (t := S6.next) (b := b) (o := 0) (n := 1)
      (S := S7) (by
        intro j g1 g2
        rw [show j = 0 by omega, h7 0 (by omega)]
        simp [touch, splitAt, Item.allows])
    have e9 : S8.access (S4.next + 1) .read (.loc b 1) 1 = .error .ub := by
      refine access_none fun i hi => ?_
      rw [h8, if_neg (by omega), h7 1 (by omega)] at hi
      simp only [List.mem_cons, List.not_mem_nil, or_false] at hi
      rcases hi with rfl | rfl <;> dsimp only <;> omega
    simp only [stacked_access, stacked_reborrow, Sentinel.pushFront, e7, e8, e9, Exec.ok_bind, Exec.error_bind, Ptr.next, Nat.zero_add]

/-- C130.  Fixed vectors: one can be made at a place that belongs to `o` alone, and the first push, as
well as looking at it as a slice, is undefined behaviour: each of the pointers to the buffer ends the
permissions of those made before. -/
theorem C130_fixed_vector_push_ub {S0 : Borrows} {o b n : Nat} (ho : o < S0.next)
    (h0 : ∀ j, j < n → S0.items b j = [⟨.unique, o⟩]) (hn : 0 < n) :
    ∃ v S1, Inward.new stackedBorrows S0 o (.loc b 0) n = .ok (v, S1) ∧
      v.push stackedBorrows S1 o (.loc b 0) n = .error .ub ∧ v.asSlice stackedBorrows S1 o (.loc b 0) n = .error .ub := by
  obtain ⟨S1, e1, h1⟩ := Sole.access (S := S0) (n := n) ⟨ho, h0⟩ .write
  obtain ⟨S2, e2, n2, h2⟩ := h1.lend
  obtain ⟨S3, e3, n3, h3, _⟩ := h2.pointerTo (c := 1) hn
  obtain ⟨S4, e4, n4, h4, _⟩ := h3.pointerTo (c := 1) hn
  obtain ⟨S5, e5, n5, h5, _⟩ := h4.pointerTo (c := 1) hn
  obtain ⟨S6, e6, n6, h6, k6, _⟩ := h5.pointerTo (c := 1) hn
  have ho1 := h1.1
  refine ⟨⟨S2.next + 1, S3.next + 1, S4.next + 1, S5.next + 1⟩, S6, ?_, ?_, ?_⟩
  · simp only [stacked_access, stacked_reborrow, Inward.new, Inward.init, e1, e2, e3, e4, e5, e6, Exec.ok_bind]
  · obtain ⟨S7, e7, n7, h7⟩ := h6.again
    have e8 : S7.access (S3.next + 1) .write (.loc b 0) 1 = .error .ub := by
      refine access_none fun i hi => ?_
      rw [h7 0 hn] at hi
      simp only [List.mem_cons, List.not_mem_nil, or_false] at hi
      rcases hi with rfl | rfl <;> dsimp only <;> omega
    simp only [stacked_access, stacked_reborrow, Inward.push, e7, e8, Exec.ok_bind]
  · cases hr : S6.reborrow .shared o (.loc b 0) n with
    | error e => rw [Inward.asSlice, stacked_reborrow, hr, reborrow_error hr]; rfl
    | ok u =>
      obtain ⟨r, S7⟩ := u
      obtain ⟨rfl, U, eu, rfl⟩ := reborrow_ok hr
      have e8 : Borrows.reborrow { U with next := U.next + 1 } .shared (S2.next + 1) (.loc b 0) 1 =
          .error .ub := by
        refine reborrow_none (c := 0) (by omega) fun i hi => ?_
        obtain ⟨V, d, _, hi'⟩ := each_ok _ b n 0 S6 (each_some eu)
        rw [eu] at d
        cases d
        obtain ⟨s, hs⟩ := Option.isSome_iff_exists.1 (each_some eu 0 (by omega) (by omega))
        simp only [Nat.add_zero, hi'] at hi
        rw [if_pos (by simp [hn]), hs] at hi
        rcases derive_tags hs i hi with hg | ⟨j, hj, hg⟩
        · rw [hg]; omega
        · rw [← hg]
          rw [k6 0 (by omega)] at hj
          simp only [List.mem_cons, List.not_mem_nil, or_false] at hj
          rcases hj with rfl | rfl | rfl | rfl <;> dsimp only <;> omega
      simp only [stacked_access, stacked_reborrow, Inward.asSlice, hr, Exec.ok_bind, e8]

/-- C130.  Fixed pools: a node that is used again comes as a pointer made of a reference to its link,
and a reference to a node larger than a link cannot be made of it. -/
theorem C130_pool_reuse_ub {S0 : Borrows} (hS : Fresh S0) (t : Nat) (p : Ptr) {link node : Nat}
    (hn : link < node) : (do
      let (w, S) ← Pool.reuse stackedBorrows S0 t p link
      S.reborrow .mutable w p node : Exec (Nat × Borrows)) = .error .ub :=
  pointerTo_wide hS hn

/-- One element: pushing, reading, replacing, popping and inserting are allowed. -/
example : ∃ v M, TVec.run stackedBorrows (defaultAllocator RawAlloc.bump) true
    [.push 1, .slice, .set 0 2, .pop, .insert 0 3, .clear, .push 4] TVec.new
      ⟨Mem.empty, Borrows.start⟩ =
    .ok ([.unit, .list [1], .unit, .elem (some 2), .unit, .unit, .unit], v, M) := by
  have h := C130_vector_borrows_partial RawAlloc.bump true Mem.empty Fresh.start
    [.push 1, .slice, .set 0 2, .pop, .insert 0 3, .clear, .push 4] (by simp [SeqOp.isSlice])
  obtain ⟨v, M, e, _⟩ := h
  exact ⟨v, M, e⟩

example : ∃ v M, TVec.run stackedBorrows (defaultAllocator RawAlloc.bump) true ([5, 6, 7].map .push) TVec.new
    ⟨Mem.empty, Borrows.start⟩ = .ok ([.unit, .unit, .unit], v, M) ∧ v.asSlice stackedBorrows M = .error .ub := by
  obtain ⟨v, M, e, h, _⟩ :=
    C130_vector_slice_ub RawAlloc.bump true Mem.empty Fresh.start [5, 6, 7] (by decide)
  exact ⟨v, M, e, h⟩

/-- Three pushes make a block of four: after two calls of `next` one element is left, and the
iterator may be dropped; before that it may not. -/
example : ∃ M : BMem Nat Borrows, (do
    let (_, v, M) ← TVec.run stackedBorrows (defaultAllocator RawAlloc.bump) true ([5, 6, 7].map .push) TVec.new
      ⟨Mem.empty, Borrows.start⟩
    let (_, it, M) ← TIntoIter.run stackedBorrows [.next, .nextBack] v.intoIter M
    it.drop stackedBorrows (defaultAllocator RawAlloc.bump) true M) = .ok M ∧ M.mem.dropped = [6] :=
  ⟨_, rfl, rfl⟩

example : (do
    let (_, v, M) ← TVec.run stackedBorrows (defaultAllocator RawAlloc.bump) true ([5, 6, 7].map .push) TVec.new
      ⟨Mem.empty, Borrows.start⟩
    let (_, it, M) ← TIntoIter.run stackedBorrows [.next] v.intoIter M
    it.drop stackedBorrows (defaultAllocator RawAlloc.bump) true M : Exec (BMem Nat Borrows)) = .error .ub := by
  rfl

example : 2 * (2 : Nat) ≤ (DeqOp.run (List.replicate 5 (DeqOp.pushBack 7)) []).2.length := by decide

example : MapOp.peak (exampleHash id).eq exampleHashOps [] ≠ 0 := by decide

/-- A place of two cells for a list, one of three for a fixed vector. -/
example : ∃ s S1, Sentinel.new stackedBorrows (Borrows.start.allocate (.loc 0 0) 2).2 0 (.loc 0 0) = .ok (s, S1) ∧
    s.pushBack stackedBorrows S1 0 (.loc 0 0) = .error .ub ∧ s.pushFront stackedBorrows S1 0 (.loc 0 0) = .error .ub :=
  C130_list_push_ub (by decide) (by
    intro j hj
    simp [Borrows.allocate, Borrows.start]; omega)

example : ∃ v S1, Inward.new stackedBorrows (Borrows.start.allocate (.loc 0 0) 3).2 0 (.loc 0 0) 3 = .ok (v, S1) ∧
    v.push stackedBorrows S1 0 (.loc 0 0) 3 = .error .ub ∧ v.asSlice stackedBorrows S1 0 (.loc 0 0) 3 = .error .ub :=
  C130_fixed_vector_push_ub (by decide) (by
    intro j hj
    simp [Borrows.allocate, Borrows.start, hj]) (by decide)

/-- The link alone may be used. -/
example : ∃ u, Pool.reuse stackedBorrows (Borrows.start.allocate (.loc 0 0) 3).2 0 (.loc 0 0) 1 = .ok u := ⟨_, rfl⟩

/-! ## C131 -/

/-- C131.  A vector is consumed through its owning iterator and the iterator dropped or looked at.
If not the whole block was consumed from the front, that is `drop` and `as_slice` of C08.  Missing
from the full statement: if it was, both make a reference to what lies behind the block, which is
undefined behaviour. -/
theorem C131_into_iter_references_partial (R : RawAlloc α) (nd : Bool) (m0 : Mem α)
    (ops : List (SeqOp α)) (hops : nd = true → ∀ o ∈ ops, o.isSlice = false)
    {outs : List (Out α)} {v : Vec} {m : Mem α} {xs : List α} {cap : Nat}
    (hrun : Vec.run (defaultAllocator R) nd ops Vec.new m0 = .ok (outs, v, m))
    (hx : v.asSlice m = .ok xs) (hcap : v.capacity = .ok cap) (h0 : 0 < cap) (its : List IterOp) :
    ∃ it, VIntoIter.run its v.intoIter m = .ok ((IterOp.run its xs).1, it) ∧
      (IterOp.taken its xs < cap →
        it.asSliceChecked m = .ok (IterOp.run its xs).2 ∧
        ∃ m', it.dropChecked (defaultAllocator R) nd m = .ok m' ∧ m'.live = m0.live ∧
          m'.dropped = m.dropped ++ if nd then (IterOp.run its xs).2 else []) ∧
      (IterOp.taken its xs = cap →
        it.asSliceChecked m = .error .ub ∧
        it.dropChecked (defaultAllocator R) nd m = .error .ub) := by
  obtain ⟨ys, ds, cap', _, hi, _, _⟩ := reachable_inv R nd m0 ops hops hrun
  have : ys = xs := by
    have h := hi.slice
    rw [hx] at h
    cases h; rfl
  subst this
  have : cap' = cap := by
    have h := hi.capacity
    rw [hcap] at h
    cases h; rfl
  subst this
  obtain ⟨b, hp⟩ := hi.default_rep.itPos h0
  obtain ⟨it, e, h⟩ := hp.run its
  rw [Nat.zero_add] at h
  have hd := h.dropChecked (defaultAllocator R) nd
  have hs := h.asSliceChecked
  refine ⟨it, e, fun hf => ?_, fun hf => ?_⟩
  · rw [if_pos hf] at hd hs
    rw [hd]
    exact ⟨hs, h.rep.drop R nd⟩
  · rw [if_neg (by omega)] at hd hs
    exact ⟨hs, hd⟩

/-- C131.  `for x in Vector::from([..])`: an array of any length but 0 is turned into a vector, all
elements are taken, and dropping the iterator is undefined behaviour. -/
theorem C131_for_loop_ub (R : RawAlloc α) (nd : Bool) (m0 : Mem α) (xs : List α) (hx : xs ≠ []) :
    ∃ v m it, Vec.fromArray (defaultAllocator R) xs m0 = .ok (v, m) ∧
      VIntoIter.run (List.replicate (xs.length + 1) .next) v.intoIter m =
        .ok (xs.map some ++ [none], it) ∧
      it.dropChecked (defaultAllocator R) nd m = .error .ub := by
  have hpos : 0 < xs.length := List.length_pos_of_ne_nil hx
  obtain ⟨v1, m1, e1, h1, _⟩ :=
    (VInv.new defaultFits m0).reserve_any (defaultAllocator_lawful R) xs.length
  obtain ⟨v2, m2, cap, e2, h2, _, _, hc⟩ := h1.pushAll (defaultAllocator_lawful R) xs
  have hcap := hc (by simp)
  subst hcap
  rw [Nat.zero_add] at h2
  rw [List.nil_append] at h2
  obtain ⟨b, hp⟩ := h2.default_rep.itPos hpos
  obtain ⟨it, e, h⟩ := hp.run (List.replicate (xs.length + 1) .next)
  have k1 : ∀ ys : List α, (IterOp.run (List.replicate (ys.length + 1) .next) ys).1 =
      ys.map some ++ [none] := by
    intro ys
    induction ys with
    | nil => rfl
    | cons y ys ih =>
      rw [List.length_cons, List.replicate_succ]
      simp only [IterOp.run, IterOp.step, List.head?_cons, List.tail_cons, ih, List.map_cons,
        List.cons_append]
  have k2 : ∀ ys : List α, IterOp.taken (List.replicate (ys.length + 1) .next) ys = ys.length := by
    intro ys
    induction ys with
    | nil => rfl
    | cons y ys ih =>
      rw [List.length_cons, List.replicate_succ]
      simp only [IterOp.taken, List.tail_cons, ih]
      simp [Nat.add_comm]
  rw [k1] at e
  refine ⟨v2, m2, it, by simp [Vec.fromArray, Vec.withCapacity, e1, e2], e, ?_⟩
  rw [h.dropChecked, k2, if_neg (by omega)]

example : ∃ v m it, Vec.fromArray (defaultAllocator RawAlloc.bump) [1, 2] Mem.empty = .ok (v, m) ∧
    VIntoIter.run [.next, .next, .next] v.intoIter m = .ok ([some 1, some 2, none], it) ∧
    it.dropChecked (defaultAllocator RawAlloc.bump) true m = .error .ub :=
  C131_for_loop_ub RawAlloc.bump true Mem.empty [1, 2] (by decide)

/-- Five pushes make a block of eight: the loop may run to its end. -/
example : ∃ m : Mem Nat, (do
    let (_, v, m) ← Vec.run (defaultAllocator RawAlloc.bump) true ([1, 2, 3, 4, 5].map .push) Vec.new
      Mem.empty
    let (_, it) ← VIntoIter.run (List.replicate 6 .next) v.intoIter m
    it.dropChecked (defaultAllocator RawAlloc.bump) true m) = .ok m :=
  ⟨_, rfl⟩

end Verif
