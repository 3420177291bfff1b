import Verif.Borrow.IterSlice
import Verif.Props.Aliasing
import Verif.Props.TreeBorrows

/-! C130 and C134: looking at what is left of a vector's owning iterator. -/

set_option autoImplicit false

namespace Verif
open Spec

variable {α : Type}

/-- C130.  The vector's owning iterator can be looked at after any `next` and `next_back`, and gives
what is left.  Missing from the full statement: this is undefined behaviour unless at most one element
is left and the front cursor is not at the end of the block. -/
theorem C130_into_iter_slice_partial (R : RawAlloc α) (nd : Bool) (m0 : Mem α) {S0 : Borrows}
    (hS : Fresh S0) (ops : List (SeqOp α)) (hops : nd = true → ∀ op ∈ ops, op.isSlice = false)
    {os : List (Out α)} {xs : List α} (hr : SeqOp.runNarrow ops [] = .ok (os, xs)) (hx : xs ≠ [])
    (its : List IterOp) :
    ∃ v M cap it M', TVec.run stackedBorrows (defaultAllocator R) nd ops TVec.new ⟨m0, S0⟩ = .ok (os, v, M) ∧
      v.vec.capacity = .ok cap ∧
      TIntoIter.run stackedBorrows its v.intoIter M = .ok ((IterOp.run its xs).1, it, M') ∧
      if (IterOp.run its xs).2.length ≤ 1 ∧ IterOp.taken its xs < cap then
        ∃ S', it.asSlice stackedBorrows M' = .ok ((IterOp.run its xs).2, ⟨M'.mem, S'⟩)
      else it.asSlice stackedBorrows M' = .error .ub := by
  have h := Owned.run (L := stackedLaw) (R := R) nd ops hops (VInv.new defaultFits m0) (Owned.new S0 hS m0)
  rw [show SeqOp.runViews (fun n => decide (n ≤ 1)) ops [] = _ from hr] at h
  obtain ⟨v, m, t, S, cap, e, hv, H⟩ := h
  rcases H.intoIter hv.default_rep with ⟨_, h0, _⟩ | ⟨b, hc, hi⟩
  · exact absurd h0 hx
  · obtain ⟨it, S', e1, h1⟩ := hi.run its
    refine ⟨⟨v, t⟩, ⟨m, S⟩, cap, ⟨it, t⟩, ⟨m, S'⟩, e, hv.capacity, e1, ?_⟩
    have hd := h1.asSlice fun h k => Has.slice_end h k
    rw [Nat.zero_add] at hd
    simp only [decide_eq_true_eq] at hd
    by_cases hc : (IterOp.run its xs).2.length ≤ 1 ∧ IterOp.taken its xs < cap
    · rw [if_pos hc] at hd ⊢
      obtain ⟨S'', d1, _⟩ := hd
      exact ⟨_, d1⟩
    · rw [if_neg hc] at hd ⊢
      exact hd

/-- Two elements are pushed and one is taken: from the front there is one left, in the block. -/
example : SeqOp.runNarrow [.push 4, .push 5] [] = .ok ([.unit, .unit], [4, 5]) ∧
    (IterOp.run [.next] [4, 5]).2 = [5] ∧ IterOp.taken [.next] [4, 5] < 2 ∧
    ¬ IterOp.taken [.next, .next] [4, 5] < 2 := ⟨rfl, by decide, by decide, by decide⟩

/-- C134.  The vector's owning iterator can be looked at after any `next` and `next_back`, and gives
what is left.  Missing from the full statement: the case of C131, where the front cursor is at the end
of the block. -/
theorem C134_into_iter_slice_partial (R : RawAlloc α) (nd : Bool) (m0 : Mem α) (S0 : Lineage)
    (ops : List (SeqOp α)) (hops : nd = true → ∀ op ∈ ops, op.isSlice = false)
    {os : List (Out α)} {xs : List α} (hr : SeqOp.run ops [] = .ok (os, xs)) (hx : xs ≠ [])
    (its : List IterOp) :
    ∃ v M cap it M', TVec.run treeBorrows (defaultAllocator R) nd ops TVec.new ⟨m0, S0⟩ = .ok (os, v, M) ∧
      v.vec.capacity = .ok cap ∧
      TIntoIter.run treeBorrows its v.intoIter M = .ok ((IterOp.run its xs).1, it, M') ∧
      if IterOp.taken its xs < cap then
        ∃ S', it.asSlice treeBorrows M' = .ok ((IterOp.run its xs).2, ⟨M'.mem, S'⟩)
      else it.asSlice treeBorrows M' = .error .ub := by
  have h := Owned.run (L := treeLaw) (R := R) nd ops hops (VInv.new defaultFits m0)
    (Owned.new S0 trivial m0)
  rw [runViews_all, hr] at h
  obtain ⟨v, m, t, S, cap, e, hv, H⟩ := h
  rcases H.intoIter hv.default_rep with ⟨_, h0, _⟩ | ⟨b, hc, hi⟩
  · exact absurd h0 hx
  · obtain ⟨it, S', e1, h1⟩ := hi.run its
    refine ⟨⟨v, t⟩, ⟨m, S⟩, cap, ⟨it, t⟩, ⟨m, S'⟩, e, hv.capacity, e1, ?_⟩
    have hd := h1.asSlice fun h k => THas.slice_end h k
    rw [Nat.zero_add] at hd
    simp only [true_and] at hd
    by_cases hc : IterOp.taken its xs < cap
    · rw [if_pos hc] at hd ⊢
      obtain ⟨S'', d1, _⟩ := hd
      exact ⟨_, d1⟩
    · rw [if_neg hc] at hd ⊢
      exact hd

/-- Three elements are pushed and all taken: the capacity is four, so that the slice is empty and
fine. -/
example : SeqOp.run [.push 4, .push 5, .push 6] [] = .ok ([.unit, .unit, .unit], [4, 5, 6]) ∧
    (IterOp.run [.next, .nextBack, .next] [4, 5, 6]).2 = [] ∧
    IterOp.taken [.next, .nextBack, .next] [4, 5, 6] < 4 := ⟨rfl, by decide, by decide⟩

/-! ## Looking in between -/

/-- C130.  Calls of `next`, `next_back` and `as_slice` of the owning iterator in any order, then its
drop.  Missing from the full statement: the looks that `PeekOp.run` refuses, which are undefined
behaviour. -/
theorem C130_into_iter_looks_partial (R : RawAlloc α) (nd : Bool) (m0 : Mem α) {S0 : Borrows}
    (hS : Fresh S0) (ops : List (SeqOp α)) (hops : nd = true → ∀ op ∈ ops, op.isSlice = false)
    {os : List (Out α)} {xs : List α} (hr : SeqOp.runNarrow ops [] = .ok (os, xs)) (hx : xs ≠ [])
    (its : List PeekOp) :
    ∃ v M cap, TVec.run stackedBorrows (defaultAllocator R) nd ops TVec.new ⟨m0, S0⟩ = .ok (os, v, M) ∧
      v.vec.capacity = .ok cap ∧
      match PeekOp.run (fun n => n ≤ 1) cap its 0 xs with
      | .error e => TIntoIter.runLooks stackedBorrows its v.intoIter M = .error e
      | .ok (rs, taken, rest) => ∃ it M', TIntoIter.runLooks stackedBorrows its v.intoIter M = .ok (rs, it, M') ∧
        M'.mem = M.mem ∧
        if rest.length ≤ 1 ∧ taken < cap then
          ∃ M'', it.drop stackedBorrows (defaultAllocator R) nd M' = .ok M'' ∧ M''.mem.live = m0.live ∧
            M''.mem.dropped = M.mem.dropped ++ if nd then rest else []
        else it.drop stackedBorrows (defaultAllocator R) nd M' = .error .ub := by
  have h := Owned.run (L := stackedLaw) (R := R) nd ops hops (VInv.new defaultFits m0) (Owned.new S0 hS m0)
  rw [show SeqOp.runViews (fun n => decide (n ≤ 1)) ops [] = _ from hr] at h
  obtain ⟨v, m, t, S, cap, e, hv, H⟩ := h
  rcases H.intoIter hv.default_rep with ⟨_, h0, _⟩ | ⟨b, hc, hi⟩
  · exact absurd h0 hx
  · refine ⟨⟨v, t⟩, ⟨m, S⟩, cap, e, hv.capacity, ?_⟩
    have hl := hi.runLooks (fun h k => Has.slice_end h k) its
    cases hq : PeekOp.run (fun n => decide (n ≤ 1)) cap its 0 xs with
    | error e => rw [hq] at hl; exact hl
    | ok r =>
      obtain ⟨rs, taken, rest⟩ := r
      rw [hq] at hl
      obtain ⟨it, S', e1, h1⟩ := hl
      refine ⟨⟨it, t⟩, ⟨m, S'⟩, e1, rfl, ?_⟩
      have hd := h1.drop (R := R) nd
      simp only [decide_eq_true_eq] at hd
      by_cases hc : rest.length ≤ 1 ∧ taken < cap
      · rw [if_pos hc] at hd ⊢
        obtain ⟨m', S'', d1, d2, d3⟩ := hd
        exact ⟨_, d1, d2, d3⟩
      · rw [if_neg hc] at hd ⊢
        exact hd

/-- C134.  Calls of `next`, `next_back` and `as_slice` of the owning iterator in any order, then its
drop.  Missing from the full statement: the case of C131, where the front cursor is at the end of the
block when it is looked at or dropped. -/
theorem C134_into_iter_looks_partial (R : RawAlloc α) (nd : Bool) (m0 : Mem α) (S0 : Lineage)
    (ops : List (SeqOp α)) (hops : nd = true → ∀ op ∈ ops, op.isSlice = false)
    {os : List (Out α)} {xs : List α} (hr : SeqOp.run ops [] = .ok (os, xs)) (hx : xs ≠ [])
    (its : List PeekOp) :
    ∃ v M cap, TVec.run treeBorrows (defaultAllocator R) nd ops TVec.new ⟨m0, S0⟩ = .ok (os, v, M) ∧
      v.vec.capacity = .ok cap ∧
      match PeekOp.run (fun _ => true) cap its 0 xs with
      | .error e => TIntoIter.runLooks treeBorrows its v.intoIter M = .error e
      | .ok (rs, taken, rest) => ∃ it M', TIntoIter.runLooks treeBorrows its v.intoIter M = .ok (rs, it, M') ∧
        M'.mem = M.mem ∧
        if taken < cap then
          ∃ M'', it.drop treeBorrows (defaultAllocator R) nd M' = .ok M'' ∧ M''.mem.live = m0.live ∧
            M''.mem.dropped = M.mem.dropped ++ if nd then rest else []
        else it.drop treeBorrows (defaultAllocator R) nd M' = .error .ub := by
  have h := Owned.run (L := treeLaw) (R := R) nd ops hops (VInv.new defaultFits m0)
    (Owned.new S0 trivial m0)
  rw [runViews_all, hr] at h
  obtain ⟨v, m, t, S, cap, e, hv, H⟩ := h
  rcases H.intoIter hv.default_rep with ⟨_, h0, _⟩ | ⟨b, hc, hi⟩
  · exact absurd h0 hx
  · refine ⟨⟨v, t⟩, ⟨m, S⟩, cap, e, hv.capacity, ?_⟩
    have hl := hi.runLooks (fun h k => THas.slice_end h k) its
    cases hq : PeekOp.run (fun _ => true) cap its 0 xs with
    | error e => rw [hq] at hl; exact hl
    | ok r =>
      obtain ⟨rs, taken, rest⟩ := r
      rw [hq] at hl
      obtain ⟨it, S', e1, h1⟩ := hl
      refine ⟨⟨it, t⟩, ⟨m, S'⟩, e1, rfl, ?_⟩
      have hd := h1.drop (R := R) nd
      simp only [true_and] at hd
      by_cases hc : taken < cap
      · rw [if_pos hc] at hd ⊢
        obtain ⟨m', S'', d1, d2, d3⟩ := hd
        exact ⟨_, d1, d2, d3⟩
      · rw [if_neg hc] at hd ⊢
        exact hd

/-- Three elements in four places: everything may be looked at, also when nothing is left.  Two
elements in two places: the last look is behind the block. -/
example : PeekOp.run (fun _ => true) 4 [.look, .step .next, .look, .step .nextBack, .step .next, .look] 0
      [4, 5, 6] =
    .ok ([.rest [4, 5, 6], .item (some 4), .rest [5, 6], .item (some 6), .item (some 5), .rest []], 2, []) ∧
    PeekOp.run (fun _ => true) 2 [.look, .step .next, .step .next, .look] 0 [4, 5] = .error .ub := ⟨rfl, rfl⟩

end Verif
