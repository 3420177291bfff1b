import Verif.Borrow.Refine
import Verif.Borrow.Proofs
import Verif.Borrow.Tree
import Verif.Spec.Look

/-! The slice of what is left of a vector's owning iterator, with provenance. -/

set_option autoImplicit false

namespace Verif
open Spec

theorem Has.slice_end {t b n : Nat} {S : Borrows} (h : Has t b n S) (k : Nat) :
    stackedBorrows.slice S t (.loc b n) k = .error .ub := by
  have hi : S.items b n = [] := h.2.2 n (Nat.le_refl n)
  simp [Rules.slice, stackedBorrows, Borrows.reborrow, Borrows.each, Borrows.at', hi, derive,
    Spec.touch, splitAt]

theorem THas.slice_end {t b n : Nat} {S : Lineage} (h : THas t b n S) (k : Nat) :
    treeBorrows.slice S t (.loc b n) k = .error .ub := by
  have ht : t ≠ S.next := Nat.ne_of_lt h.1
  have : ¬ ∀ j, j < 1 → ∀ u ∈ (S.child t b .frozen).line S.next,
      ((S.child t b .frozen).perm b (n + j) u).allows .read = true := by
    intro hc
    have := hc 0 Nat.one_pos t (by simp [Lineage.child, h.2.1])
    simp [Lineage.child, ht, h.2.2.2 n (Nat.le_refl n), Perm.allows] at this
  have e : S.reborrow .shared t (.loc b n) 1 = .error .ub := by
    unfold Lineage.reborrow
    simp only [Lineage.reborrow.make, Lineage.access]
    rw [if_neg (by omega), if_neg this]
    rfl
  simp only [Rules.slice, tree_reborrow, e]
  rfl

variable {α P : Type} {K : Rules P} {fine : Nat → Bool} {L : K.Law fine} {w : World α}
  {S : P} {m : Mem α} {t cap : Nat} {it : VIntoIter} {b f : Nat} {ys : List α}

/-- Looking at what is left: fine if the front is a place in the block and the slice may be used. -/
theorem ItAt.asSlice (he : ∀ {S : P}, L.Has t b cap S → ∀ k, K.slice S t (.loc b cap) k = .error .ub)
    (h : ItAt L w m S it t b f cap ys) :
    if fine ys.length = true ∧ f < cap then ∃ S',
      TIntoIter.asSlice K ⟨it, t⟩ ⟨m, S⟩ = .ok (ys, ⟨m, S'⟩) ∧ ItAt L w m S' it t b f cap ys
    else TIntoIter.asSlice K ⟨it, t⟩ ⟨m, S⟩ = .error .ub := by
  have hl := h.rep.len
  have hs := h.rep.slice
  obtain ⟨blk, h1, h2, h3, h4, h5, h6⟩ := h.ex
  have hp := h.ptrs
  by_cases hc : fine ys.length = true ∧ f < cap
  · rw [if_pos hc]
    obtain ⟨hy, hf⟩ := hc
    obtain ⟨s, S1, a1, a2, a3⟩ := L.slice h.has hf hy h5
    obtain ⟨S2, a4, a5⟩ := a3 f ys.length (by omega) (by omega)
    refine ⟨S2, ?_, a5, h.ex, hp⟩
    unfold VIntoIter.asSlice at hs
    unfold TIntoIter.asSlice
    simp only [hl] at hs ⊢
    subst hp
    simp only [reduceCtorEq, if_false, Exec.ok_bind] at hs ⊢
    simp only [a1, Exec.ok_bind, a4, hs]
  · rw [if_neg hc]
    have hw : K.slice S t (.loc b f) ys.length = .error .ub := by
      cases hy : fine ys.length with
      | true =>
        obtain rfl : f = cap := by
          have : ¬ f < cap := fun hf => hc ⟨hy, hf⟩
          omega
        exact he h.has _
      | false => exact L.slice_wide (L.good h.has) _ _ hy
    unfold TIntoIter.asSlice
    simp only [hl]
    subst hp
    simp [hw]

/-- Calls of `next`, `next_back` and `as_slice` of the vector's owning iterator
(src/vector/into_iter.rs:18-24, 68-78, 82-92), one after the other. -/
def TIntoIter.runLooks (K : Rules P) : List PeekOp → TIntoIter → BMem α P →
    Exec (List (PeekOut α) × TIntoIter × BMem α P)
  | [], it, M => .ok ([], it, M)
  | .look :: ops, it, M => do
    let (xs, M) ← it.asSlice K M
    let (os, r) ← runLooks K ops it M
    .ok (.rest xs :: os, r)
  | .step .next :: ops, it, M => do
    let (o, it, M) ← it.next K M
    let (os, r) ← runLooks K ops it M
    .ok (.item o :: os, r)
  | .step .nextBack :: ops, it, M => do
    let (o, it, M) ← it.nextBack K M
    let (os, r) ← runLooks K ops it M
    .ok (.item o :: os, r)

theorem ItAt.runLooks (he : ∀ {S : P}, L.Has t b cap S → ∀ k, K.slice S t (.loc b cap) k = .error .ub)
    (ops : List PeekOp) : ∀ {it : VIntoIter} {S : P} {f : Nat} {ys : List α},
    ItAt L w m S it t b f cap ys →
    match PeekOp.run fine cap ops f ys with
    | .error e => TIntoIter.runLooks K ops ⟨it, t⟩ ⟨m, S⟩ = .error e
    | .ok (os, f', zs) => ∃ it' S', TIntoIter.runLooks K ops ⟨it, t⟩ ⟨m, S⟩ = .ok (os, ⟨it', t⟩, ⟨m, S'⟩) ∧
      ItAt L w m S' it' t b f' cap zs := by
  induction ops with
  | nil => intro it S f ys h; exact ⟨it, S, rfl, h⟩
  | cons op ops ih =>
    intro it S f ys h
    match op with
    | .look =>
      have ha := h.asSlice he
      simp only [PeekOp.run, TIntoIter.runLooks]
      by_cases hc : fine ys.length = true ∧ f < cap
      · rw [if_pos hc] at ha ⊢
        obtain ⟨S1, e1, h1⟩ := ha
        have := ih h1
        rw [e1]
        simp only [Exec.ok_bind]
        cases hr : PeekOp.run fine cap ops f ys with
        | error e =>
          rw [hr] at this
          simp only [this]
          rfl
        | ok r =>
          rw [hr] at this
          obtain ⟨it', S', e2, h2⟩ := this
          exact ⟨it', S', by simp only [e2, Exec.ok_bind], h2⟩
      · rw [if_neg hc] at ha ⊢
        simp only [ha]
        rfl
    | .step .next =>
      obtain ⟨it1, S1, e1, h1⟩ := h.next
      have := ih h1
      simp only [PeekOp.run, TIntoIter.runLooks, e1, Exec.ok_bind, IterOp.taken, IterOp.step, Nat.add_zero]
      cases hr : PeekOp.run fine cap ops (f + if ys = [] then 0 else 1) ys.tail with
      | error e =>
        rw [hr] at this
        simp only [this]
        rfl
      | ok r =>
        rw [hr] at this
        obtain ⟨it', S', e2, h2⟩ := this
        exact ⟨it', S', by simp only [e2, Exec.ok_bind], h2⟩
    | .step .nextBack =>
      obtain ⟨it1, S1, e1, h1⟩ := h.nextBack
      have := ih h1
      simp only [PeekOp.run, TIntoIter.runLooks, e1, Exec.ok_bind, IterOp.taken, IterOp.step, Nat.add_zero]
      cases hr : PeekOp.run fine cap ops f ys.dropLast with
      | error e =>
        rw [hr] at this
        simp only [this]
        rfl
      | ok r =>
        rw [hr] at this
        obtain ⟨it', S', e2, h2⟩ := this
        exact ⟨it', S', by simp only [e2, Exec.ok_bind], h2⟩

end Verif
