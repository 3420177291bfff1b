import Verif.Vector.Refine
import Verif.Spec.Moves

/-! What each call on a vector moves. -/

set_option autoImplicit false

namespace Verif
open Spec

variable {α : Type} {fits : Nat → Nat → Region → Nat → Prop} {keeps : Nat → Prop}
  {init : Block α → Nat → Prop} {A : Allocator α}
  {w : World α} {m : Mem α} {v : Vec} {xs : List α} {cap : Nat}

theorem VInv.step_moves (hA : Lawful A fits keeps init) (nd : Bool) (op : SeqOp α)
    (hop : nd = true → op.isSlice = false) (h : VInv keeps fits w m v xs cap) {o : Out α} {v' : Vec}
    {m' : Mem α} (hs : v.step A nd op m = .ok (o, v', m')) :
    m'.copied = m.copied + op.moves xs.length cap ∧
      m'.allocs = m.allocs + op.asks xs.length cap := by
  cases op with
  | push x =>
    obtain ⟨v1, m1, b, blk, he, _, ef⟩ := h.push hA x
    simp only [Vec.step, he, Exec.ok_bind, Except.ok.injEq, Prod.mk.injEq] at hs
    obtain ⟨_, _, rfl⟩ := hs
    exact ⟨ef.copied, ef.allocs⟩
  | pop =>
    simp only [Vec.step] at hs
    cases hp : v.pop m with
    | error e => rw [hp] at hs; simp at hs
    | ok r =>
      rw [hp] at hs
      simp only [Exec.ok_bind, Except.ok.injEq, Prod.mk.injEq] at hs
      obtain ⟨_, _, rfl⟩ := hs
      exact ⟨rfl, rfl⟩
  | insert i x =>
    by_cases hi : i ≤ xs.length
    · obtain ⟨v1, m1, b, blk, he, _, ef⟩ := h.insert hA x hi
      simp only [Vec.step, he, Exec.ok_bind, Except.ok.injEq, Prod.mk.injEq] at hs
      obtain ⟨_, _, rfl⟩ := hs
      exact ⟨ef.copied, ef.allocs⟩
    · simp [Vec.step, h.insert_panic x hi] at hs
  | remove i =>
    by_cases hi : i < xs.length
    · obtain ⟨b, blk, hB⟩ := h.own (by intro e; simp [e] at hi)
      obtain ⟨v1, m1, blk', he, _, _, ef⟩ := hB.remove hi
      simp only [Vec.step, he, Exec.ok_bind, Except.ok.injEq, Prod.mk.injEq] at hs
      obtain ⟨_, _, rfl⟩ := hs
      exact ⟨ef.copied, ef.allocs⟩
    · have hle : xs.length ≤ i := by omega
      simp only [Vec.step, h.remove_none hle, Exec.ok_bind, Except.ok.injEq, Prod.mk.injEq] at hs
      obtain ⟨_, _, rfl⟩ := hs
      exact ⟨by simp only [SeqOp.moves]; omega, rfl⟩
  | set i x =>
    by_cases hi : i < xs.length
    · obtain ⟨b, blk, hB⟩ := h.own (by intro e; simp [e] at hi)
      obtain ⟨m1, he, _, ef⟩ := hB.setAt nd x hi
      simp only [Vec.step, he, Exec.ok_bind, Except.ok.injEq, Prod.mk.injEq] at hs
      obtain ⟨_, _, rfl⟩ := hs
      exact ⟨ef.copied, ef.allocs⟩
    · simp [Vec.step, h.setAt_panic nd x hi] at hs
  | reserve n =>
    obtain ⟨v1, m1, he, _, ef⟩ := h.reserve_any hA n
    simp only [Vec.step, he, Exec.ok_bind, Except.ok.injEq, Prod.mk.injEq] at hs
    obtain ⟨_, _, rfl⟩ := hs
    exact ⟨ef.copied, ef.allocs⟩
  | append buf =>
    have hnd : nd = false := by
      cases nd
      · rfl
      · simpa [SeqOp.isSlice] using hop rfl
    subst hnd
    obtain ⟨v1, m1, he, _, ef⟩ := h.append hA buf
    simp only [Vec.step, he, Exec.ok_bind, Except.ok.injEq, Prod.mk.injEq] at hs
    obtain ⟨_, _, rfl⟩ := hs
    exact ⟨ef.copied, ef.allocs⟩
  | assign buf =>
    have hnd : nd = false := by
      cases nd
      · rfl
      · simpa [SeqOp.isSlice] using hop rfl
    subst hnd
    obtain ⟨v1, m1, he, _, ef⟩ := h.assign hA false buf (by simp)
    simp only [Vec.step, he, Exec.ok_bind, Except.ok.injEq, Prod.mk.injEq] at hs
    obtain ⟨_, _, rfl⟩ := hs
    exact ⟨ef.copied, ef.allocs⟩
  | clear =>
    obtain ⟨m1, he, _, _, _, _, ef⟩ := h.clear hA nd
    simp only [Vec.step, he, Exec.ok_bind, Except.ok.injEq, Prod.mk.injEq] at hs
    obtain ⟨_, _, rfl⟩ := hs
    exact ⟨ef.copied, ef.allocs⟩
  | len =>
    simp only [Vec.step, h.len, Exec.ok_bind, Except.ok.injEq, Prod.mk.injEq] at hs
    obtain ⟨_, _, rfl⟩ := hs
    exact ⟨rfl, rfl⟩
  | isEmpty =>
    simp only [Vec.step, h.isEmpty, Exec.ok_bind, Except.ok.injEq, Prod.mk.injEq] at hs
    obtain ⟨_, _, rfl⟩ := hs
    exact ⟨rfl, rfl⟩
  | slice =>
    simp only [Vec.step, h.slice, Exec.ok_bind, Except.ok.injEq, Prod.mk.injEq] at hs
    obtain ⟨_, _, rfl⟩ := hs
    exact ⟨rfl, rfl⟩

/-- One call that the sequence takes, with everything it does to a vector. -/
theorem VInv.step_full (hA : Lawful A fits keeps init) (nd : Bool) (op : SeqOp α)
    (hop : nd = true → op.isSlice = false) (h : VInv keeps fits w m v xs cap) {o : Out α}
    {ys : List α} (hs : op.step xs = .ok (o, ys)) :
    ∃ v' m', v.step A nd op m = .ok (o, v', m') ∧
      VInv keeps fits w m' v' ys (op.capAfter xs.length cap) ∧
      m'.copied = m.copied + op.moves xs.length cap ∧
      m'.allocs = m.allocs + op.asks xs.length cap := by
  have h1 := h.step hA nd op hop
  rw [hs] at h1
  obtain ⟨v', m', ds, na, nc, e1, e2, _⟩ := h1
  exact ⟨v', m', e1, e2, h.step_moves hA nd op hop e1⟩

end Verif
