import Verif.Machine.VectorProofs

/-!
# Collecting into a vector, with `usize` arithmetic
-/

set_option autoImplicit false

namespace Verif
open Spec

variable {α : Type}

namespace Vec

/-- The `for` loop of pushes in `From<[T; N]>` and `FromIterator` (src/vector/mod.rs:377-380,
397-399). -/
def pushAllM (B : Build) (A : Allocator α) (v : Vec) (m : Mem α) : List α → Exec (Vec × Mem α)
  | [] => .ok (v, m)
  | x :: xs => do
    let (v, m) ← v.pushM B A x m
    pushAllM B A v m xs

/-- `FromIterator` (src/vector/mod.rs:392-402); `lower` is the iterator's lower size hint, `items`
what it yields. -/
def fromIterM (B : Build) (A : Allocator α) (lower : Nat) (items : List α) (m : Mem α) :
    Exec (Vec × Mem α) := do
  let (v, m) ← withCapacityM B A lower m
  v.pushAllM B A m items

end Vec

/-- The calls that collecting amounts to. -/
def collectOps (lower : Nat) (items : List α) : List (SeqOp α) := .reserve lower :: items.map .push

theorem pushAllM_run (B : Build) (A : Allocator α) (nd : Bool) (items : List α) :
    ∀ (v : Vec) (m : Mem α), Vec.runM B A nd (items.map .push) v m =
      (Vec.pushAllM B A v m items).map fun r => (items.map fun _ => .unit, r.1, r.2) := by
  induction items with
  | nil => intro v m; rfl
  | cons x xs ih =>
    intro v m
    simp only [List.map_cons, Vec.runM, Vec.stepM, Vec.pushAllM]
    cases h : v.pushM B A x m with
    | error e => rfl
    | ok r =>
      simp only [Exec.ok_bind, ih]
      cases h2 : Vec.pushAllM B A r.1 r.2 xs with
      | error e => rfl
      | ok r2 => rfl

theorem fromIterM_run (B : Build) (A : Allocator α) (nd : Bool) (lower : Nat) (items : List α)
    (m : Mem α) : Vec.runM B A nd (collectOps lower items) Vec.new m =
      (Vec.fromIterM B A lower items m).map
        fun r => (.unit :: items.map fun _ => .unit, r.1, r.2) := by
  simp only [collectOps, Vec.runM, Vec.stepM, Vec.fromIterM, Vec.withCapacityM]
  cases h : Vec.new.reserveM B A lower m with
  | error e => rfl
  | ok r =>
    simp only [Exec.ok_bind, pushAllM_run]
    cases h2 : Vec.pushAllM B A r.1 r.2 items with
    | error e => rfl
    | ok r2 => rfl

theorem push_spec (items : List α) : ∀ xs : List α,
    SeqOp.run (items.map .push) xs = .ok (items.map fun _ => .unit, xs ++ items) := by
  induction items with
  | nil => intro xs; simp [SeqOp.run]
  | cons x l ih => intro xs; simp [SeqOp.run, SeqOp.step, ih]

theorem collect_spec (lower : Nat) (items : List α) :
    SeqOp.run (collectOps lower items) [] = .ok (.unit :: items.map fun _ => .unit, items) := by
  simp [collectOps, SeqOp.run, SeqOp.step, push_spec]

theorem push_caps (items : List α) : ∀ (xs : List α) (cap c : Nat), xs.length ≤ cap →
    c ∈ SeqOp.caps (items.map .push) xs cap → c ≤ max cap (2 * (xs.length + items.length)) := by
  induction items with
  | nil => intro xs cap c _ h; cases h
  | cons x l ih =>
    intro xs cap c hle h
    simp only [List.map_cons, SeqOp.caps, SeqOp.step, List.mem_cons] at h
    have hb : SeqOp.capAfter (.push x) xs.length cap ≤
        max cap (2 * (xs.length + (x :: l).length)) ∧ xs.length + 1 ≤
        SeqOp.capAfter (.push x) xs.length cap := by
      simp only [SeqOp.capAfter, List.length_cons]
      split
      · omega
      · split <;> omega
    rcases h with h | h
    · rw [h]; exact hb.1
    · have := ih (xs ++ [x]) _ c (by simpa using hb.2) h
      simp only [List.length_append, List.length_cons, List.length_nil] at this hb ⊢
      omega

theorem collect_caps (lower : Nat) (items : List α) {c : Nat}
    (h : c ∈ SeqOp.caps (collectOps lower items) [] 0) : c ≤ max lower (2 * items.length) := by
  simp only [collectOps, SeqOp.caps, SeqOp.step, SeqOp.capAfter, List.mem_cons, Nat.zero_add] at h
  rcases h with h | h
  · omega
  · simpa using push_caps items [] lower c (by simp) h

end Verif
