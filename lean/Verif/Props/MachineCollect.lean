import Verif.Machine.Collect
import Verif.Props.Machine

/-!
# Property C149: collecting into a vector on a 64-bit machine

`hint` is what the iterator reports as the least number of elements it will yield, and `items` is
what it yields.  The system allocator never runs out of memory (`R.total`).
-/

set_option autoImplicit false

namespace Verif
open Spec

variable {α : Type}

/-- C149, when the numbers are not extreme: as long as the hint, and twice the number of elements,
fit into memory, collecting gives the elements in order, in either build and whether or not the
hint is right.  Missing: larger hints in a release build, see `C149_release_collect_ub`. -/
theorem C149_collect_partial (B : Build) {size align : Nat} (hT : TypeLayout size align)
    (R : RawAlloc α) (m0 : Mem α) (hint : Nat) (items : List α)
    (hfit : Representable size align (max hint (2 * items.length))) :
    ∃ v m, Vec.fromIterM B (byteAllocator B size align R.total) hint items m0 = .ok (v, m) ∧
      v.asSlice m = .ok items := by
  have h := C83_machine_vector B hT R false m0 (collectOps hint items) (by simp)
    (fun c hc => Nat.le_trans (Nat.mul_le_mul_right _ (collect_caps hint items hc)) hfit)
  rw [collect_spec] at h
  obtain ⟨v, m, hr, hs, _⟩ := h
  rw [fromIterM_run] at hr
  cases hf : Vec.fromIterM B (byteAllocator B size align R.total) hint items m0 with
  | error e => rw [hf] at hr; cases hr
  | ok r =>
    rw [hf] at hr
    cases hr
    exact ⟨_, _, rfl, hs⟩

/-- C149 in a debug build: whatever the hint, collecting gives the elements in order or panics. -/
theorem C149_debug_collect_partial {size : Nat} (hsize : 0 < size) (align : Nat) (R : RawAlloc α)
    (m0 : Mem α) (hint : Nat) (items : List α) :
    Vec.fromIterM .debug (byteAllocator .debug size align R.total) hint items m0 =
      .error .panic ∨
    ∃ v m, Vec.fromIterM .debug (byteAllocator .debug size align R.total) hint items m0 =
        .ok (v, m) ∧ v.asSlice m = .ok items := by
  have h := C83_debug_vector hsize align R false m0 (collectOps hint items) (by simp)
  rw [fromIterM_run, collect_spec] at h
  cases hf : Vec.fromIterM .debug (byteAllocator .debug size align R.total) hint items m0 with
  | error e =>
    rw [hf] at h
    rcases h with h | ⟨outs, xs, v, m, _, h, _⟩
    · cases h; exact .inl rfl
    · cases h
  | ok r =>
    rw [hf] at h
    rcases h with h | ⟨outs, xs, v, m, h1, h, h2, _⟩
    · cases h
    · cases h; cases h1
      exact .inr ⟨_, _, rfl, h2⟩

/-- C149 is false in release builds.  For every element type of at least two bytes there is a number
`n` such that collecting from an iterator that announces `n` elements (rightly or not: `items` is
arbitrary) is undefined behaviour before the first of them is asked for. -/
theorem C149_release_collect_ub {size align : Nat} (hT : TypeLayout size align)
    (h2 : 2 ≤ size) (hs : size ≤ 2 ^ 62) (R : RawAlloc α) (m : Mem α) :
    ∃ n < 2 ^ 64, ∀ items : List α,
      Vec.fromIterM .release (byteAllocator .release size align R.total) n items m =
        .error .ub := by
  obtain ⟨n, hn, _, _, h⟩ := C84_release_with_capacity_ub hT h2 hs R m
  exact ⟨n, hn, fun items => by simp only [Vec.fromIterM, h, Exec.error_bind]⟩

/-- Instance: three elements, announced as none, three and a thousand, in a release build. -/
example : ∀ hint ∈ [0, 3, 1000], (do
    let (v, m) ← Vec.fromIterM .release (byteAllocator .release 8 8 RawAlloc.bump.total) hint
      [1, 2, 3] (Mem.empty (α := Nat))
    v.asSlice m) = .ok [1, 2, 3] := by decide +kernel

example : TypeLayout 8 8 ∧ Representable 8 8 (max 1000 (2 * [1, 2, 3].length)) :=
  ⟨⟨by decide, ⟨3, by decide, by decide⟩, by decide, by decide⟩, by unfold Representable; decide⟩

/-- Instance: `(0..(1 << 61) + 1).collect::<Vector<u64>>()`, in a release and a debug build. -/
example : (Vec.fromIterM .release (byteAllocator .release 8 8 RawAlloc.bump.total) (2 ^ 61 + 1)
      [0, 1, 2] (Mem.empty (α := Nat))).map (fun _ => ()) = .error .ub ∧
    (Vec.fromIterM .debug (byteAllocator .debug 8 8 RawAlloc.bump.total) (2 ^ 61 + 1)
      [0, 1, 2] (Mem.empty (α := Nat))).map (fun _ => ()) = .error .panic := by decide +kernel

end Verif
