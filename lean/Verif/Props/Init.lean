import Verif.Layout.Init
import Mathlib.Tactic.SplitIfs

/-! C132: the values constructors make. -/

set_option autoImplicit false

namespace Verif
open Spec

theorem valid_maybeUninit_array (t : Ty) (n : Nat) :
    (Ty.array (.maybeUninit t) n).valid (uninit (n * t.size)) := by
  refine ⟨by simp [uninit, Ty.size], fun i hi => ?_⟩
  simp only [Ty.valid, Ty.size, uninit, List.drop_replicate, List.take_replicate,
    List.length_replicate]
  have : (i + 1) * t.size ≤ n * t.size := Nat.mul_le_mul_right _ hi
  rw [Nat.add_mul, Nat.one_mul] at this
  omega

/-- C132, as far as it holds: the buffers of fixed lists, fixed maps and fixed vectors are values of
their types, whatever the types of the elements, keys and values.  Missing: the conformant fixed
list. -/
theorem C132_buffers_valid_partial (T K V : Ty) (N : Nat) :
    (∃ bs, assumeInit (fixedListBuffer T N) = .ok bs) ∧
    (∃ bs, assumeInit (padTy (listNodeTy T)) = .ok bs) ∧
    (∃ bs, assumeInit (fixedMapBuffer K V N) = .ok bs) ∧
    (∃ bs, assumeInit (padTy (treeNodeTy K V)) = .ok bs) ∧
    ∃ bs, assumeInit (fixedVectorElem T) = .ok bs := by
  have h1 : ∀ t : Ty, ∃ bs, assumeInit (.maybeUninit t) = .ok bs := fun t =>
    ⟨_, if_pos (by simp [Ty.valid, Ty.size, uninit])⟩
  have h2 : ∀ (t : Ty) (n : Nat), ∃ bs, assumeInit (.array (.maybeUninit t) n) = .ok bs := fun t n =>
    ⟨_, if_pos (valid_maybeUninit_array t n)⟩
  exact ⟨h2 _ _, h1 _, h2 _ _, h1 _, h1 _⟩

/-- C132 fails for every conformant fixed list: the constructor makes an array of bytes of which none
is initialised. -/
theorem C132_conformant_buffer_ub (T : Ty) (N : Nat) :
    assumeInit (conformantBuffer T N) = .error .ub := by
  refine if_neg fun h => ?_
  have hs : 16 ≤ (listNodeTy T).size := by simp [listNodeTy, Ty.size]
  have hn : 0 < (N + 1) * (listNodeTy T).size - 1 := by
    have : 1 * (listNodeTy T).size ≤ (N + 1) * (listNodeTy T).size :=
      Nat.mul_le_mul_right _ (by omega)
    omega
  refine (h.2 0 hn).2 none ?_ rfl
  have hm : (conformantBuffer T N).size = (N + 1) * (listNodeTy T).size - 1 := Nat.mul_one _
  rw [hm, uninit, List.drop_replicate, List.take_replicate, List.mem_replicate]
  refine ⟨?_, rfl⟩
  simp only [Ty.size]
  omega

/-- A conformant list of two 4-byte values has 59 bytes, none of them with a value; the other variant
may have them. -/
example : (conformantBuffer (.scalar 4) 2).size = 59 ∧
    assumeInit (conformantBuffer (.scalar 4) 2) = .error .ub ∧
    ∃ bs, assumeInit (fixedListBuffer (.scalar 4) 2) = .ok bs :=
  ⟨rfl, C132_conformant_buffer_ub _ _, (C132_buffers_valid_partial (.scalar 4) (.scalar 4) (.scalar 4) 2).1⟩

/-- C132 fails for every `FixedVector` that is moved to storage that was not initialised before, as
the test `move_stack` of the crate does: its allocator is exchanged with the one found there, which
has no value. -/
theorem C132_move_reads_uninitialised (A : Ty) (src : List (Option UInt8)) :
    moveSwapAllocators A (uninit (fixedAllocatorTy A).size) src = .error .ub := by
  refine if_neg fun h => ?_
  refine h.1.2.2 none ?_ rfl
  simp [uninit, fixedAllocatorTy, Ty.size]

/-- C132: in storage where there was an allocator before, both exchanges are of valid values if the
vector is valid, and each side gets what the other had. -/
theorem C132_move_partial (A T : Ty) (N : Nat) {old src oldBuf srcBuf : List (Option UInt8)}
    (h1 : (fixedAllocatorTy A).valid old) (h2 : (fixedAllocatorTy A).valid src)
    (h3 : oldBuf.length = N * T.size) (h4 : srcBuf.length = N * T.size) :
    moveSwapAllocators A old src = .ok (src, old) ∧
      moveSwapBuffers T N oldBuf srcBuf = .ok (srcBuf, oldBuf) := by
  have key : ∀ bs : List (Option UInt8), bs.length = N * T.size →
      (Ty.array (.maybeUninit T) N).valid bs := by
    intro bs h
    refine ⟨h, fun i hi => ?_⟩
    have : (i + 1) * T.size ≤ N * T.size := Nat.mul_le_mul_right _ hi
    rw [Nat.add_mul, Nat.one_mul] at this
    simp only [Ty.valid, Ty.size, List.length_take, List.length_drop]
    omega
  exact ⟨if_pos ⟨h1, h2⟩, if_pos ⟨key _ h3, key _ h4⟩⟩

/-- An allocator without fields and the null pointer. -/
example : (fixedAllocatorTy (.scalar 0)).valid (List.replicate 8 (some 0)) ∧
    moveSwapAllocators (.scalar 0) (uninit 8) (List.replicate 8 (some 0)) = .error .ub :=
  ⟨by simp [fixedAllocatorTy, Ty.valid, Ty.size],
    C132_move_reads_uninitialised (.scalar 0) (List.replicate 8 (some 0))⟩

/-- Integers can be valid. -/
example : (Ty.array (.scalar 1) 2).valid [some 3, some 4] := by
  refine ⟨rfl, fun i hi => ?_⟩
  match i, hi with
  | 0, _ => simp [Ty.valid, Ty.size]
  | 1, _ => simp [Ty.valid, Ty.size]

end Verif
