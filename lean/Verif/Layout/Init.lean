import Verif.Spec.Valid

/-! The buffers of the fixed containers and how their constructors fill them. -/

set_option autoImplicit false

namespace Verif
open Spec

/-- A list node: two pointers and the value (src/list/node.rs:3-7, 36-40). -/
def listNodeTy (T : Ty) : Ty := .pair (.pair (.scalar 8) (.scalar 8)) T

/-- A tree node: three links, the colour in one of them, and key and value
(src/internal/rb_tree/node.rs). Order and padding do not matter here. -/
def treeNodeTy (K V : Ty) : Ty := .pair (.array (.scalar 8) 3) (.pair K V)

/-- `MaybeUninit::<T>::uninit().assume_init()`: the bytes become a value of the type, which they have
to be. -/
noncomputable def assumeInit (t : Ty) : Exec (List (Option UInt8)) :=
  open Classical in if t.valid (uninit t.size) then .ok (uninit t.size) else .error .ub

/-- The buffer of `FixedList` (src/fixed_list/mod.rs:26, 51). -/
def fixedListBuffer (T : Ty) (N : Nat) : Ty := .array (.maybeUninit (listNodeTy T)) N

/-- The buffer of `conformant::FixedList` (src/fixed_list/conformant.rs:25, 51). -/
def conformantBuffer (T : Ty) (N : Nat) : Ty := .array (.scalar 1) ((N + 1) * (listNodeTy T).size - 1)

/-- The buffer of `FixedMap` (src/fixed_map/mod.rs:38, 62). -/
def fixedMapBuffer (K V : Ty) (N : Nat) : Ty := .array (.maybeUninit (treeNodeTy K V)) N

/-- The `_pad` of `FixedList` and `FixedMap` (src/fixed_list/mod.rs:28, 52, src/fixed_map/mod.rs:40, 63). -/
def padTy (node : Ty) : Ty := .maybeUninit node

/-- One element of the buffer of `FixedVector` (src/fixed_vector/mod.rs:22, 37); the array is filled
one by one. -/
def fixedVectorElem (T : Ty) : Ty := .maybeUninit T

/-- The allocator of a `FixedVector` (src/fixed_vector/allocator.rs:6-11): the overflow allocator and a
pointer. -/
def fixedAllocatorTy (A : Ty) : Ty := .pair A (.scalar 8)

/-- `mem::swap(&mut a, &mut b)`: both are read and written as values of the type. -/
noncomputable def swapAs (t : Ty) (a b : List (Option UInt8)) :
    Exec (List (Option UInt8) × List (Option UInt8)) :=
  open Classical in if t.valid a ∧ t.valid b then .ok (b, a) else .error .ub

/-- The first `mem::swap` of `move_new` (src/fixed_vector/mod.rs:71), of the allocators; `this` and
`src` are their bytes. -/
noncomputable def moveSwapAllocators (A : Ty) (this src : List (Option UInt8)) :
    Exec (List (Option UInt8) × List (Option UInt8)) := swapAs (fixedAllocatorTy A) this src

/-- The second one (src/fixed_vector/mod.rs:74), of the buffers. -/
noncomputable def moveSwapBuffers (T : Ty) (N : Nat) (this src : List (Option UInt8)) :
    Exec (List (Option UInt8) × List (Option UInt8)) := swapAs (.array (.maybeUninit T) N) this src

end Verif
