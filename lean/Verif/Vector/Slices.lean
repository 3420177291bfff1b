import Verif.Vector.Run
import Verif.FixedVector.Model
import Verif.Spec.Slice

/-!
# What is done through the mutable slice of a vector
-/

set_option autoImplicit false

namespace Verif
open Spec

variable {α : Type}

/-- `v.as_slice_mut()[i]` (src/vector/mod.rs:75-81, also 351-355), read without copying semantics: the
value is moved out for the moment.  The index check of the slice panics. -/
def Vec.takeAt (i : Nat) (v : Vec) (m : Mem α) : Exec α := do
  let n ← (if v.beginPtr = .null then .ok 0 else v.len)
  if i < n then do
    let p ← m.ptrAdd v.beginPtr i
    m.read p
  else .error .panic

/-- `v.as_slice_mut().swap(i, j)` (src/vector/mod.rs:75-81): both elements are read, then written to
each other's place; none is dropped. -/
def Vec.swapAt (i j : Nat) (v : Vec) (m : Mem α) : Exec (Mem α) := do
  let a ← v.takeAt i m
  let b ← v.takeAt j m
  let m ← v.setAt false i b m
  v.setAt false j a m

/-- `mem::replace(&mut v.as_slice_mut()[i], x)` (src/vector/mod.rs:75-81): the old value is not
dropped but returned. -/
def Vec.replaceAt (i : Nat) (x : α) (v : Vec) (m : Mem α) : Exec (α × Mem α) := do
  let a ← v.takeAt i m
  let m ← v.setAt false i x m
  .ok (a, m)

/-- One call, or one thing done to the slice lent out by `as_slice_mut`
(src/vector/mod.rs:75-81). -/
def Vec.editStep (A : Allocator α) (nd : Bool) (op : EditOp α) (v : Vec) (m : Mem α) :
    Exec (Out α × Vec × Mem α) :=
  match op with
  | .call op => v.step A nd op m
  | .swap i j => do let m ← v.swapAt i j m; .ok (.unit, v, m)
  | .replace i x => do let (a, m) ← v.replaceAt i x m; .ok (.elem (some a), v, m)

/-- A history of these. -/
def Vec.edit (A : Allocator α) (nd : Bool) : List (EditOp α) → Vec → Mem α →
    Exec (List (Out α) × Vec × Mem α)
  | [], v, m => .ok ([], v, m)
  | op :: ops, v, m => do
    let (o, v, m) ← v.editStep A nd op m
    let (os, v, m) ← Vec.edit A nd ops v m
    .ok (o :: os, v, m)

/-- The same on a fixed vector, through `DerefMut` (src/fixed_vector/mod.rs:129-135). -/
def FVec.edit (R : RawAlloc α) (nd : Bool) (ops : List (EditOp α)) (f : FVec) (m : Mem α) :
    Exec (List (Out α) × FVec × Mem α) := do
  let (os, v, m) ← Vec.edit (fixedAllocator R f.pool) nd ops f.vec m
  .ok (os, { f with vec := v }, m)

/-- The element at `i` of `IntoIter::as_slice_mut` (src/vector/into_iter.rs:27-33). -/
def VIntoIter.placeAt (i : Nat) (it : VIntoIter) (m : Mem α) : Exec Ptr := do
  let n ← (if it.front = .null then .ok 0 else it.len)
  if i < n then m.ptrAdd it.front i else .error .panic

/-- `it.as_slice_mut().swap(i, j)` (src/vector/into_iter.rs:27-33). -/
def VIntoIter.swapAt (i j : Nat) (it : VIntoIter) (m : Mem α) : Exec (Mem α) := do
  let p ← it.placeAt i m
  let q ← it.placeAt j m
  let a ← m.read p
  let b ← m.read q
  let m ← m.write p b
  m.write q a

/-- Calls on the iterator and exchanges in its slice (src/vector/into_iter.rs:27-33, 68-93). -/
def VIntoIter.runSliced : List SlicedIterOp → VIntoIter → Mem α →
    Exec (List (Option α) × VIntoIter × Mem α)
  | [], it, m => .ok ([], it, m)
  | .take .next :: ops, it, m => do
    let (o, it) ← it.next m
    let (os, it, m) ← runSliced ops it m
    .ok (o :: os, it, m)
  | .take .nextBack :: ops, it, m => do
    let (o, it) ← it.nextBack m
    let (os, it, m) ← runSliced ops it m
    .ok (o :: os, it, m)
  | .swap i j :: ops, it, m => do
    let m ← it.swapAt i j m
    runSliced ops it m

end Verif
