import Verif.Machine.Arith
import Verif.Vector.Run

/-!
# `Vector` with `usize` arithmetic

The functions of src/vector/mod.rs that compute capacities, again, with every addition and
multiplication on `usize` checked or wrapped as the build mode says.
-/

set_option autoImplicit false

namespace Verif
open Spec

variable {α : Type}

namespace Vec

/-- `Vector::reserve` (src/vector/mod.rs:203-224). -/
def reserveM (B : Build) (A : Allocator α) (additional : Nat) (v : Vec) (m : Mem α) :
    Exec (Vec × Mem α) :=
  if additional = 0 then .ok (v, m) else do
    let size ← v.len
    let cap ← v.capacity
    let newCap ← B.usize (cap + additional)
    let (nb, m) ← A.alloc newCap m
    let m ← (if v.beginPtr = .null then .ok m else do
      let m ← m.copy v.beginPtr nb size
      let c ← v.capacity
      A.dealloc v.beginPtr c m)
    let e ← m.ptrAdd nb size
    let c ← m.ptrAdd nb newCap
    .ok (⟨nb, e, c⟩, m)

/-- `Vector::calculate_grow_capacity` (src/vector/mod.rs:241-247). -/
def calculateGrowCapacityM (B : Build) (oldCapacity : Nat) : Exec Nat :=
  if oldCapacity = 0 then .ok 1 else B.usize (oldCapacity * 2)

/-- `Vector::grow` (src/vector/mod.rs:250-254).  The subtraction underflows when doubling
wrapped around. -/
def growM (B : Build) (A : Allocator α) (v : Vec) (m : Mem α) : Exec (Vec × Mem α) := do
  let c ← v.capacity
  let newCap ← calculateGrowCapacityM B c
  let c' ← v.capacity
  let additional ← (if c' ≤ newCap then .ok (newCap - c') else
    match B with
    | .debug => .error .panic
    | .release => .ok (2 ^ 64 + newCap - c'))
  v.reserveM B A additional m

/-- `Vector::push` (src/vector/mod.rs:126-136). -/
def pushM (B : Build) (A : Allocator α) (x : α) (v : Vec) (m : Mem α) : Exec (Vec × Mem α) := do
  let full ← v.isFull
  let (v, m) ← (if full then v.growM B A m else .ok (v, m))
  let m ← m.write v.endPtr x
  let v ← v.incrementSize m
  .ok (v, m)

/-- `Vector::insert` (src/vector/mod.rs:159-174).  `index + 1` cannot overflow: `index` is at
most the length. -/
def insertM (B : Build) (A : Allocator α) (index : Nat) (x : α) (v : Vec) (m : Mem α) :
    Exec (Vec × Mem α) := do
  let n ← v.len
  if index ≤ n then do
    let full ← v.isFull
    let (v, m) ← (if full then v.growM B A m else .ok (v, m))
    let src ← m.ptrAdd v.beginPtr index
    let dst ← m.ptrAdd v.beginPtr (index + 1)
    let n ← v.len
    let m ← m.copy src dst (n - index)
    let p ← m.ptrAdd v.beginPtr index
    let m ← m.write p x
    let v ← v.incrementSize m
    .ok (v, m)
  else .error .panic

/-- `Vector::append` (src/vector/mod.rs:280-292). -/
def appendM (B : Build) (A : Allocator α) (nd : Bool) (buf : List α) (v : Vec) (m : Mem α) :
    Exec (Vec × Mem α) := do
  let oldLen ← v.len
  let newLen ← B.usize (oldLen + buf.length)
  let cap ← v.capacity
  let (v, m) ← (if cap < newLen then v.reserveM B A (newLen - cap) m else .ok (v, m))
  let e ← m.ptrAdd v.endPtr buf.length
  let v : Vec := { v with endPtr := e }
  if v.beginPtr = .null then .ok (v, m) else do
    let p ← m.ptrAdd v.beginPtr oldLen
    let m ← m.cloneFrom nd p buf
    .ok (v, m)

/-- `Vector::assign` (src/vector/mod.rs:299-308). -/
def assignM (B : Build) (A : Allocator α) (nd : Bool) (buf : List α) (v : Vec) (m : Mem α) :
    Exec (Vec × Mem α) := do
  let cap ← v.capacity
  let (v, m) ← (if cap < buf.length then v.reserveM B A (buf.length - cap) m else .ok (v, m))
  let e ← m.ptrAdd v.beginPtr buf.length
  let v : Vec := { v with endPtr := e }
  if v.beginPtr = .null then .ok (v, m) else do
    let m ← m.cloneFrom nd v.beginPtr buf
    .ok (v, m)

/-- `Vector::with_capacity` (src/vector/mod.rs:43-47). -/
def withCapacityM (B : Build) (A : Allocator α) (capacity : Nat) (m : Mem α) :
    Exec (Vec × Mem α) :=
  new.reserveM B A capacity m

/-- One call: dispatches to the functions of src/vector/mod.rs; the ones that compute no
capacity are those of `Verif.Vector.Model`. -/
def stepM (B : Build) (A : Allocator α) (nd : Bool) (op : SeqOp α) (v : Vec) (m : Mem α) :
    Exec (Out α × Vec × Mem α) :=
  match op with
  | .push x => do let (v, m) ← v.pushM B A x m; .ok (.unit, v, m)
  | .insert i x => do let (v, m) ← v.insertM B A i x m; .ok (.unit, v, m)
  | .reserve n => do let (v, m) ← v.reserveM B A n m; .ok (.unit, v, m)
  | .append buf => do let (v, m) ← v.appendM B A nd buf m; .ok (.unit, v, m)
  | .assign buf => do let (v, m) ← v.assignM B A nd buf m; .ok (.unit, v, m)
  | op => v.step A nd op m

/-- A history of calls (src/vector/mod.rs). -/
def runM (B : Build) (A : Allocator α) (nd : Bool) : List (SeqOp α) → Vec → Mem α →
    Exec (List (Out α) × Vec × Mem α)
  | [], v, m => .ok ([], v, m)
  | op :: ops, v, m => do
    let (o, v, m) ← v.stepM B A nd op m
    let (os, v, m) ← runM B A nd ops v m
    .ok (o :: os, v, m)

end Vec

end Verif
