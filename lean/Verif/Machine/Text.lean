import Verif.Machine.Vector
import Verif.Text.Model

/-!
# `String` with `usize` arithmetic

The functions of src/string that compute capacities, again, with every addition on `usize` checked
or wrapped as the build mode says.
-/

set_option autoImplicit false

namespace Verif
open Spec

/-- `NullTerminatorAllocator` (src/string/null_terminator_allocator.rs:5-18) for bytes: `n + 1` is
computed in `usize`.  `A` is the allocator inside, as its typed methods see it; for bytes those
multiply by one. -/
def nullTermAllocatorM (B : Build) (A : Allocator UInt8) : Allocator UInt8 where
  alloc n m := do
    let k ← B.usize (n + 1)
    let (p, m) ← A.alloc k m
    let q ← m.ptrAdd p n
    let m ← m.write q 0
    .ok (p, m)
  dealloc p n m := do
    let k ← B.usize (n + 1)
    A.dealloc p k m

/-- The allocator inside a `String` with the default allocator. -/
abbrev strAllocM (B : Build) (S : SysAlloc UInt8) : Allocator UInt8 :=
  nullTermAllocatorM B (byteAllocator B 1 1 S)

namespace Str

/-- `String::reserve` (src/string/mod.rs:168-171). -/
def reserveM (B : Build) (A : Allocator UInt8) (capacity : Nat) (v : Vec) (m : Mem UInt8) :
    Exec (Vec × Mem UInt8) := do
  let c ← B.usize (capacity + 1)
  v.reserveM B A c m

/-- `String::with_capacity` (src/string/mod.rs:38-43). -/
def withCapacityM (B : Build) (A : Allocator UInt8) (capacity : Nat) (m : Mem UInt8) :
    Exec (Vec × Mem UInt8) := Vec.withCapacityM B A capacity m

/-- `String::assign` (src/string/mod.rs:75-83). -/
def assignM (B : Build) (A : Allocator UInt8) (buf : List UInt8) (v : Vec) (m : Mem UInt8) :
    Exec (Vec × Mem UInt8) := do
  let (v, m) ← reserveM B A buf.length v m
  let (v, m) ← v.appendM B A false buf m
  let m ← nullTerminate v m
  .ok (v, m)

/-- `String::insert` (src/string/mod.rs:142-147). -/
def insertM (B : Build) (A : Allocator UInt8) (index : Nat) (c : Char) (v : Vec) (m : Mem UInt8) :
    Exec (Vec × Mem UInt8) := do
  let (v, m) ← v.insertM B A index (charToByte c) m
  let m ← nullTerminate v m
  .ok (v, m)

/-- `String::push` (src/string/mod.rs:120-122). -/
def pushM (B : Build) (A : Allocator UInt8) (c : Char) (v : Vec) (m : Mem UInt8) :
    Exec (Vec × Mem UInt8) := do
  let n ← v.len
  insertM B A n c v m

/-- One call: dispatches to the functions of src/string/mod.rs; the ones that compute no capacity
are those of `Verif.Text.Model`. -/
def stepM (B : Build) (A : Allocator UInt8) (op : StrOp) (v : Vec) (m : Mem UInt8) :
    Exec (StrOut × Vec × Mem UInt8) :=
  match op with
  | .push c => do let (v, m) ← pushM B A c v m; .ok (.unit, v, m)
  | .insert i c => do let (v, m) ← insertM B A i c v m; .ok (.unit, v, m)
  | .reserve n => do let (v, m) ← reserveM B A n v m; .ok (.unit, v, m)
  | .assign s => do let (v, m) ← assignM B A (utf8 s) v m; .ok (.unit, v, m)
  | op => step A op v m

/-- A history of calls (src/string/mod.rs). -/
def runM (B : Build) (A : Allocator UInt8) : List StrOp → Vec → Mem UInt8 →
    Exec (List StrOut × Vec × Mem UInt8)
  | [], v, m => .ok ([], v, m)
  | op :: ops, v, m => do
    let (o, v, m) ← stepM B A op v m
    let (os, v, m) ← runM B A ops v m
    .ok (o :: os, v, m)

end Str

end Verif
