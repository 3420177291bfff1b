import Verif.Vector.Model

/-! Calls into user code that panics: unwinding leaves a state behind, which later calls see.

The other models treat a panic as the end of the program.  Here a destructor or a `clone` may
panic, and the functions that call them are modelled again with the state at the moment the panic
leaves them. -/

set_option autoImplicit false

namespace Verif

/-- How a call that runs user code ends: it returns; a panic leaves it, the state being `s` from
then on; or a second panic during unwinding aborts the process. -/
inductive Ends (S : Type) where
  | returns (s : S)
  | unwinds (s : S)
  | aborts
  deriving DecidableEq

variable {α : Type}

/-- `ptr::drop_in_place` on a slice whose elements' destructors panic if `bad`.  The compiler's drop
glue goes on with the remaining elements after a panic; a second panic aborts.
`panicking`: a panic is under way. -/
def Mem.dropRangeP (bad : α → Bool) (m : Mem α) (p : Ptr) : Nat → Bool → Exec (Ends (Mem α))
  | 0, panicking => .ok (if panicking then .unwinds m else .returns m)
  | n + 1, panicking => do
    let x ← m.read p
    let m := { m with dropped := m.dropped ++ [x] }
    if bad x then
      if panicking then .ok .aborts else Mem.dropRangeP bad m p.next n true
    else Mem.dropRangeP bad m p.next n panicking

/-- `slice.clone_from_slice(buf)` where `clone` of an element panics if `boom`: the clone is made
before the slot is touched, so the slots from there on stay as they are. -/
def Mem.cloneFromP (boom : α → Bool) (m : Mem α) (p : Ptr) : List α → Exec (Ends (Mem α))
  | [] => .ok (.returns m)
  | x :: xs =>
    if boom x then .ok (.unwinds m)
    else do
      let m ← m.write p x
      Mem.cloneFromP boom m p.next xs

namespace Vec

/-- `Vector::clear` (src/vector/mod.rs:89-104), and `Vector::drop` (src/vector/mod.rs:332-335), for
an element type whose destructor may panic: the panic leaves `clear` before the buffer is freed and
the pointers are reset. -/
def clearP (A : Allocator α) (bad : α → Bool) (v : Vec) (m : Mem α) : Exec (Ends (Vec × Mem α)) :=
  if v.beginPtr = .null then .ok (.returns (⟨.null, .null, .null⟩, m)) else do
    let n ← v.len
    match ← m.dropRangeP bad v.beginPtr n false with
    | .returns m => do
      let c ← v.capacity
      let m ← A.dealloc v.beginPtr c m
      .ok (.returns (⟨.null, .null, .null⟩, m))
    | .unwinds m => .ok (.unwinds (v, m))
    | .aborts => .ok .aborts

/-- `Vector::append` (src/vector/mod.rs:280-292) for an element type without destructor whose
`clone` may panic. -/
def appendP (A : Allocator α) (boom : α → Bool) (buf : List α) (v : Vec) (m : Mem α) :
    Exec (Ends (Vec × Mem α)) := do
  let oldLen ← v.len
  let newLen := oldLen + buf.length
  let cap ← v.capacity
  let (v, m) ← (if cap < newLen then v.reserve A (newLen - cap) m else .ok (v, m))
  let e ← m.ptrAdd v.endPtr buf.length
  let v : Vec := { v with endPtr := e }
  if v.beginPtr = .null then .ok (.returns (v, m)) else do
    let p ← m.ptrAdd v.beginPtr oldLen
    match ← m.cloneFromP boom p buf with
    | .returns m => .ok (.returns (v, m))
    | .unwinds m => .ok (.unwinds (v, m))
    | .aborts => .ok .aborts

/-- `Vector::assign` (src/vector/mod.rs:299-308) for an element type without destructor whose
`clone` may panic. -/
def assignP (A : Allocator α) (boom : α → Bool) (buf : List α) (v : Vec) (m : Mem α) :
    Exec (Ends (Vec × Mem α)) := do
  let cap ← v.capacity
  let (v, m) ← (if cap < buf.length then v.reserve A (buf.length - cap) m else .ok (v, m))
  let e ← m.ptrAdd v.beginPtr buf.length
  let v : Vec := { v with endPtr := e }
  if v.beginPtr = .null then .ok (.returns (v, m)) else do
    match ← m.cloneFromP boom v.beginPtr buf with
    | .returns m => .ok (.returns (v, m))
    | .unwinds m => .ok (.unwinds (v, m))
    | .aborts => .ok .aborts

end Vec
end Verif
