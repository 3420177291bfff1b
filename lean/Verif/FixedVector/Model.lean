import Verif.Vector.Run

/-!
# Model of `FixedVector` (src/fixed_vector/mod.rs, src/fixed_vector/allocator.rs)

The inline `buffer` is a block of its own with `Region.inline`; its identifier plays the role
of the address of the enclosing object.
-/

set_option autoImplicit false

namespace Verif
open Spec

variable {α : Type}

/-- `FixedVectorAllocator` (src/fixed_vector/allocator.rs:8-45) over `DefaultAllocator` as
overflow allocator: allocations always go to the overflow allocator, deallocations too unless
the pointer is `pool_begin`. -/
def fixedAllocator (R : RawAlloc α) (pool : Ptr) : Allocator α where
  alloc := (defaultAllocator R).alloc
  dealloc p n m := if p = pool then .ok m else (defaultAllocator R).dealloc p n m

/-- `struct FixedVector` (src/fixed_vector/mod.rs:20-24): base vector, the allocator's
`pool_begin`, and the identity of the inline buffer together with `NODE_COUNT`. -/
structure FVec where
  vec : Vec
  pool : Ptr
  buf : Nat
  count : Nat
  deriving DecidableEq, Repr

namespace FVec

/-- Storage for a `MaybeUninit<FixedVector<T, N, A>>` comes into existence: an uninitialised
inline block. -/
def storage (n d : Nat) (m : Mem α) : Mem α := m.setBlock d (some ⟨n, .inline, fun _ => none⟩)

/-- `init_base_vec` (src/fixed_vector/mod.rs:45-51).  `self.buffer[0]` panics for
`NODE_COUNT = 0`. -/
def initBaseVec (f : FVec) : Exec FVec :=
  if f.count = 0 then .error .panic else
    .ok { f with vec := ⟨.loc f.buf 0, .loc f.buf 0, .loc f.buf f.count⟩, pool := .loc f.buf 0 }

/-- `FixedVector::new_in` (src/fixed_vector/mod.rs:34-43, `new` 59-61), placing the object in storage `d`. -/
def newIn (n d : Nat) (m : Mem α) : Exec (FVec × Mem α) := do
  let f ← initBaseVec ⟨Vec.new, .null, d, n⟩
  .ok (f, storage n d m)

/-- `has_overflowed` (src/fixed_vector/mod.rs:100-102). -/
def hasOverflowed (f : FVec) : Bool := f.vec.beginPtr != .loc f.buf 0

/-- `max_size` (src/fixed_vector/mod.rs:95-97). -/
def maxSize (f : FVec) : Nat := f.count

/-- A call that reaches the base vector through `Deref`/`DerefMut`
(src/fixed_vector/mod.rs:105-109, 119-135). -/
def step (R : RawAlloc α) (nd : Bool) (op : SeqOp α) (f : FVec) (m : Mem α) :
    Exec (Out α × FVec × Mem α) := do
  let (o, v, m) ← f.vec.step (fixedAllocator R f.pool) nd op m
  .ok (o, { f with vec := v }, m)

/-- A history of such calls. -/
def run (R : RawAlloc α) (nd : Bool) : List (SeqOp α) → FVec → Mem α →
    Exec (List (Out α) × FVec × Mem α)
  | [], f, m => .ok ([], f, m)
  | op :: ops, f, m => do
    let (o, f, m) ← f.step R nd op m
    let (os, f, m) ← run R nd ops f m
    .ok (o :: os, f, m)

/-- End of life of the object: `Drop for Vector` (src/vector/mod.rs:329-336) runs on the base
vector, the buffer (`MaybeUninit`) is not dropped, then the storage disappears. -/
def destroy (R : RawAlloc α) (nd : Bool) (f : FVec) (m : Mem α) : Exec (Mem α) := do
  let (_, m) ← f.vec.clear (fixedAllocator R f.pool) nd m
  .ok (m.setBlock f.buf none)

/-- `MoveNew::move_new` (src/fixed_vector/mod.rs:67-90) into the existing storage `d`.
`garbage` is the uninitialised allocator found in the destination, which the swap leaves in
the source.  Returns the new object, the moved-from source and memory. -/
def moveNew (garbage : Ptr) (src : FVec) (d : Nat) (m : Mem α) :
    Exec (FVec × FVec × Mem α) :=
  let this : FVec := ⟨Vec.new, src.pool, d, src.count⟩
  let src' : FVec := { src with pool := garbage }
  if src.hasOverflowed then
    .ok ({ this with vec := src.vec }, { src' with vec := { src.vec with beginPtr := .null } }, m)
  else
    match m.live d, m.live src.buf with
    | some db, some sb => do
      let m := (m.setBlock d (some sb)).setBlock src.buf (some db)
      let this ← this.initBaseVec
      let used ← src.vec.endPtr.offsetFrom src.vec.beginPtr
      .ok ({ this with vec := { this.vec with endPtr := .loc d used } },
        { src' with vec := { src.vec with beginPtr := .null } }, m)
    | _, _ => .error .ub

/-- What a caller does to move a `FixedVector`: provide storage `d`, move-construct there, end
the life of the source. -/
def moveTo (R : RawAlloc α) (nd : Bool) (garbage : Ptr) (d : Nat) (f : FVec) (m : Mem α) :
    Exec (FVec × Mem α) := do
  let (f', src', m) ← moveNew garbage f d (storage f.count d m)
  let m ← src'.destroy R nd m
  .ok (f', m)

/-- Events in the life of a `FixedVector`: calls, and moves to new storage. -/
inductive Ev (α : Type) where
  | call (op : SeqOp α)
  | move

/-- The calls of a life. -/
def Ev.calls : List (Ev α) → List (SeqOp α)
  | [] => []
  | .call op :: evs => op :: calls evs
  | .move :: evs => calls evs

/-- A life of a `FixedVector`.  `P` chooses where the caller places the object at each move
(any storage that is not in use). -/
def live (R P : RawAlloc α) (nd : Bool) (garbage : Ptr) : List (Ev α) → FVec → Mem α →
    Exec (List (Out α) × FVec × Mem α)
  | [], f, m => .ok ([], f, m)
  | .call op :: evs, f, m => do
    let (o, f, m) ← f.step R nd op m
    let (os, f, m) ← live R P nd garbage evs f m
    .ok (o :: os, f, m)
  | .move :: evs, f, m => do
    let (f, m) ← f.moveTo R nd garbage (P.pick m f.count) m
    live R P nd garbage evs f m

end FVec

end Verif
