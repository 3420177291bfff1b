import Verif.Mem

/-!
# Model of `Vector` (src/vector/mod.rs) and its `IntoIter` (src/vector/into_iter.rs)

`nd` is `mem::needs_drop::<T>()`.  The allocator is a parameter, as in the source.
-/

set_option autoImplicit false

namespace Verif

/-- `struct Vector` (src/vector/mod.rs:24-30): three raw pointers.  The allocator field is
passed as a parameter instead. -/
structure Vec where
  beginPtr : Ptr
  endPtr : Ptr
  capPtr : Ptr
  deriving DecidableEq, Repr

namespace Vec
variable {α : Type}

/-- `Vector::new_in` (src/vector/mod.rs:56-64; `new` 34-36, `Default` 338-342). -/
def new : Vec := ⟨.null, .null, .null⟩

/-- `Vector::len` (src/vector/mod.rs:117-119). -/
def len (v : Vec) : Exec Nat := v.endPtr.offsetFrom v.beginPtr

/-- `Vector::capacity` (src/vector/mod.rs:84-86). -/
def capacity (v : Vec) : Exec Nat := v.capPtr.offsetFrom v.beginPtr

/-- `Vector::is_empty` (src/vector/mod.rs:107-109). -/
def isEmpty (v : Vec) : Exec Bool := do
  let n ← v.len
  .ok (n == 0)

/-- `Vector::is_full` (src/vector/mod.rs:112-114). -/
def isFull (v : Vec) : Exec Bool := do
  let n ← v.len
  let c ← v.capacity
  .ok (n == c)

/-- `Vector::as_slice` (src/vector/mod.rs:67-73; `AsRef` 311-315), read out. -/
def asSlice (v : Vec) (m : Mem α) : Exec (List α) :=
  if v.beginPtr = .null then .ok [] else do
    let n ← v.len
    m.readRange v.beginPtr n

/-- `Vector::clear` (src/vector/mod.rs:89-104). -/
def clear (A : Allocator α) (nd : Bool) (v : Vec) (m : Mem α) : Exec (Vec × Mem α) := do
  let m ← (if v.beginPtr = .null then .ok m else do
    let n ← v.len
    let m ← m.dropRange nd v.beginPtr n
    let c ← v.capacity
    A.dealloc v.beginPtr c m)
  .ok (⟨.null, .null, .null⟩, m)

/-- `Vector::reserve` (src/vector/mod.rs:203-224). -/
def reserve (A : Allocator α) (additional : Nat) (v : Vec) (m : Mem α) : Exec (Vec × Mem α) :=
  if additional = 0 then .ok (v, m) else do
    let size ← v.len
    let cap ← v.capacity
    let newCap := cap + additional
    let (nb, m) ← A.alloc newCap m
    let m ← (if v.beginPtr = .null then .ok m else do
      let m ← m.copy v.beginPtr nb size
      let c ← v.capacity
      A.dealloc v.beginPtr c m)
    let e ← m.ptrAdd nb size
    let c ← m.ptrAdd nb newCap
    .ok (⟨nb, e, c⟩, m)

/-- `Vector::calculate_grow_capacity` (src/vector/mod.rs:241-247). -/
def calculateGrowCapacity (oldCapacity : Nat) : Nat :=
  if oldCapacity = 0 then 1 else oldCapacity * 2

/-- `Vector::grow` (src/vector/mod.rs:250-254). -/
def grow (A : Allocator α) (v : Vec) (m : Mem α) : Exec (Vec × Mem α) := do
  let c ← v.capacity
  let newCap := calculateGrowCapacity c
  let c' ← v.capacity
  v.reserve A (newCap - c') m

/-- `Vector::increment_size` (src/vector/mod.rs:232-234; the two doc comments are swapped). -/
def incrementSize (v : Vec) (m : Mem α) : Exec Vec := do
  let e ← m.ptrAdd v.endPtr 1
  .ok { v with endPtr := e }

/-- `Vector::decrement_size` (src/vector/mod.rs:227-229). -/
def decrementSize (v : Vec) (m : Mem α) : Exec Vec := do
  let e ← m.ptrSub v.endPtr 1
  .ok { v with endPtr := e }

/-- `Vector::push` (src/vector/mod.rs:126-136). -/
def push (A : Allocator α) (x : α) (v : Vec) (m : Mem α) : Exec (Vec × Mem α) := do
  let full ← v.isFull
  let (v, m) ← (if full then v.grow A m else .ok (v, m))
  let m ← m.write v.endPtr x
  let v ← v.incrementSize m
  .ok (v, m)

/-- `Vector::pop` (src/vector/mod.rs:139-149). -/
def pop (v : Vec) (m : Mem α) : Exec (Option α × Vec) := do
  let e ← v.isEmpty
  if e then .ok (none, v) else do
    let v ← v.decrementSize m
    let x ← m.read v.endPtr
    .ok (some x, v)

/-- `Vector::insert` (src/vector/mod.rs:159-174). -/
def insert (A : Allocator α) (index : Nat) (x : α) (v : Vec) (m : Mem α) :
    Exec (Vec × Mem α) := do
  let n ← v.len
  if index ≤ n then do
    let full ← v.isFull
    let (v, m) ← (if full then v.grow A m else .ok (v, m))
    let src ← m.ptrAdd v.beginPtr index
    let dst ← m.ptrAdd v.beginPtr (index + 1)
    let n ← v.len
    let m ← m.copy src dst (n - index)
    let p ← m.ptrAdd v.beginPtr index
    let m ← m.write p x
    let v ← v.incrementSize m
    .ok (v, m)
  else .error .panic

/-- `Vector::remove` (src/vector/mod.rs:181-196). -/
def remove (index : Nat) (v : Vec) (m : Mem α) : Exec (Option α × Vec × Mem α) := do
  let n ← v.len
  if n ≤ index then .ok (none, v, m) else do
    let p ← m.ptrAdd v.beginPtr index
    let res ← m.read p
    let v ← v.decrementSize m
    let dst ← m.ptrAdd v.beginPtr index
    let src ← m.ptrAdd v.beginPtr (index + 1)
    let n ← v.len
    let m ← m.copy src dst (n - index)
    .ok (some res, v, m)

/-- `Vector::append` (src/vector/mod.rs:280-292).  Indexing `[old_len..old_len+n]` of the
resized slice cannot panic, the slice has exactly that length. -/
def append (A : Allocator α) (nd : Bool) (buf : List α) (v : Vec) (m : Mem α) :
    Exec (Vec × Mem α) := do
  let oldLen ← v.len
  let newLen := oldLen + buf.length
  let cap ← v.capacity
  let (v, m) ← (if cap < newLen then v.reserve A (newLen - cap) m else .ok (v, m))
  let e ← m.ptrAdd v.endPtr buf.length
  let v : Vec := { v with endPtr := e }
  -- `as_slice_mut` is `&mut []` for a null vector; then `buf` is empty
  if v.beginPtr = .null then .ok (v, m) else do
    let p ← m.ptrAdd v.beginPtr oldLen
    let m ← m.cloneFrom nd p buf
    .ok (v, m)

/-- `Vector::assign` (src/vector/mod.rs:299-308). -/
def assign (A : Allocator α) (nd : Bool) (buf : List α) (v : Vec) (m : Mem α) :
    Exec (Vec × Mem α) := do
  let cap ← v.capacity
  let (v, m) ← (if cap < buf.length then v.reserve A (buf.length - cap) m else .ok (v, m))
  let e ← m.ptrAdd v.beginPtr buf.length
  let v : Vec := { v with endPtr := e }
  if v.beginPtr = .null then .ok (v, m) else do
    let m ← m.cloneFrom nd v.beginPtr buf
    .ok (v, m)

/-- `v[index] = x` through `DerefMut` (src/vector/mod.rs:351-355, `as_slice_mut` 75-81): the
slice index check panics, the old value is dropped. -/
def setAt (nd : Bool) (index : Nat) (x : α) (v : Vec) (m : Mem α) : Exec (Mem α) := do
  let n ← (if v.beginPtr = .null then .ok 0 else v.len)
  if index < n then do
    let p ← m.ptrAdd v.beginPtr index
    let m ← m.dropCell nd p
    m.write p x
  else .error .panic

/-- `Vector::with_capacity` (src/vector/mod.rs:43-47). -/
def withCapacity (A : Allocator α) (capacity : Nat) (m : Mem α) : Exec (Vec × Mem α) :=
  new.reserve A capacity m

/-- `Vector::from_in` (src/vector/mod.rs:269-273), `From<&[T]>` (357-363), `From<&mut [T]>`
(365-371) and `From<&[T; N]>` (384-390): `new` followed by `assign`. -/
def fromSlice (A : Allocator α) (nd : Bool) (buf : List α) (m : Mem α) : Exec (Vec × Mem α) :=
  new.assign A nd buf m

/-- The `for` loop of pushes in `From<[T; N]>` and `FromIterator`. -/
def pushAll (A : Allocator α) (v : Vec) (m : Mem α) : List α → Exec (Vec × Mem α)
  | [] => .ok (v, m)
  | x :: xs => do
    let (v, m) ← v.push A x m
    pushAll A v m xs

/-- `From<[T; N]>` (src/vector/mod.rs:373-382). -/
def fromArray (A : Allocator α) (buf : List α) (m : Mem α) : Exec (Vec × Mem α) := do
  let (v, m) ← withCapacity A buf.length m
  v.pushAll A m buf

/-- `FromIterator` (src/vector/mod.rs:392-402); `lower` is the iterator's lower size hint. -/
def fromIter (A : Allocator α) (lower : Nat) (items : List α) (m : Mem α) :
    Exec (Vec × Mem α) := do
  let (v, m) ← withCapacity A lower m
  v.pushAll A m items

/-- `Clone` (src/vector/mod.rs:317-321): `from_in(self.as_slice())`. -/
def clone (A : Allocator α) (nd : Bool) (v : Vec) (m : Mem α) : Exec (Vec × Mem α) := do
  let s ← v.asSlice m
  fromSlice A nd s m

end Vec

/-- `struct IntoIter` (src/vector/into_iter.rs:8-14). -/
structure VIntoIter where
  beginPtr : Ptr
  capPtr : Ptr
  front : Ptr
  back : Ptr
  deriving DecidableEq, Repr

/-- `IntoIterator::into_iter` (src/vector/mod.rs:404-424). -/
def Vec.intoIter (v : Vec) : VIntoIter := ⟨v.beginPtr, v.capPtr, v.beginPtr, v.endPtr⟩

namespace VIntoIter
variable {α : Type}

/-- `IntoIter::len` (src/vector/into_iter.rs:46-48, `is_empty` 41-43). -/
def len (it : VIntoIter) : Exec Nat := it.back.offsetFrom it.front

/-- `IntoIter::capacity` (src/vector/into_iter.rs:36-38). -/
def capacity (it : VIntoIter) : Exec Nat := it.capPtr.offsetFrom it.beginPtr

/-- `IntoIter::as_slice` (src/vector/into_iter.rs:18-33, `as_slice_mut` included). -/
def asSlice (it : VIntoIter) (m : Mem α) : Exec (List α) :=
  if it.front = .null then .ok [] else do
    let n ← it.len
    m.readRange it.front n

/-- `Iterator::next` (src/vector/into_iter.rs:68-78). -/
def next (it : VIntoIter) (m : Mem α) : Exec (Option α × VIntoIter) := do
  let n ← it.len
  if n = 0 then .ok (none, it) else do
    let x ← m.read it.front
    let f ← m.ptrAdd it.front 1
    .ok (some x, { it with front := f })

/-- `DoubleEndedIterator::next_back` (src/vector/into_iter.rs:82-92). -/
def nextBack (it : VIntoIter) (m : Mem α) : Exec (Option α × VIntoIter) := do
  let n ← it.len
  if n = 0 then .ok (none, it) else do
    let b ← m.ptrSub it.back 1
    let x ← m.read b
    .ok (some x, { it with back := b })

/-- `Drop for IntoIter` (src/vector/into_iter.rs:51-63). -/
def drop (A : Allocator α) (nd : Bool) (it : VIntoIter) (m : Mem α) : Exec (Mem α) :=
  if it.beginPtr = .null then .ok m else do
    let m ← (if it.front = .null then .ok m else do
      let n ← it.len
      m.dropRange nd it.front n)
    let c ← it.capacity
    A.dealloc it.beginPtr c m

end VIntoIter

end Verif
