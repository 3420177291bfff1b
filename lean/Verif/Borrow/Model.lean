import Verif.Spec.Borrow
import Verif.Vector.Run
import Verif.Deque.Model
import Verif.HashTable.Model

/-!
# `Vector` with the provenance of its pointers

The model of src/vector (Verif/Vector/Model.lean) once more, together with what every access and
every reference does to the permissions of the memory, for any rules about them.  The three pointers of a vector come from one
allocation and are moved with `add` and `sub`, so one tag stands for all of them.  The vector itself
is not in this memory; neither are the slices that are passed to `append` and `assign`.
-/

set_option autoImplicit false

namespace Verif
open Spec

variable {α P : Type}

/-- `if let Some(p) = p.as_mut() { from_raw_parts_mut(p, n) }`, as in `as_slice_mut`
(src/vector/mod.rs:75-81, src/vector/into_iter.rs:27-33, src/deque/mod.rs:360-361, 444-449,
src/internal/hash_table/mod.rs:276-282): a mutable reference to one element, a raw pointer from it,
a mutable reference to `n` elements. -/
def _root_.Verif.Spec.Rules.sliceMut (K : Rules P) (S : P) (t : Nat) (p : Ptr) (n : Nat) :
    Exec (Nat × P) := do
  let (r, S) ← K.reborrow S .mutable t p 1
  let (w, S) ← K.reborrow S .raw r p 1
  K.reborrow S .mutable w p n

/-- `if let Some(p) = p.as_ref() { from_raw_parts(p, n) }`, as in `as_slice` (src/vector/mod.rs:67-73,
src/vector/into_iter.rs:18-24, src/internal/hash_table/mod.rs:267-273). -/
def _root_.Verif.Spec.Rules.slice (K : Rules P) (S : P) (t : Nat) (p : Ptr) (n : Nat) :
    Exec (Nat × P) := do
  let (r, S) ← K.reborrow S .shared t p 1
  let (w, S) ← K.reborrow S .shared r p 1
  K.reborrow S .shared w p n

/-- `struct Vector` (src/vector/mod.rs:24-30) and the tag of its pointers. -/
structure TVec where
  vec : Vec
  tag : Nat

/-- The memory and its permissions. -/
structure BMem (α P : Type) where
  mem : Mem α
  perms : P

namespace TVec

/-- `Vector::new_in` (src/vector/mod.rs:56-64).  Null pointers have no provenance; no access through
them is allowed. -/
def new : TVec := ⟨.new, 0⟩

/-- `Vector::as_slice` (src/vector/mod.rs:67-73), read out. -/
def asSlice (K : Rules P) (v : TVec) (M : BMem α P) : Exec (List α × BMem α P) :=
  if v.vec.beginPtr = .null then .ok ([], M) else do
    let n ← v.vec.len
    let (s, S) ← K.slice M.perms v.tag v.vec.beginPtr n
    let S ← K.access S s .read v.vec.beginPtr n
    let xs ← M.mem.readRange v.vec.beginPtr n
    .ok (xs, { M with perms := S })

/-- `Vector::clear` (src/vector/mod.rs:89-104), also `Drop` (328-336).  Destructors borrow what
they destroy mutably. -/
def clear (K : Rules P) (A : Allocator α) (nd : Bool) (v : TVec) (M : BMem α P) :
    Exec (TVec × BMem α P) := do
  let M ← (if v.vec.beginPtr = .null then .ok M else do
    let n ← v.vec.len
    let (s, S) ← K.sliceMut M.perms v.tag v.vec.beginPtr n
    let S ← (if nd then K.access S s .write v.vec.beginPtr n else .ok S)
    let m ← M.mem.dropRange nd v.vec.beginPtr n
    let c ← v.vec.capacity
    let S ← K.free S v.tag v.vec.beginPtr c
    let m ← A.dealloc v.vec.beginPtr c m
    .ok ⟨m, S⟩)
  .ok (new, M)

/-- `Vector::reserve` (src/vector/mod.rs:203-224). -/
def reserve (K : Rules P) (A : Allocator α) (additional : Nat) (v : TVec) (M : BMem α P) :
    Exec (TVec × BMem α P) :=
  if additional = 0 then .ok (v, M) else do
    let size ← v.vec.len
    let cap ← v.vec.capacity
    let newCap := cap + additional
    let (nb, m) ← A.alloc newCap M.mem
    let (t, S) := K.allocate M.perms nb newCap
    let M : BMem α P := ⟨m, S⟩
    let M ← (if v.vec.beginPtr = .null then .ok M else do
      let S ← K.access M.perms v.tag .read v.vec.beginPtr size
      let S ← K.access S t .write nb size
      let m ← M.mem.copy v.vec.beginPtr nb size
      let c ← v.vec.capacity
      let S ← K.free S v.tag v.vec.beginPtr c
      let m ← A.dealloc v.vec.beginPtr c m
      .ok ⟨m, S⟩)
    let e ← M.mem.ptrAdd nb size
    let c ← M.mem.ptrAdd nb newCap
    .ok (⟨⟨nb, e, c⟩, t⟩, M)

/-- `Vector::grow` (src/vector/mod.rs:250-254). -/
def grow (K : Rules P) (A : Allocator α) (v : TVec) (M : BMem α P) :
    Exec (TVec × BMem α P) := do
  let c ← v.vec.capacity
  let newCap := Vec.calculateGrowCapacity c
  let c' ← v.vec.capacity
  v.reserve K A (newCap - c') M

/-- `Vector::push` (src/vector/mod.rs:126-136). -/
def push (K : Rules P) (A : Allocator α) (x : α) (v : TVec) (M : BMem α P) :
    Exec (TVec × BMem α P) := do
  let full ← v.vec.isFull
  let (v, M) ← (if full then v.grow K A M else .ok (v, M))
  let S ← K.access M.perms v.tag .write v.vec.endPtr 1
  let m ← M.mem.write v.vec.endPtr x
  let w ← v.vec.incrementSize m
  .ok ({ v with vec := w }, ⟨m, S⟩)

/-- `Vector::pop` (src/vector/mod.rs:139-149). -/
def pop (K : Rules P) (v : TVec) (M : BMem α P) : Exec (Option α × TVec × BMem α P) := do
  let e ← v.vec.isEmpty
  if e then .ok (none, v, M) else do
    let w ← v.vec.decrementSize M.mem
    let S ← K.access M.perms v.tag .read w.endPtr 1
    let x ← M.mem.read w.endPtr
    .ok (some x, { v with vec := w }, { M with perms := S })

/-- `Vector::insert` (src/vector/mod.rs:159-174). -/
def insert (K : Rules P) (A : Allocator α) (index : Nat) (x : α) (v : TVec) (M : BMem α P) :
    Exec (TVec × BMem α P) := do
  let n ← v.vec.len
  if index ≤ n then do
    let full ← v.vec.isFull
    let (v, M) ← (if full then v.grow K A M else .ok (v, M))
    let src ← M.mem.ptrAdd v.vec.beginPtr index
    let dst ← M.mem.ptrAdd v.vec.beginPtr (index + 1)
    let n ← v.vec.len
    let S ← K.access M.perms v.tag .read src (n - index)
    let S ← K.access S v.tag .write dst (n - index)
    let m ← M.mem.copy src dst (n - index)
    let p ← m.ptrAdd v.vec.beginPtr index
    let S ← K.access S v.tag .write p 1
    let m ← m.write p x
    let w ← v.vec.incrementSize m
    .ok ({ v with vec := w }, ⟨m, S⟩)
  else .error .panic

/-- `Vector::remove` (src/vector/mod.rs:181-196). -/
def remove (K : Rules P) (index : Nat) (v : TVec) (M : BMem α P) :
    Exec (Option α × TVec × BMem α P) := do
  let n ← v.vec.len
  if n ≤ index then .ok (none, v, M) else do
    let p ← M.mem.ptrAdd v.vec.beginPtr index
    let S ← K.access M.perms v.tag .read p 1
    let res ← M.mem.read p
    let w ← v.vec.decrementSize M.mem
    let dst ← M.mem.ptrAdd w.beginPtr index
    let src ← M.mem.ptrAdd w.beginPtr (index + 1)
    let n ← w.len
    let S ← K.access S v.tag .read src (n - index)
    let S ← K.access S v.tag .write dst (n - index)
    let m ← M.mem.copy src dst (n - index)
    .ok (some res, { v with vec := w }, ⟨m, S⟩)

/-- `Vector::append` (src/vector/mod.rs:280-292).  Simplified: the part `[old_len..]` of the slice
is written through the slice instead of through a further reference. -/
def append (K : Rules P) (A : Allocator α) (nd : Bool) (buf : List α) (v : TVec) (M : BMem α P) :
    Exec (TVec × BMem α P) := do
  let oldLen ← v.vec.len
  let newLen := oldLen + buf.length
  let cap ← v.vec.capacity
  let (v, M) ← (if cap < newLen then v.reserve K A (newLen - cap) M else .ok (v, M))
  let e ← M.mem.ptrAdd v.vec.endPtr buf.length
  let w : Vec := { v.vec with endPtr := e }
  if w.beginPtr = .null then .ok ({ v with vec := w }, M) else do
    let n ← w.len
    let (s, S) ← K.sliceMut M.perms v.tag w.beginPtr n
    let p ← M.mem.ptrAdd w.beginPtr oldLen
    let S ← K.access S s .write p buf.length
    let m ← M.mem.cloneFrom nd p buf
    .ok ({ v with vec := w }, ⟨m, S⟩)

/-- `Vector::assign` (src/vector/mod.rs:299-308). -/
def assign (K : Rules P) (A : Allocator α) (nd : Bool) (buf : List α) (v : TVec) (M : BMem α P) :
    Exec (TVec × BMem α P) := do
  let cap ← v.vec.capacity
  let (v, M) ← (if cap < buf.length then v.reserve K A (buf.length - cap) M else .ok (v, M))
  let e ← M.mem.ptrAdd v.vec.beginPtr buf.length
  let w : Vec := { v.vec with endPtr := e }
  if w.beginPtr = .null then .ok ({ v with vec := w }, M) else do
    let n ← w.len
    let (s, S) ← K.sliceMut M.perms v.tag w.beginPtr n
    let S ← K.access S s .write w.beginPtr buf.length
    let m ← M.mem.cloneFrom nd w.beginPtr buf
    .ok ({ v with vec := w }, ⟨m, S⟩)

/-- `v[index] = x` through `DerefMut` (src/vector/mod.rs:351-355): the slice exists before the index
is checked. -/
def setAt (K : Rules P) (nd : Bool) (index : Nat) (x : α) (v : TVec) (M : BMem α P) :
    Exec (BMem α P) :=
  if v.vec.beginPtr = .null then .error .panic else do
    let n ← v.vec.len
    let (s, S) ← K.sliceMut M.perms v.tag v.vec.beginPtr n
    if index < n then do
      let p ← M.mem.ptrAdd v.vec.beginPtr index
      let S ← K.access S s .write p 1
      let m ← M.mem.dropCell nd p
      let m ← m.write p x
      .ok ⟨m, S⟩
    else .error .panic

/-- One call (the functions of src/vector/mod.rs above). -/
def step (K : Rules P) (A : Allocator α) (nd : Bool) (op : SeqOp α) (v : TVec) (M : BMem α P) :
    Exec (Out α × TVec × BMem α P) :=
  match op with
  | .push x => do let (v, M) ← v.push K A x M; .ok (.unit, v, M)
  | .pop => do let (o, v, M) ← v.pop K M; .ok (.elem o, v, M)
  | .insert i x => do let (v, M) ← v.insert K A i x M; .ok (.unit, v, M)
  | .remove i => do let (o, v, M) ← v.remove K i M; .ok (.elem o, v, M)
  | .set i x => do let M ← v.setAt K nd i x M; .ok (.unit, v, M)
  | .reserve n => do let (v, M) ← v.reserve K A n M; .ok (.unit, v, M)
  | .append buf => do let (v, M) ← v.append K A nd buf M; .ok (.unit, v, M)
  | .assign buf => do let (v, M) ← v.assign K A nd buf M; .ok (.unit, v, M)
  | .clear => do let (v, M) ← v.clear K A nd M; .ok (.unit, v, M)
  | .len => do let n ← v.vec.len; .ok (.nat n, v, M)
  | .isEmpty => do let b ← v.vec.isEmpty; .ok (.bool b, v, M)
  | .slice => do let (s, M) ← v.asSlice K M; .ok (.list s, v, M)

/-- A history of calls (the functions of src/vector/mod.rs above). -/
def run (K : Rules P) (A : Allocator α) (nd : Bool) : List (SeqOp α) → TVec → BMem α P →
    Exec (List (Out α) × TVec × BMem α P)
  | [], v, M => .ok ([], v, M)
  | op :: ops, v, M => do
    let (o, v, M) ← v.step K A nd op M
    let (os, v, M) ← run K A nd ops v M
    .ok (o :: os, v, M)

end TVec

/-- A reference to one element: it must point to an element of a live block, even if it is not
used. -/
def Mem.reference (m : Mem α) (p : Ptr) : Exec Unit := do
  let _ ← m.cell p
  .ok ()

/-- `Drop for IntoIter` (src/vector/into_iter.rs:51-63) with the reference that `as_slice_mut` (27-33)
makes of the front cursor, `front_cursor.as_mut()`. -/
def VIntoIter.dropChecked (A : Allocator α) (nd : Bool) (it : VIntoIter) (m : Mem α) :
    Exec (Mem α) :=
  if it.beginPtr = .null then .ok m else do
    let _ ← (if it.front = .null then .ok () else m.reference it.front)
    it.drop A nd m

/-- `IntoIter::as_slice` (src/vector/into_iter.rs:18-24) with the reference `front_cursor.as_ref()`. -/
def VIntoIter.asSliceChecked (it : VIntoIter) (m : Mem α) : Exec (List α) := do
  let _ ← (if it.front = .null then .ok () else m.reference it.front)
  it.asSlice m

/-- `struct IntoIter` (src/vector/into_iter.rs:8-14) and the tag of its pointers, which are those of
the vector (`into_iter`, src/vector/mod.rs:404-424). -/
structure TIntoIter where
  it : VIntoIter
  tag : Nat

/-- `IntoIterator::into_iter` (src/vector/mod.rs:404-424). -/
def TVec.intoIter (v : TVec) : TIntoIter := ⟨v.vec.intoIter, v.tag⟩

namespace TIntoIter

/-- `IntoIter::as_slice` (src/vector/into_iter.rs:18-24), read out. -/
def asSlice (K : Rules P) (it : TIntoIter) (M : BMem α P) : Exec (List α × BMem α P) :=
  if it.it.front = .null then .ok ([], M) else do
    let n ← it.it.len
    let (s, S) ← K.slice M.perms it.tag it.it.front n
    let S ← K.access S s .read it.it.front n
    let xs ← M.mem.readRange it.it.front n
    .ok (xs, { M with perms := S })

/-- `Iterator::next` (src/vector/into_iter.rs:68-78). -/
def next (K : Rules P) (it : TIntoIter) (M : BMem α P) : Exec (Option α × TIntoIter × BMem α P) := do
  let n ← it.it.len
  if n = 0 then .ok (none, it, M) else do
    let S ← K.access M.perms it.tag .read it.it.front 1
    let x ← M.mem.read it.it.front
    let f ← M.mem.ptrAdd it.it.front 1
    .ok (some x, ⟨{ it.it with front := f }, it.tag⟩, { M with perms := S })

/-- `DoubleEndedIterator::next_back` (src/vector/into_iter.rs:82-92). -/
def nextBack (K : Rules P) (it : TIntoIter) (M : BMem α P) :
    Exec (Option α × TIntoIter × BMem α P) := do
  let n ← it.it.len
  if n = 0 then .ok (none, it, M) else do
    let b ← M.mem.ptrSub it.it.back 1
    let S ← K.access M.perms it.tag .read b 1
    let x ← M.mem.read b
    .ok (some x, ⟨{ it.it with back := b }, it.tag⟩, { M with perms := S })

/-- `Drop for IntoIter` (src/vector/into_iter.rs:51-63). -/
def drop (K : Rules P) (A : Allocator α) (nd : Bool) (it : TIntoIter) (M : BMem α P) :
    Exec (BMem α P) :=
  if it.it.beginPtr = .null then .ok M else do
    let (m, S) ← (if it.it.front = .null then .ok (M.mem, M.perms) else do
      let n ← it.it.len
      let (s, S) ← K.sliceMut M.perms it.tag it.it.front n
      let S ← (if nd then K.access S s .write it.it.front n else .ok S)
      let m ← M.mem.dropRange nd it.it.front n
      .ok (m, S))
    let c ← it.it.capacity
    let S ← K.free S it.tag it.it.beginPtr c
    let m ← A.dealloc it.it.beginPtr c m
    .ok ⟨m, S⟩

/-- A number of calls of `next` and `next_back` (src/vector/into_iter.rs:68-92). -/
def run (K : Rules P) : List IterOp → TIntoIter → BMem α P →
    Exec (List (Option α) × TIntoIter × BMem α P)
  | [], it, M => .ok ([], it, M)
  | op :: ops, it, M => do
    let (o, it, M) ← (match op with
      | .next => it.next K M
      | .nextBack => it.nextBack K M)
    let (os, it, M) ← run K ops it M
    .ok (o :: os, it, M)

end TIntoIter

/-- The slice that `realloc_ptr_array` makes of all pointers (src/deque/mod.rs:360-364). -/
def Deque.allPointers (K : Rules P) (d : Deque) (S : P) (t : Nat) :
    Exec (Nat × P) :=
  K.sliceMut S t d.ptrs d.size

/-- The slice that `Drop for Deque` makes of the pointers to be freed (src/deque/mod.rs:444-449). -/
def Deque.freedPointers (K : Rules P) (d : Deque) (S : P) (t : Nat) :
    Exec (Nat × P) := do
  let n ← d.e.arr.offsetFrom d.b.arr
  K.sliceMut S t d.b.arr n

/-- The slice that `rehash` makes of the old buckets (`buckets_mut`,
src/internal/hash_table/mod.rs:276-282, called in 400). -/
def HTable.oldBuckets {σ : Type} (K : Rules P) (h : HTable σ) (S : P) (t : Nat) :
    Exec (Nat × P) :=
  K.sliceMut S t h.buckets h.bucketCount

/-- The slice that `iter_mut` makes of the buckets (`buckets_imut`,
src/internal/hash_table/mod.rs:267-273, called in 150). -/
def HTable.mutBuckets {σ : Type} (K : Rules P) (h : HTable σ) (S : P) (t : Nat) :
    Exec (Nat × P) :=
  K.slice S t h.buckets h.bucketCount

end Verif
