import Verif.Spec.Borrow
import Verif.Mem

/-!
# Pointers into the object itself and into pools

What constructors and first calls of lists and fixed vectors, and the reuse of a pool's node, do to
the permissions of the memory.  The values that are stored are left out; a cell is a pointer or an
element.
-/

set_option autoImplicit false

namespace Verif
open Spec

variable {P : Type}

/-- `&mut place as *mut _`: a mutable reference and a raw pointer from it. -/
def _root_.Verif.Spec.Rules.pointerTo (K : Rules P) (S : P) (t : Nat) (p : Ptr) (n : Nat) :
    Exec (Nat × P) := do
  let (r, S) ← K.reborrow S .mutable t p n
  K.reborrow S .raw r p n

/-- The tags of the two pointers in a list's sentinel (src/list/node.rs:4-7). -/
structure Sentinel where
  next : Nat
  prev : Nat

/-- `List::init_sentinel_node` (src/list/mod.rs:200-203), called with tag `t`.  The sentinel is at `p`:
first `next`, then `prev`. -/
def Sentinel.init (K : Rules P) (S : P) (t : Nat) (p : Ptr) : Exec (Sentinel × P) := do
  let (prev, S) ← K.pointerTo S t p 2
  let S ← K.access S t .write p.next 1
  let (next, S) ← K.pointerTo S t p 2
  let S ← K.access S t .write p 1
  .ok (⟨next, prev⟩, S)

/-- `List::new_in` (src/list/mod.rs:34-46) at a place that belongs to `o`. -/
def Sentinel.new (K : Rules P) (S : P) (o : Nat) (p : Ptr) : Exec (Sentinel × P) := do
  let S ← K.access S o .write p 2
  let (t, S) ← K.reborrow S .mutable o p 2
  Sentinel.init K S t p

/-- `push_back` on an empty list (src/list/mod.rs:169-175) and `ListNodeBase::insert`
(src/list/node.rs:20-25), without the accesses to the new node. -/
def Sentinel.pushBack (K : Rules P) (s : Sentinel) (S : P) (o : Nat) (p : Ptr) : Exec P := do
  let (t, S) ← K.reborrow S .mutable o p 2
  let (w, S) ← K.pointerTo S t p 2
  let S ← K.access S w .read p.next 1
  let S ← K.access S w .read p.next 1
  let S ← K.access S s.prev .write p 1
  K.access S w .write p.next 1

/-- `push_front` on an empty list (src/list/mod.rs:178-185) and `ListNodeBase::insert`
(src/list/node.rs:20-25), without the accesses to the new node. -/
def Sentinel.pushFront (K : Rules P) (s : Sentinel) (S : P) (o : Nat) (p : Ptr) : Exec P := do
  let (t, S) ← K.reborrow S .mutable o p 2
  let S ← K.access S t .read p 1
  let S ← K.access S s.next .read p.next 1
  let S ← K.access S s.next .read p.next 1
  let S ← K.access S s.prev .write p 1
  K.access S s.next .write p.next 1

/-- The tags of the pointers of a fixed vector into its own buffer (src/fixed_vector/mod.rs:45-51). -/
structure Inward where
  begin : Nat
  end' : Nat
  cap : Nat
  pool : Nat

/-- `FixedVector::init_base_vec` (src/fixed_vector/mod.rs:45-51), called with tag `t`.  Simplified:
the pointer that is cast to an integer and back keeps its tag. -/
def Inward.init (K : Rules P) (S : P) (t : Nat) (p : Ptr) : Exec (Inward × P) := do
  let (b, S) ← K.pointerTo S t p 1
  let (e, S) ← K.pointerTo S t p 1
  let (c, S) ← K.pointerTo S t p 1
  let (q, S) ← K.pointerTo S t p 1
  .ok (⟨b, e, c, q⟩, S)

/-- `FixedVector::new_in` (src/fixed_vector/mod.rs:34-44) at a place that belongs to `o`; the buffer of
`n` elements is at `p`. -/
def Inward.new (K : Rules P) (S : P) (o : Nat) (p : Ptr) (n : Nat) : Exec (Inward × P) := do
  let S ← K.access S o .write p n
  let (t, S) ← K.reborrow S .mutable o p n
  Inward.init K S t p

/-- The first `push` through `deref_mut` (src/fixed_vector/mod.rs:132-134, src/vector/mod.rs:126-136):
the fixed vector is borrowed and the element written through the end pointer. -/
def Inward.push (K : Rules P) (v : Inward) (S : P) (o : Nat) (p : Ptr) (n : Nat) : Exec P := do
  let (_, S) ← K.reborrow S .mutable o p n
  K.access S v.end' .write p 1

/-- `as_slice` of an empty fixed vector through `deref` (src/fixed_vector/mod.rs:124-126,
src/vector/mod.rs:67-73): a reference is made of the begin pointer. -/
def Inward.asSlice (K : Rules P) (v : Inward) (S : P) (o : Nat) (p : Ptr) (n : Nat) :
    Exec (Nat × P) := do
  let (_, S) ← K.reborrow S .shared o p n
  K.reborrow S .shared v.begin p 1

/-- `FixedPool::allocate_raw_aligned` with a free node (src/fixed_pool/mod.rs:82-91): the pointer
returned comes from a reference to the link, which has `link` cells. -/
def Pool.reuse (K : Rules P) (S : P) (t : Nat) (p : Ptr) (link : Nat) : Exec (Nat × P) :=
  K.pointerTo S t p link

end Verif
