import Verif.Node.Mem
import Verif.Spec.LinkedList

/-!
# Model of `List<T, A>` (src/list/mod.rs, src/list/node.rs, src/list/iter.rs)

The sentinel is embedded in the list object, so the list is identified by the address `head` of
its sentinel.  `size` is a `u32` in Rust; here it is a `Nat`
(no list of 2³² elements); `Verif.LinkedList.Counter` has the `u32`.
-/

set_option autoImplicit false

namespace Verif
open Spec

variable {α σ : Type}

/-- `ListNode<T>` (src/list/node.rs:3-17, 35-39): `next`, `prev` and the value, each possibly not
yet written. -/
structure LNode (α : Type) where
  next : Option Nat
  prev : Option Nat
  val : Option α

/-- An uninitialised node. -/
def LNode.uninit : LNode α := ⟨none, none, none⟩

/-- Memory holding list nodes. -/
abbrev LMem (α : Type) := NMem (LNode α) α

/-- What `List<T, A>` depends on: layout of `ListNode<T>`, whether `T` has a destructor, and the
allocator. -/
structure LEnv (α σ : Type) where
  size : Nat
  align : Nat
  nd : Bool
  A : NAlloc (LNode α) α σ

/-- `size_of::<ListNodeBase>()` and `align_of::<ListNodeBase>()`: two pointers
(src/list/node.rs:3-7). -/
def baseSize : Nat := 16
def baseAlign : Nat := 8

/-- `List<T, A>` (src/list/mod.rs:19-25). -/
structure LList (σ : Type) where
  head : Nat
  size : Nat
  al : σ

/-- Read a field that may be uninitialised. -/
def initd {β : Type} : Option β → Exec β
  | none => .error .ub
  | some x => .ok x

/-- `(*p).next` (src/list/node.rs:5). -/
def LMem.next (m : LMem α) (p : Nat) : Exec Nat := do initd (← m.get p).next

/-- `(*p).prev` (src/list/node.rs:6). -/
def LMem.prev (m : LMem α) (p : Nat) : Exec Nat := do initd (← m.get p).prev

/-- `(*p).value` (src/list/node.rs:41-50). -/
def LMem.val (m : LMem α) (p : Nat) : Exec α := do initd (← m.get p).val

/-- `(*p).next = q`. -/
def LMem.setNext (m : LMem α) (p q : Nat) : Exec (LMem α) :=
  m.modify p fun n => { n with next := some q }

/-- `(*p).prev = q`. -/
def LMem.setPrev (m : LMem α) (p q : Nat) : Exec (LMem α) :=
  m.modify p fun n => { n with prev := some q }

/-- `ptr::write(&mut (*p).value, x)`. -/
def LMem.setVal (m : LMem α) (p : Nat) (x : α) : Exec (LMem α) :=
  m.modify p fun n => { n with val := some x }

/-- `ListNodeBase::insert` (src/list/node.rs:20-25): put `self` before `next`. -/
def nodeInsert (self next : Nat) (m : LMem α) : Exec (LMem α) := do
  let m ← m.setNext self next
  let m ← m.setPrev self (← m.prev next)
  let m ← m.setNext (← m.prev next) self
  m.setPrev next self

/-- `ListNodeBase::remove` (src/list/node.rs:29-32). -/
def nodeRemove (self : Nat) (m : LMem α) : Exec (LMem α) := do
  let m ← m.setPrev (← m.next self) (← m.prev self)
  m.setNext (← m.prev self) (← m.next self)

namespace LList

/-- `init_sentinel_node` (src/list/mod.rs:200-203). -/
def initSentinel (l : LList σ) (m : LMem α) : Exec (LMem α) := do
  let m ← m.setPrev l.head l.head
  m.setNext l.head l.head

/-- `new_in` (src/list/mod.rs:34-45, `new` 233-235), into the storage at address `s`. -/
def newIn (a : σ) (s : Nat) (m : LMem α) : Exec (LList σ × LMem α) := do
  let l : LList σ := ⟨s, 0, a⟩
  let m ← l.initSentinel m
  .ok (l, m)

/-- `back` (src/list/mod.rs:51-58); `back_mut` (64-71) is the same access. -/
def back (l : LList σ) (m : LMem α) : Exec (Option α) := do
  let p ← m.prev l.head
  if p ≠ l.head then .ok (some (← m.val p)) else .ok none

/-- `front` (src/list/mod.rs:100-107); `front_mut` (113-120) is the same access. -/
def front (l : LList σ) (m : LMem α) : Exec (Option α) := do
  let p ← m.next l.head
  if p ≠ l.head then .ok (some (← m.val p)) else .ok none

/-- `*p = x` through a mutable reference: drops the old value. -/
def assign (E : LEnv α σ) (p : Nat) (x : α) (m : LMem α) : Exec (LMem α) := do
  let y ← m.val p
  LMem.setVal (m.logDrop E.nd y) p x

/-- Assign through `front_mut()` if there is a front (src/list/mod.rs:113-120). -/
def setFront (E : LEnv α σ) (l : LList σ) (x : α) (m : LMem α) : Exec (Bool × LMem α) := do
  let p ← m.next l.head
  if p ≠ l.head then .ok (true, ← assign E p x m) else .ok (false, m)

/-- Assign through `back_mut()` if there is a back (src/list/mod.rs:64-71). -/
def setBack (E : LEnv α σ) (l : LList σ) (x : α) (m : LMem α) : Exec (Bool × LMem α) := do
  let p ← m.prev l.head
  if p ≠ l.head then .ok (true, ← assign E p x m) else .ok (false, m)

/-- The loop of `clear` (src/list/mod.rs:77-85).  The node is freed through a pointer to
`ListNodeBase` with count `size_of::<ListNode<T>>()`, so the layout passed to the allocator is
`size_of::<ListNode<T>>() * size_of::<ListNodeBase>()` bytes.  The first argument bounds the
number of iterations; running out is reported as a fault. -/
def clearLoop (E : LEnv α σ) : Nat → Nat → LList σ → LMem α → Exec (LList σ × LMem α)
  | 0, _, _, _ => .error .ub
  | fuel + 1, next, l, m =>
    if next = l.head then .ok (l, m)
    else do
      let toDrop := next
      let next ← m.next next
      let x ← m.val toDrop
      let m := m.logDrop E.nd x
      let (al, m) ← E.A.dealloc toDrop (E.size * baseSize) baseAlign l.al m
      clearLoop E fuel next { l with al := al } m

/-- `clear` (src/list/mod.rs:74-89); also `drop` (216-220). -/
def clear (E : LEnv α σ) (l : LList σ) (m : LMem α) : Exec (LList σ × LMem α) := do
  let next ← m.next l.head
  let (l, m) ← clearLoop E (l.size + 1) next l m
  let m ← l.initSentinel m
  .ok ({ l with size := 0 }, m)

/-- `create_node` (src/list/mod.rs:193-197).  A null pointer makes `unwrap` panic. -/
def createNode (E : LEnv α σ) (l : LList σ) (x : α) (m : LMem α) :
    Exec (Nat × LList σ × LMem α) := do
  let (p, al, m) ← E.A.alloc E.size E.align l.al m
  if p = 0 then .error .panic
  else
    let m ← LMem.setVal m p x
    .ok (p, { l with al := al }, m)

/-- `remove_node` (src/list/mod.rs:206-213), with the same layout as in `clearLoop`. -/
def removeNode (E : LEnv α σ) (l : LList σ) (p : Nat) (m : LMem α) :
    Exec (α × LList σ × LMem α) := do
  let m ← nodeRemove p m
  let x ← m.val p
  let (al, m) ← E.A.dealloc p (E.size * baseSize) baseAlign l.al m
  if l.size = 0 then .error .panic
  else .ok (x, { l with al := al, size := l.size - 1 }, m)

/-- `pop_back` (src/list/mod.rs:146-153). -/
def popBack (E : LEnv α σ) (l : LList σ) (m : LMem α) : Exec (Option α × LList σ × LMem α) := do
  let p ← m.prev l.head
  if p ≠ l.head then
    let (x, l, m) ← l.removeNode E p m
    .ok (some x, l, m)
  else .ok (none, l, m)

/-- `pop_front` (src/list/mod.rs:159-166). -/
def popFront (E : LEnv α σ) (l : LList σ) (m : LMem α) : Exec (Option α × LList σ × LMem α) := do
  let p ← m.next l.head
  if p ≠ l.head then
    let (x, l, m) ← l.removeNode E p m
    .ok (some x, l, m)
  else .ok (none, l, m)

/-- `push_back` (src/list/mod.rs:169-175). -/
def pushBack (E : LEnv α σ) (l : LList σ) (x : α) (m : LMem α) : Exec (LList σ × LMem α) := do
  let (p, l, m) ← l.createNode E x m
  let m ← nodeInsert p l.head m
  .ok ({ l with size := l.size + 1 }, m)

/-- `push_front` (src/list/mod.rs:178-185). -/
def pushFront (E : LEnv α σ) (l : LList σ) (x : α) (m : LMem α) : Exec (LList σ × LMem α) := do
  let (p, l, m) ← l.createNode E x m
  let m ← nodeInsert p (← m.next l.head) m
  .ok ({ l with size := l.size + 1 }, m)

/-- `extend` (src/list/mod.rs:238-250). -/
def extend (E : LEnv α σ) : List α → LList σ → LMem α → Exec (LList σ × LMem α)
  | [], l, m => .ok (l, m)
  | x :: xs, l, m => do
    let (l, m) ← l.pushBack E x m
    extend E xs l m

/-- `drop` (src/list/mod.rs:216-220). -/
def drop (E : LEnv α σ) (l : LList σ) (m : LMem α) : Exec (LMem α) := do
  let (_, m) ← l.clear E m
  .ok m

end LList

/-- `Iter` and `IterMut` (src/list/iter.rs:5-10, 44-49), identical up to mutability. -/
structure LIter where
  sentinel : Nat
  current : Nat
  len : Nat
  deriving DecidableEq

/-- `iter`, `iter_mut` (src/list/mod.rs:123-130, src/list/iter.rs:13-20, 51-58). -/
def LList.iter (l : LList σ) : LIter := ⟨l.head, l.head, l.size⟩

/-- `next` (src/list/iter.rs:26-35, 64-73): the address of the node whose value is referenced.
`len -= 1` panics on underflow. -/
def LIter.next (it : LIter) (m : LMem α) : Exec (Option Nat × LIter) := do
  let n ← m.next it.current
  if n = it.sentinel then .ok (none, it)
  else if it.len = 0 then .error .panic
  else .ok (some n, { it with current := n, len := it.len - 1 })

/-- `k` calls of `next`: the values seen through the returned references. -/
def LIter.run : Nat → LIter → LMem α → Exec (List (Option α) × LIter)
  | 0, it, _ => .ok ([], it)
  | k + 1, it, m => do
    let (p, it) ← it.next m
    let o ← (match p with
      | none => .ok none
      | some p => do .ok (some (← m.val p)))
    let (os, it) ← LIter.run k it m
    .ok (o :: os, it)

/-- `size_hint` (src/list/iter.rs:37-39, 75-77). -/
def LIter.sizeHint (it : LIter) : Nat × Option Nat := (it.len, some it.len)

/-- The addresses of the elements as `iter_mut` returns them, until `None`. -/
def LIter.addrs : Nat → LIter → LMem α → Exec (List Nat)
  | 0, _, _ => .error .ub
  | fuel + 1, it, m => do
    let (p, it) ← it.next m
    match p with
    | none => .ok []
    | some p => do .ok (p :: (← LIter.addrs fuel it m))

/-- The addresses of all elements, front to back. -/
def LList.addrs (l : LList σ) (m : LMem α) : Exec (List Nat) := l.iter.addrs (l.size + 1) m

/-- One public call; `len`, `size`, `is_empty`, `empty` (src/list/mod.rs:92-94, 133-140, 188-190)
read the count. -/
def LList.step (E : LEnv α σ) : ListOp α → LList σ → LMem α → Exec (Out α × LList σ × LMem α)
  | .pushBack x, l, m => do let (l, m) ← l.pushBack E x m; .ok (.unit, l, m)
  | .pushFront x, l, m => do let (l, m) ← l.pushFront E x m; .ok (.unit, l, m)
  | .popBack, l, m => do let (o, l, m) ← l.popBack E m; .ok (.elem o, l, m)
  | .popFront, l, m => do let (o, l, m) ← l.popFront E m; .ok (.elem o, l, m)
  | .front, l, m => do .ok (.elem (← l.front m), l, m)
  | .back, l, m => do .ok (.elem (← l.back m), l, m)
  | .setFront x, l, m => do let (b, m) ← l.setFront E x m; .ok (.bool b, l, m)
  | .setBack x, l, m => do let (b, m) ← l.setBack E x m; .ok (.bool b, l, m)
  | .len, l, m => .ok (.nat l.size, l, m)
  | .isEmpty, l, m => .ok (.bool (decide (l.size = 0)), l, m)
  | .clear, l, m => do let (l, m) ← l.clear E m; .ok (.unit, l, m)
  | .extend ys, l, m => do let (l, m) ← l.extend E ys m; .ok (.unit, l, m)

/-- A history of public calls. -/
def LList.run (E : LEnv α σ) :
    List (ListOp α) → LList σ → LMem α → Exec (List (Out α) × LList σ × LMem α)
  | [], l, m => .ok ([], l, m)
  | op :: ops, l, m => do
    let (o, l, m) ← l.step E op m
    let (os, l, m) ← LList.run E ops l m
    .ok (o :: os, l, m)

end Verif
