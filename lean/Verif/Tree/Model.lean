import Verif.Node.Mem
import Verif.MemLemmas
import Verif.LinkedList.Model
import Verif.Tree.Word
import Verif.Spec.Tree

/-!
# Model of `RBTree`, `Map` and `Set` (src/internal/rb_tree/mod.rs, node.rs, iter.rs,
src/map/mod.rs, src/set/mod.rs)

The fields `begin`, `end`, `parent` of the tree object have the layout of the first three fields
`right`, `left`, `parent` of a node (src/internal/rb_tree/mod.rs:14-27, node.rs:85-92), and the
iterator uses their address as the address of a node.  So the model keeps these three fields in
memory, as a node without entry at the address `anchor`.

Simplifications: the tree's `size` is a natural number; loops and recursions carry fuel, and
running out of it is reported as a fault; a pointer made into a reference must point to a node,
but Rust's aliasing rules are not modelled.
-/

set_option autoImplicit false

namespace Verif
open Spec

variable {K V σ : Type}

/-- `Node<K, V>` (src/internal/rb_tree/node.rs:85-92; `left` 143-145, `right` 178-180).  `pair` is `none` when there is no entry,
because it was not written or because this is the anchor. -/
structure TNode (K V : Type) where
  right : Nat
  left : Nat
  parent : PWord
  pair : Option (K × V)

/-- An uninitialised node. -/
def TNode.uninit : TNode K V := ⟨0, 0, 0, none⟩

/-- Memory holding tree nodes.  Keys and values have destructors. -/
abbrev TMem (K V : Type) := NMem (TNode K V) (K ⊕ V)

/-- What `RBTree<K, V, A, C>` depends on: `C::compare`, the layout of a node, and the
allocator. -/
structure TEnv (K V σ : Type) where
  lt : K → K → Bool
  size : Nat
  align : Nat
  A : NAlloc (TNode K V) (K ⊕ V) σ

/-- The address in a `ParentColor` (src/internal/rb_tree/node.rs:46-48, 161-163). -/
def PWord.addr (w : PWord) : Nat := w.ptr.toNat

/-- `RBTree` (src/internal/rb_tree/mod.rs:14-27): where `begin`, `end`, `parent` are, and the
other fields. -/
structure RBTree (σ : Type) where
  anchor : Nat
  size : Nat
  al : σ

/-! ## Nodes -/

/-- The loop looking for the left-most node (src/internal/rb_tree/node.rs:208-210). -/
def leftmost : Nat → TMem K V → Nat → Exec Nat
  | 0, _, _ => .error .ub
  | fuel + 1, m, p => do
    let n ← m.get p
    if n.left ≠ 0 then leftmost fuel m n.left else .ok p

/-- The loop climbing while `self` is a right child (src/internal/rb_tree/node.rs:218-223).
Returns `self` and `parent`. -/
def climb : Nat → TMem K V → Nat → Nat → Exec (Nat × Nat)
  | 0, _, _, _ => .error .ub
  | fuel + 1, m, self, parent => do
    let n ← m.get parent
    if self = n.right then do
      let _ ← m.get n.parent.addr
      climb fuel m parent n.parent.addr
    else .ok (self, parent)

/-- `next` and `next_mut` (src/internal/rb_tree/node.rs:204-233). -/
def nodeNext (fuel : Nat) (m : TMem K V) (self : Nat) : Exec Nat := do
  let n ← m.get self
  if n.right ≠ 0 then leftmost fuel m n.right
  else do
    let _ ← m.get n.parent.addr
    let (self, parent) ← climb fuel m self n.parent.addr
    let n ← m.get self
    if n.right ≠ parent then .ok parent else .ok self

/-- `_set_parent` (src/internal/rb_tree/node.rs:171-175): returns the old parent. -/
def nodeSetParent (self : Nat) (parent : BitVec 64) (m : TMem K V) : Exec (Nat × TMem K V) := do
  let n ← m.get self
  let m ← m.modify self fun n => { n with parent := n.parent.setPtr parent }
  .ok (n.parent.addr, m)

/-- `_set_left` (src/internal/rb_tree/node.rs:153-158): returns the old left child. -/
def nodeSetLeft (self : BitVec 64) (left : Nat) (m : TMem K V) : Exec (Nat × TMem K V) := do
  let n ← m.get self.toNat
  let m ← m.modify self.toNat fun n => { n with left := left }
  if left ≠ 0 then do
    let (_, m) ← nodeSetParent left self m
    .ok (n.left, m)
  else .ok (n.left, m)

/-- `_set_right` (src/internal/rb_tree/node.rs:188-193): returns the old right child. -/
def nodeSetRight (self : BitVec 64) (right : Nat) (m : TMem K V) : Exec (Nat × TMem K V) := do
  let n ← m.get self.toNat
  let m ← m.modify self.toNat fun n => { n with right := right }
  if right ≠ 0 then do
    let (_, m) ← nodeSetParent right self m
    .ok (n.right, m)
  else .ok (n.right, m)

/-- `key`/`val` (src/internal/rb_tree/node.rs:236-248): the entry, which must be there. -/
def nodePair (m : TMem K V) (p : Nat) : Exec (K × V) := do initd (← m.get p).pair

/-! ## The tree -/

namespace RBTree

/-- `new` (src/internal/rb_tree/mod.rs:31-49, `Default` included), `with_allocator` (63-72), `with_compare` (81-90),
`with_allocator_and_compare` (102-111): into the storage whose `begin` field is at `s`. -/
def newIn (a : σ) (s : Nat) (m : TMem K V) : Exec (RBTree σ × TMem K V) := do
  let m ← m.modify s fun n => { n with right := 0, left := 0, parent := 0 }
  .ok (⟨s, 0, a⟩, m)

/-- `self.parent` (src/internal/rb_tree/mod.rs:24, 274-276): a plain pointer. -/
def root (t : RBTree σ) (m : TMem K V) : Exec Nat := do .ok (← m.get t.anchor).parent.toNat

/-- `self.begin` (src/internal/rb_tree/mod.rs:22, 279-286). -/
def first (t : RBTree σ) (m : TMem K V) : Exec Nat := do .ok (← m.get t.anchor).right

/-- The loop of `find_in_tree` (src/internal/rb_tree/mod.rs:215-224). -/
def findLoop (E : TEnv K V σ) (k : K) : Nat → TMem K V → Nat → Exec (Option Nat)
  | 0, _, _ => .error .ub
  | fuel + 1, m, cur =>
    if cur = 0 then .ok none
    else do
      let n ← m.get cur
      let e ← initd n.pair
      if E.lt k e.1 then findLoop E k fuel m n.left
      else if !E.lt e.1 k then .ok (some cur)
      else findLoop E k fuel m n.right

/-- `find_in_tree` (src/internal/rb_tree/mod.rs:213-226). -/
def find (E : TEnv K V σ) (fuel : Nat) (t : RBTree σ) (k : K) (m : TMem K V) :
    Exec (Option Nat) := do
  findLoop E k fuel m (← t.root m)

/-- `get` (src/internal/rb_tree/mod.rs:133-135). -/
def get (E : TEnv K V σ) (fuel : Nat) (t : RBTree σ) (k : K) (m : TMem K V) :
    Exec (Option V) := do
  match ← t.find E fuel k m with
  | none => .ok none
  | some p => .ok (some (← nodePair m p).2)

/-- `contains_key` (src/internal/rb_tree/mod.rs:124-126). -/
def containsKey (E : TEnv K V σ) (fuel : Nat) (t : RBTree σ) (k : K) (m : TMem K V) :
    Exec Bool := do .ok (← t.get E fuel k m).isSome

/-- `get_mut` (src/internal/rb_tree/mod.rs:142-144), then changing the value in place. -/
def modify (E : TEnv K V σ) (fuel : Nat) (t : RBTree σ) (k : K) (f : V → V) (m : TMem K V) :
    Exec (Bool × TMem K V) := do
  match ← t.find E fuel k m with
  | none => .ok (false, m)
  | some p => do
    let e ← nodePair m p
    .ok (true, ← m.modify p fun n => { n with pair := some (e.1, f e.2) })

/-- `len` (src/internal/rb_tree/mod.rs:182-184). -/
def len (t : RBTree σ) : Nat := t.size

/-- `is_empty` (src/internal/rb_tree/mod.rs:159-161). -/
def isEmpty (t : RBTree σ) : Bool := t.len == 0

/-- The loop of `_find_insertion_position` (src/internal/rb_tree/mod.rs:237-245). -/
def positionLoop (E : TEnv K V σ) (k : K) : Nat → TMem K V → Nat → Nat → Exec Nat
  | 0, _, _, _ => .error .ub
  | fuel + 1, m, cur, prev =>
    if cur = 0 then .ok prev
    else do
      let n ← m.get cur
      let e ← initd n.pair
      if E.lt k e.1 then positionLoop E k fuel m n.left cur
      else positionLoop E k fuel m n.right cur

/-- `_find_insertion_position` (src/internal/rb_tree/mod.rs:233-248); 0 is `None`. -/
def position (E : TEnv K V σ) (fuel : Nat) (t : RBTree σ) (k : K) (m : TMem K V) : Exec Nat := do
  positionLoop E k fuel m (← t.root m) 0

/-- `_insert` (src/internal/rb_tree/mod.rs:153-156): always panics. -/
def insert (E : TEnv K V σ) (fuel : Nat) (t : RBTree σ) (k : K) (_ : V) (m : TMem K V) :
    Exec (Option V) := do
  let _ ← t.position E fuel k m
  .error .panic

/-- `remove_entry` (src/internal/rb_tree/mod.rs:202-204), and `_remove` (192-194) by it: always
panics. -/
def removeEntry (_ : RBTree σ) (_ : K) (_ : TMem K V) : Exec (Option (K × V)) := .error .panic

/-- `free_tree` (src/internal/rb_tree/mod.rs:255-264). -/
def freeTree (E : TEnv K V σ) : Nat → Nat → σ → TMem K V → Exec (σ × TMem K V)
  | 0, _, _, _ => .error .ub
  | fuel + 1, root, a, m => do
    let n ← m.get root
    let (a, m) ← (if n.left ≠ 0 then freeTree E fuel n.left a m else .ok (a, m))
    let n ← m.get root
    let (a, m) ← (if n.right ≠ 0 then freeTree E fuel n.right a m else .ok (a, m))
    E.A.dealloc root E.size E.align a m

/-- `free_nodes` (src/internal/rb_tree/mod.rs:267-271). -/
def freeNodes (E : TEnv K V σ) (fuel : Nat) (t : RBTree σ) (m : TMem K V) :
    Exec (RBTree σ × TMem K V) := do
  let r ← t.root m
  if r ≠ 0 then do
    let (a, m) ← freeTree E fuel r t.al m
    .ok ({ t with al := a }, m)
  else .ok (t, m)

/-- `clear` (src/internal/rb_tree/mod.rs:114-116). -/
def clear (E : TEnv K V σ) (fuel : Nat) (t : RBTree σ) (m : TMem K V) :
    Exec (RBTree σ × TMem K V) := t.freeNodes E fuel m

/-- `Drop` (src/internal/rb_tree/mod.rs:52-54).  The comparator and the allocator have nothing
to drop. -/
def drop (E : TEnv K V σ) (fuel : Nat) (t : RBTree σ) (m : TMem K V) : Exec (σ × TMem K V) := do
  let (t, m) ← t.freeNodes E fuel m
  .ok (t.al, m)

/-! ## Iterators -/

/-- `Iter` and `IterMut` (src/internal/rb_tree/iter.rs:6-16). -/
structure Iter where
  node : Nat
  anchor : Nat

/-- `iter` and `iter_mut` (src/internal/rb_tree/mod.rs:167-179). -/
def iter (t : RBTree σ) (m : TMem K V) : Exec Iter := do .ok ⟨← t.first m, t.anchor⟩

/-- `Iter::next` (src/internal/rb_tree/iter.rs:21-31), `IterMut::next` (37-47). -/
def Iter.next (fuel : Nat) (it : Iter) (m : TMem K V) : Exec (Option (Nat × K × V) × Iter) := do
  if it.node = it.anchor then .ok (none, it)
  else if it.node = 0 then .ok (none, it)
  else do
    let nx ← nodeNext fuel m it.node
    let e ← nodePair m it.node
    .ok (some (it.node, e), { it with node := nx })

/-- Everything an iterator yields until it returns `None` (`Iterator::collect`). -/
def Iter.drain (nf : Nat) : Nat → Iter → TMem K V → Exec (List (K × V))
  | 0, _, _ => .error .ub
  | fuel + 1, it, m => do
    match ← it.next nf m with
    | (none, _) => .ok []
    | (some (_, e), it) => .ok (e :: (← it.drain nf fuel m))

/-- Everything a mutable iterator yields, the consumer replacing each value by `f` of key and
value before asking for the next (`Iterator::for_each`). -/
def Iter.drainMut (f : K → V → V) (nf : Nat) : Nat → Iter → TMem K V →
    Exec (List (K × V) × TMem K V)
  | 0, _, _ => .error .ub
  | fuel + 1, it, m => do
    match ← it.next nf m with
    | (none, _) => .ok ([], m)
    | (some (p, e), it) => do
      let m ← m.modify p fun n => { n with pair := some (e.1, f e.1 e.2) }
      let (es, m) ← it.drainMut f nf fuel m
      .ok (e :: es, m)

/-- `iter().collect()` (src/internal/rb_tree/mod.rs:173, src/map/mod.rs:120-122). -/
def toList (fuel : Nat) (t : RBTree σ) (m : TMem K V) : Exec (List (K × V)) := do
  (← t.iter m).drain fuel fuel m

/-- `iter_mut().for_each(..)` (src/internal/rb_tree/mod.rs:173, src/map/mod.rs:120-122). -/
def forEachMut (f : K → V → V) (fuel : Nat) (t : RBTree σ) (m : TMem K V) :
    Exec (List (K × V) × TMem K V) := do
  (← t.iter m).drainMut f fuel fuel m

/-- `Set::iter().collect()` (src/set/mod.rs:84-86). -/
def keyList {K : Type} (fuel : Nat) (t : RBTree σ) (m : TMem K Unit) : Exec (List K) := do
  .ok ((← t.toList fuel m).map Prod.fst)

/-- Moving the tree object, as Rust does when a value is assigned or returned: the fields are
copied to the new place and the old place is no longer used. -/
def moveTo (t : RBTree σ) (s : Nat) (m : TMem K V) : Exec (RBTree σ × TMem K V) := do
  let n ← m.get t.anchor
  .ok ({ t with anchor := s }, (m.setNode s (some n)).setNode t.anchor none)

/-- One call of the interface of `Map` (src/map/mod.rs:26-149; every method forwards to the one
of the same name of `RBTree`) or `Set` (src/set/mod.rs:22-104). -/
def step (E : TEnv K V σ) (fuel : Nat) (t : RBTree σ) : TreeOp K V → TMem K V →
    Exec (TreeOut K V × TMem K V)
  | .get k, m => do .ok (.val (← t.get E fuel k m), m)
  | .contains k, m => do .ok (.bool (← t.containsKey E fuel k m), m)
  | .modify k f, m => do
    let (b, m) ← t.modify E fuel k f m
    .ok (.bool b, m)
  | .len, m => .ok (.nat t.len, m)
  | .isEmpty, m => .ok (.bool t.isEmpty, m)
  | .iter, m => do .ok (.pairs (← t.toList fuel m), m)
  | .iterMut f, m => do
    let (es, m) ← t.forEachMut f fuel m
    .ok (.pairs es, m)

/-- A history of calls. -/
def run (E : TEnv K V σ) (fuel : Nat) (t : RBTree σ) : List (TreeOp K V) → TMem K V →
    Exec (List (TreeOut K V) × TMem K V)
  | [], m => .ok ([], m)
  | op :: ops, m => do
    let (o, m) ← t.step E fuel op m
    let (os, m) ← t.run E fuel ops m
    .ok (o :: os, m)

end RBTree

end Verif
