import Verif.Mem
import Verif.Spec.Sequence

/-!
# Who may use a piece of memory

Rust's references are exclusive or shared, and a pointer derived from a reference may only be used
where, and as long as, the reference it came from may.  The rules here are those of Stacked Borrows
(Jung, Dang, Kang, Dreyer, POPL 2020), which Miri checks, without protectors and interior
mutability.  They mention no container.
-/

set_option autoImplicit false

namespace Verif.Spec

/-- What a pointer may do with a cell. -/
inductive Grant where
  | unique
  | sharedRW
  | sharedRO
  | disabled
  deriving DecidableEq, Repr

/-- A pointer, known by its tag, that was given a permission for a cell. -/
structure Item where
  grant : Grant
  tag : Nat
  deriving DecidableEq, Repr

inductive Access where
  | read
  | write
  deriving DecidableEq, Repr

/-- Whether this item allows pointers with the tag that access. -/
def Item.allows (i : Item) (t : Nat) : Access → Bool
  | .read => i.tag == t && i.grant != .disabled
  | .write => i.tag == t && (i.grant == .unique || i.grant == .sharedRW)

/-- The items above the topmost one that allows the access, and the others.  The top comes first. -/
def splitAt (t : Nat) (a : Access) : List Item → Option (List Item × List Item)
  | [] => none
  | i :: s =>
    if i.allows t a then some ([], i :: s)
    else (splitAt t a s).map fun p => (i :: p.1, p.2)

/-- A read ends the exclusive claims of everything above. -/
def Item.afterRead (i : Item) : Item :=
  if i.grant = .unique then { i with grant := .disabled } else i

/-- The items directly above one that shares writing, which share it with it. -/
def sharing (above : List Item) (rest : List Item) : List Item :=
  match rest with
  | i :: _ => if i.grant = .sharedRW then
      (above.reverse.takeWhile fun j => j.grant == .sharedRW).reverse else []
  | [] => []

/-- An access to a cell: undefined behaviour unless some item allows it. -/
def touch (t : Nat) (a : Access) (s : List Item) : Option (List Item) :=
  match splitAt t a s with
  | none => none
  | some (above, rest) =>
    match a with
    | .read => some (above.map Item.afterRead ++ rest)
    | .write => some (sharing above rest ++ rest)

/-- What is made of a pointer: a mutable reference, a shared reference, or a raw pointer from a
mutable reference.  (A raw pointer from a shared reference is like a shared reference.) -/
inductive Reborrow where
  | mutable
  | shared
  | raw
  deriving DecidableEq, Repr

/-- A pointer with the new tag is made of one with the old tag, for a cell. -/
def derive (k : Reborrow) (old new : Nat) (s : List Item) : Option (List Item) :=
  match k with
  | .mutable => (touch old .write s).map fun s => ⟨.unique, new⟩ :: s
  | .shared => (touch old .read s).map fun s => ⟨.sharedRO, new⟩ :: s
  | .raw => (splitAt old .write s).map fun p =>
      p.1.take (p.1.length - (sharing p.1 p.2).length) ++
        ⟨.sharedRW, new⟩ :: (sharing p.1 p.2 ++ p.2)

/-- The items of every cell of every block, and the next unused tag.  A cell that is not part of a
live block has no items. -/
structure Borrows where
  items : Nat → Nat → List Item
  next : Nat

/-- Tags that are in use are not handed out again. -/
def Fresh (S : Borrows) : Prop := ∀ b o, ∀ i ∈ S.items b o, i.tag < S.next

namespace Borrows

/-- Nothing was allocated yet. -/
def start : Borrows := ⟨fun _ _ => [], 0⟩

/-- Change the items of a cell, if that is allowed. -/
def at' (f : List Item → Option (List Item)) (p : Ptr) (S : Borrows) : Exec Borrows :=
  match p with
  | .null => .error .ub
  | .loc b o =>
    match f (S.items b o) with
    | none => .error .ub
    | some s => .ok { S with items := Function.update S.items b (Function.update (S.items b) o s) }

/-- Change the items of a number of consecutive cells. -/
def each (f : List Item → Option (List Item)) : Ptr → Nat → Borrows → Exec Borrows
  | _, 0, S => .ok S
  | p, n + 1, S => do
    let S ← S.at' f p
    each f p.next n S

/-- A pointer with tag `t` reads or writes `n` cells. -/
def access (S : Borrows) (t : Nat) (a : Access) (p : Ptr) (n : Nat) : Exec Borrows :=
  S.each (touch t a) p n

/-- A pointer to `n` cells is made of one with tag `t`. -/
def reborrow (S : Borrows) (k : Reborrow) (t : Nat) (p : Ptr) (n : Nat) : Exec (Nat × Borrows) := do
  let S' ← S.each (derive k t S.next) p n
  .ok (S.next, { S' with next := S'.next + 1 })

/-- A block is allocated: the pointer that is returned may do everything with its cells. -/
def allocate (S : Borrows) (p : Ptr) (n : Nat) : Nat × Borrows :=
  match p with
  | .null => (S.next, { S with next := S.next + 1 })
  | .loc b _ => (S.next,
      { items := Function.update S.items b fun o => if o < n then [⟨.unique, S.next⟩] else []
        next := S.next + 1 })

/-- A block is freed through a pointer that must be allowed to write it. -/
def free (S : Borrows) (t : Nat) (p : Ptr) (n : Nat) : Exec Borrows := do
  let S ← S.access t .write p n
  match p with
  | .null => .ok S
  | .loc b _ => .ok { S with items := Function.update S.items b fun _ => [] }

end Borrows

/-- Rules about the use of memory: what an access, the making of a reference or pointer, an allocation
and a deallocation do to permissions of a type `P`, and when they are undefined behaviour. -/
structure Rules (P : Type) where
  access : P → Nat → Access → Ptr → Nat → Exec P
  reborrow : P → Reborrow → Nat → Ptr → Nat → Exec (Nat × P)
  allocate : P → Ptr → Nat → Nat × P
  free : P → Nat → Ptr → Nat → Exec P

/-- The rules of this file. -/
def stackedBorrows : Rules Borrows :=
  ⟨Borrows.access, Borrows.reborrow, Borrows.allocate, Borrows.free⟩

/-- The number of elements of the slice that a call on a growable sequence has to look at as a
whole. -/
def SeqOp.viewed {α : Type} : SeqOp α → List α → Nat
  | .set _ _, xs | .clear, xs | .slice, xs => xs.length
  | .append buf, xs => xs.length + buf.length
  | .assign buf, _ => buf.length
  | _, _ => 0

/-- A history of calls in which looking at `n` elements as a slice is undefined behaviour unless
`fine n`. -/
def SeqOp.runViews {α : Type} (fine : Nat → Bool) :
    List (SeqOp α) → List α → Except Fault (List (Out α) × List α)
  | [], xs => .ok ([], xs)
  | op :: ops, xs =>
    if fine (op.viewed xs) = false then .error .ub
    else
      match op.step xs with
      | .error e => .error e
      | .ok (o, xs) =>
        match SeqOp.runViews fine ops xs with
        | .error e => .error e
        | .ok (os, xs) => .ok (o :: os, xs)

/-- A history of calls in which looking at more than one element as a slice is undefined
behaviour. -/
def SeqOp.runNarrow {α : Type} (ops : List (SeqOp α)) (xs : List α) :
    Except Fault (List (Out α) × List α) :=
  SeqOp.runViews (fun n => n ≤ 1) ops xs

/-- How many elements these calls take from the front. -/
def IterOp.taken {α : Type} : List IterOp → List α → Nat
  | [], _ => 0
  | .next :: ops, xs => (if xs = [] then 0 else 1) + IterOp.taken ops xs.tail
  | .nextBack :: ops, xs => IterOp.taken ops xs.dropLast

end Verif.Spec
