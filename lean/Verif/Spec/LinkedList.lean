import Verif.Spec.Sequence

/-!
# What a linked list does, on mathematical lists

This file does not mention the model of the list.
-/

set_option autoImplicit false

namespace Verif.Spec

/-- Calls on a list.  `setFront`/`setBack` assign through the reference returned by
`front_mut`/`back_mut`, if there is one. -/
inductive ListOp (α : Type) where
  | pushBack (x : α)
  | pushFront (x : α)
  | popBack
  | popFront
  | front
  | back
  | setFront (x : α)
  | setBack (x : α)
  | len
  | isEmpty
  | clear
  | extend (ys : List α)

variable {α : Type}

/-- One call on a mathematical sequence. -/
def ListOp.step : ListOp α → List α → Out α × List α
  | .pushBack x, xs => (.unit, xs ++ [x])
  | .pushFront x, xs => (.unit, x :: xs)
  | .popBack, xs => (.elem xs.getLast?, xs.dropLast)
  | .popFront, xs => (.elem xs.head?, xs.tail)
  | .front, xs => (.elem xs.head?, xs)
  | .back, xs => (.elem xs.getLast?, xs)
  | .setFront x, xs => (.bool (decide (xs ≠ [])), if xs = [] then [] else x :: xs.tail)
  | .setBack x, xs => (.bool (decide (xs ≠ [])), if xs = [] then [] else xs.dropLast ++ [x])
  | .len, xs => (.nat xs.length, xs)
  | .isEmpty, xs => (.bool (decide (xs = [])), xs)
  | .clear, _ => (.unit, [])
  | .extend ys, xs => (.unit, xs ++ ys)

/-- A history of calls. -/
def ListOp.run : List (ListOp α) → List α → List (Out α) × List α
  | [], xs => ([], xs)
  | op :: ops, xs =>
    let (o, xs) := op.step xs
    let (os, xs) := ListOp.run ops xs
    (o :: os, xs)

/-- What a call returns if elements are counted modulo 2^32. -/
def ListOp.outU32 : ListOp α → List α → Out α
  | .len, xs => .nat (xs.length % 2 ^ 32)
  | .isEmpty, xs => .bool (decide (xs.length % 2 ^ 32 = 0))
  | op, xs => (op.step xs).1

/-- What a history returns if elements are counted modulo 2^32. -/
def ListOp.outsU32 : List (ListOp α) → List α → List (Out α)
  | [], _ => []
  | op :: ops, xs => op.outU32 xs :: ListOp.outsU32 ops (op.step xs).2

/-- The largest number of elements during a history. -/
def ListOp.peak : List (ListOp α) → List α → Nat
  | [], xs => xs.length
  | op :: ops, xs => max xs.length (ListOp.peak ops (op.step xs).2)

/-- Values a call moves into the list. -/
def ListOp.movedIn : ListOp α → List α → List α
  | .pushBack x, _ | .pushFront x, _ => [x]
  | .setFront x, xs | .setBack x, xs => if xs = [] then [] else [x]
  | .extend ys, _ => ys
  | _, _ => []

/-- Values a call moves out to the caller. -/
def ListOp.movedOut : ListOp α → List α → List α
  | .popBack, xs => xs.getLast?.toList
  | .popFront, xs => xs.head?.toList
  | _, _ => []

/-- Values a call overwrites or discards, which are therefore dropped, in order. -/
def ListOp.discarded : ListOp α → List α → List α
  | .setFront _, xs => xs.head?.toList
  | .setBack _, xs => xs.getLast?.toList
  | .clear, xs => xs
  | _, _ => []

/-- All values a history moves in, starting from `xs`. -/
def ListOp.allIn : List (ListOp α) → List α → List α
  | [], _ => []
  | op :: ops, xs => op.movedIn xs ++ ListOp.allIn ops (op.step xs).2

/-- All values a history hands back to the caller. -/
def ListOp.allOut : List (ListOp α) → List α → List α
  | [], _ => []
  | op :: ops, xs => op.movedOut xs ++ ListOp.allOut ops (op.step xs).2

/-- All values a history discards, in order. -/
def ListOp.allDropped : List (ListOp α) → List α → List α
  | [], _ => []
  | op :: ops, xs => op.discarded xs ++ ListOp.allDropped ops (op.step xs).2

/-- Addresses `ps` of the elements before a call, `ps'` after it, if no element moves: what was
pushed is at the corresponding end, what was popped is gone, everything else is in place. -/
def ListOp.inPlace : ListOp α → List Nat → List Nat → Prop
  | .pushBack _, ps, ps' => ∃ p, ps' = ps ++ [p]
  | .pushFront _, ps, ps' => ∃ p, ps' = p :: ps
  | .popBack, ps, ps' => ps' = ps.dropLast
  | .popFront, ps, ps' => ps' = ps.tail
  | .clear, _, ps' => ps' = []
  | .extend ys, ps, ps' => ∃ qs, qs.length = ys.length ∧ ps' = ps ++ qs
  | _, ps, ps' => ps' = ps

end Verif.Spec
