import Verif.Spec.Sequence

/-!
# What a double-ended sequence is

A specification over mathematical lists.  It does not mention the model of the deque.
-/

set_option autoImplicit false

namespace Verif.Spec

/-- Calls on a double-ended sequence.  `setFront`/`setBack` assign through the reference
returned by `front_mut`/`back_mut`, if there is one. -/
inductive DeqOp (α : Type) where
  | pushBack (x : α)
  | pushFront (x : α)
  | popBack
  | popFront
  | front
  | back
  | setFront (x : α)
  | setBack (x : α)
  | remove (i : Nat)
  | len
  | isEmpty

variable {α : Type}

/-- One call on a mathematical sequence. -/
def DeqOp.step : DeqOp α → List α → Out α × List α
  | .pushBack x, xs => (.unit, xs ++ [x])
  | .pushFront x, xs => (.unit, x :: xs)
  | .popBack, xs => (.elem xs.getLast?, xs.dropLast)
  | .popFront, xs => (.elem xs.head?, xs.tail)
  | .front, xs => (.elem xs.head?, xs)
  | .back, xs => (.elem xs.getLast?, xs)
  | .setFront x, xs => (.bool (decide (xs ≠ [])), if xs = [] then [] else x :: xs.tail)
  | .setBack x, xs => (.bool (decide (xs ≠ [])), if xs = [] then [] else xs.dropLast ++ [x])
  | .remove i, xs => (.elem xs[i]?, xs.take i ++ xs.drop (i + 1))
  | .len, xs => (.nat xs.length, xs)
  | .isEmpty, xs => (.bool (decide (xs = [])), xs)

/-- A history of calls. -/
def DeqOp.run : List (DeqOp α) → List α → List (Out α) × List α
  | [], xs => ([], xs)
  | op :: ops, xs =>
    let (o, xs) := op.step xs
    let (os, xs) := DeqOp.run ops xs
    (o :: os, xs)

/-- Whether a call is a push. -/
def DeqOp.isPush : DeqOp α → Bool
  | .pushBack _ | .pushFront _ => true
  | _ => false

/-- Values a call moves into the sequence. -/
def DeqOp.movedIn : DeqOp α → List α → List α
  | .pushBack x, _ | .pushFront x, _ => [x]
  | .setFront x, xs | .setBack x, xs => if xs = [] then [] else [x]
  | _, _ => []

/-- Values a call moves out to the caller. -/
def DeqOp.movedOut : DeqOp α → List α → List α
  | .popBack, xs => xs.getLast?.toList
  | .popFront, xs => xs.head?.toList
  | .remove i, xs => xs[i]?.toList
  | _, _ => []

/-- Values a call overwrites, which are therefore dropped. -/
def DeqOp.overwritten : DeqOp α → List α → List α
  | .setFront _, xs => xs.head?.toList
  | .setBack _, xs => xs.getLast?.toList
  | _, _ => []

/-- All values a history moves in, starting from `xs`. -/
def DeqOp.allIn : List (DeqOp α) → List α → List α
  | [], _ => []
  | op :: ops, xs => op.movedIn xs ++ DeqOp.allIn ops (op.step xs).2

/-- All values a history hands back to the caller. -/
def DeqOp.allOut : List (DeqOp α) → List α → List α
  | [], _ => []
  | op :: ops, xs => op.movedOut xs ++ DeqOp.allOut ops (op.step xs).2

/-- The largest length a sequence has in the course of a history. -/
def DeqOp.peak : List (DeqOp α) → List α → Nat
  | [], xs => xs.length
  | op :: ops, xs => max xs.length (DeqOp.peak ops (op.step xs).2)

/-- Those calls of a history that returned, given what the calls returned (`none`: a panic). -/
def DeqOp.returned : List (DeqOp α) → List (Option (Out α)) → List (DeqOp α)
  | op :: ops, some _ :: os => op :: DeqOp.returned ops os
  | _ :: ops, none :: os => DeqOp.returned ops os
  | _, _ => []

/-- The values given to pushes that panicked. -/
def DeqOp.refused : List (DeqOp α) → List (Option (Out α)) → List α
  | _ :: ops, some _ :: os => DeqOp.refused ops os
  | .pushBack x :: ops, none :: os | .pushFront x :: ops, none :: os => x :: DeqOp.refused ops os
  | _ :: ops, none :: os => DeqOp.refused ops os
  | _, _ => []

/-- Calls on a first-in first-out queue. -/
inductive QueueOp (α : Type) where
  | push (x : α)
  | pop
  | top
  | len
  | isEmpty

/-- One call on a queue, oldest value first. -/
def QueueOp.step : QueueOp α → List α → Out α × List α
  | .push x, xs => (.unit, xs ++ [x])
  | .pop, xs => (.elem xs.head?, xs.tail)
  | .top, xs => (.elem xs.head?, xs)
  | .len, xs => (.nat xs.length, xs)
  | .isEmpty, xs => (.bool (decide (xs = [])), xs)

def QueueOp.run : List (QueueOp α) → List α → List (Out α) × List α
  | [], xs => ([], xs)
  | op :: ops, xs =>
    let (o, xs) := op.step xs
    let (os, xs) := QueueOp.run ops xs
    (o :: os, xs)

end Verif.Spec
