import Verif.Mem

/-!
# What a growable sequence is

A specification over mathematical lists.  It does not mention the model of any container.
-/

set_option autoImplicit false

namespace Verif.Spec

/-- Calls on a growable sequence. -/
inductive SeqOp (α : Type) where
  | push (x : α)
  | pop
  | insert (i : Nat) (x : α)
  | remove (i : Nat)
  | set (i : Nat) (x : α)
  | reserve (n : Nat)
  | append (buf : List α)
  | assign (buf : List α)
  | clear
  | len
  | isEmpty
  | slice

/-- What a call returns. -/
inductive Out (α : Type) where
  | unit
  | elem (x : Option α)
  | nat (n : Nat)
  | bool (b : Bool)
  | list (xs : List α)

variable {α : Type}

/-- One call on a mathematical sequence.  `insert` and index assignment panic out of range. -/
def SeqOp.step : SeqOp α → List α → Except Fault (Out α × List α)
  | .push x, xs => .ok (.unit, xs ++ [x])
  | .pop, xs => .ok (.elem xs.getLast?, xs.dropLast)
  | .insert i x, xs =>
    if i ≤ xs.length then .ok (.unit, xs.take i ++ x :: xs.drop i) else .error .panic
  | .remove i, xs => .ok (.elem xs[i]?, xs.take i ++ xs.drop (i + 1))
  | .set i x, xs =>
    if i < xs.length then .ok (.unit, xs.take i ++ x :: xs.drop (i + 1)) else .error .panic
  | .reserve _, xs => .ok (.unit, xs)
  | .append buf, xs => .ok (.unit, xs ++ buf)
  | .assign buf, _ => .ok (.unit, buf)
  | .clear, _ => .ok (.unit, [])
  | .len, xs => .ok (.nat xs.length, xs)
  | .isEmpty, xs => .ok (.bool (decide (xs = [])), xs)
  | .slice, xs => .ok (.list xs, xs)

/-- A history of calls. -/
def SeqOp.run : List (SeqOp α) → List α → Except Fault (List (Out α) × List α)
  | [], xs => .ok ([], xs)
  | op :: ops, xs =>
    match op.step xs with
    | .error e => .error e
    | .ok (o, xs) =>
      match SeqOp.run ops xs with
      | .error e => .error e
      | .ok (os, xs) => .ok (o :: os, xs)

/-- Calls that copy a slice in. -/
def SeqOp.isSlice : SeqOp α → Bool
  | .append _ | .assign _ => true
  | _ => false

/-- Values moved into the container by a call. -/
def SeqOp.movedIn : SeqOp α → List α
  | .push x | .insert _ x | .set _ x => [x]
  | _ => []

/-- Values handed back to the caller. -/
def Out.movedOut : Out α → List α
  | .elem (some x) => [x]
  | _ => []

/-- Values put into the container by a call: moved, or cloned from a slice. -/
def SeqOp.putIn : SeqOp α → List α
  | .append buf | .assign buf => buf
  | op => op.movedIn

/-- Slice calls that overwrite exactly the contents `xs`: appending nothing, assigning as many
values as there are.  All other calls. -/
def SeqOp.exact : SeqOp α → List α → Bool
  | .append buf, _ => buf.isEmpty
  | .assign buf, xs => buf.length == xs.length
  | _, _ => true

/-- Every call of a history is exact, on the contents the earlier calls left. -/
def SeqOp.allExact : List (SeqOp α) → List α → Bool
  | [], _ => true
  | op :: ops, xs => op.exact xs &&
    match op.step xs with
    | .error _ => true
    | .ok (_, ys) => SeqOp.allExact ops ys

/-- The capacity a call leaves behind, given length and capacity before. -/
def SeqOp.capAfter (op : SeqOp α) (length cap : Nat) : Nat :=
  match op with
  | .push _ | .insert _ _ => if length < cap then cap else if cap = 0 then 1 else 2 * cap
  | .reserve n => cap + n
  | .append buf => max cap (length + buf.length)
  | .assign buf => max cap buf.length
  | .clear => 0
  | _ => cap

/-- Calls on a double-ended iterator. -/
inductive IterOp where
  | next
  | nextBack
  deriving DecidableEq, Repr

/-- Iterating from both ends of a sequence. -/
def IterOp.step : IterOp → List α → Option α × List α
  | .next, xs => (xs.head?, xs.tail)
  | .nextBack, xs => (xs.getLast?, xs.dropLast)

def IterOp.run : List IterOp → List α → List (Option α) × List α
  | [], xs => ([], xs)
  | op :: ops, xs =>
    let (o, xs) := op.step xs
    let (os, xs) := IterOp.run ops xs
    (o :: os, xs)

end Verif.Spec
