import Verif.Spec.Sequence

/-!
# What may be done to a sequence through a mutable slice of its elements

Rust's slice methods that rearrange elements in place (`swap`, `reverse`, `rotate_left`, `sort`, …)
exchange elements; `std::mem::replace` puts a value in and hands the old one out.
-/

set_option autoImplicit false

namespace Verif.Spec

variable {α : Type}

/-- Calls on a growable sequence, and what is done between them to the slice it lends out. -/
inductive EditOp (α : Type) where
  | call (op : SeqOp α)
  /-- `slice.swap(i, j)` -/
  | swap (i j : Nat)
  /-- `mem::replace(&mut slice[i], x)` -/
  | replace (i : Nat) (x : α)

/-- The elements at `i` and `j` exchanged; a panic if one of them does not exist. -/
def exchange (i j : Nat) (xs : List α) : Except Fault (List α) :=
  match xs[i]?, xs[j]? with
  | some a, some b => .ok ((xs.set i b).set j a)
  | _, _ => .error .panic

def EditOp.step : EditOp α → List α → Except Fault (Out α × List α)
  | .call op, xs => op.step xs
  | .swap i j, xs => (exchange i j xs).map fun ys => (.unit, ys)
  | .replace i x, xs =>
    match xs[i]? with
    | some a => .ok (.elem (some a), xs.set i x)
    | none => .error .panic

def EditOp.run : List (EditOp α) → List α → Except Fault (List (Out α) × List α)
  | [], xs => .ok ([], xs)
  | op :: ops, xs =>
    match op.step xs with
    | .error e => .error e
    | .ok (o, xs) =>
      match EditOp.run ops xs with
      | .error e => .error e
      | .ok (os, xs) => .ok (o :: os, xs)

/-- Calls that copy a slice in. -/
def EditOp.isSlice : EditOp α → Bool
  | .call op => op.isSlice
  | _ => false

/-- Values moved into the sequence. -/
def EditOp.movedIn : EditOp α → List α
  | .call op => op.movedIn
  | .swap _ _ => []
  | .replace _ x => [x]

/-- A number of exchanges, one after the other. -/
def exchanges : List (Nat × Nat) → List α → Except Fault (List α)
  | [], xs => .ok xs
  | (i, j) :: sw, xs =>
    match exchange i j xs with
    | .error e => .error e
    | .ok ys => exchanges sw ys

/-- Calls on an owning iterator, and exchanges in the slice of what is left. -/
inductive SlicedIterOp where
  | take (op : IterOp)
  | swap (i j : Nat)

def SlicedIterOp.run : List SlicedIterOp → List α → Except Fault (List (Option α) × List α)
  | [], xs => .ok ([], xs)
  | .take op :: ops, xs =>
    match SlicedIterOp.run ops (op.step xs).2 with
    | .error e => .error e
    | .ok (os, ys) => .ok ((op.step xs).1 :: os, ys)
  | .swap i j :: ops, xs =>
    match exchange i j xs with
    | .error e => .error e
    | .ok ys => SlicedIterOp.run ops ys

end Verif.Spec
