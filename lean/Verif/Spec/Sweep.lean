import Verif.Spec.Deque
import Verif.Spec.LinkedList
import Verif.Spec.FiniteMap

/-! Histories in which, between calls, a program iterates over a container by `iter_mut` and assigns
to what it is given: the specification on mathematical sequences and finite maps. -/

set_option autoImplicit false

namespace Verif.Spec

variable {α K V : Type}

/-- A sequence after iterating over it from both ends, as far as `ws` tells, and assigning `y` to the
element each `(_, y)` of `ws` yields. -/
def IterOp.written : List (IterOp × α) → List α → List α
  | [], xs => xs
  | (.next, y) :: ws, xs => if xs = [] then [] else y :: IterOp.written ws xs.tail
  | (.nextBack, y) :: ws, xs => if xs = [] then [] else IterOp.written ws xs.dropLast ++ [y]

/-- One item of a history of a double-ended sequence: a call, or a loop over `iter_mut`. -/
inductive DeqItem (α : Type) where
  | call (op : DeqOp α)
  | sweep (ws : List (IterOp × α))

/-- What one item of a history yields: the result of the call, or the elements seen. -/
inductive Seen (α : Type) where
  | out (o : Out α)
  | saw (os : List (Option α))

/-- What one item yields, and the sequence afterwards. -/
def DeqItem.step : DeqItem α → List α → Seen α × List α
  | .call op, xs => (.out (op.step xs).1, (op.step xs).2)
  | .sweep ws, xs => (.saw (IterOp.run (ws.map Prod.fst) xs).1, IterOp.written ws xs)

/-- The values one item overwrites, which are therefore dropped, in this order. -/
def DeqItem.overwritten : DeqItem α → List α → List α
  | .call op, xs => op.overwritten xs
  | .sweep ws, xs => (IterOp.run (ws.map Prod.fst) xs).1.filterMap id

/-- A history. -/
def DeqItem.run : List (DeqItem α) → List α → List (Seen α) × List α
  | [], xs => ([], xs)
  | i :: is, xs => ((i.step xs).1 :: (DeqItem.run is (i.step xs).2).1, (DeqItem.run is (i.step xs).2).2)

/-- All values a history overwrites. -/
def DeqItem.allOverwritten : List (DeqItem α) → List α → List α
  | [], _ => []
  | i :: is, xs => i.overwritten xs ++ DeqItem.allOverwritten is (i.step xs).2

/-- One item of a history of a list, which is iterated over from the front only: the values `ys` are
assigned to the first elements. -/
inductive ListItem (α : Type) where
  | call (op : ListOp α)
  | sweep (ys : List α)

/-- What one item yields, and the sequence afterwards. -/
def ListItem.step : ListItem α → List α → Seen α × List α
  | .call op, xs => (.out (op.step xs).1, (op.step xs).2)
  | .sweep ys, xs =>
    (.saw ((List.range ys.length).map fun j => xs[j]?), ys.take xs.length ++ xs.drop ys.length)

/-- The values one item discards, which are therefore dropped, in this order. -/
def ListItem.discarded : ListItem α → List α → List α
  | .call op, xs => op.discarded xs
  | .sweep ys, xs => xs.take ys.length

/-- A history. -/
def ListItem.run : List (ListItem α) → List α → List (Seen α) × List α
  | [], xs => ([], xs)
  | i :: is, xs =>
    ((i.step xs).1 :: (ListItem.run is (i.step xs).2).1, (ListItem.run is (i.step xs).2).2)

/-- All values a history discards. -/
def ListItem.allDiscarded : List (ListItem α) → List α → List α
  | [], _ => []
  | i :: is, xs => i.discarded xs ++ ListItem.allDiscarded is (i.step xs).2

/-- One item of a history of a map: a call, or a loop that replaces every value. -/
inductive MapItem (K V : Type) where
  | call (op : MapOp K V)
  | sweep (f : K → V → V)

/-- What a call returns (nothing for a loop), and the map afterwards. -/
def MapItem.step (eq : K → K → Bool) : MapItem K V → List (K × V) →
    Option (MapOut K V) × List (K × V)
  | .call op, s => (some (op.step eq s).1, (op.step eq s).2)
  | .sweep f, s => (none, s.map fun p => (p.1, f p.1 p.2))

/-- A history. -/
def MapItem.run (eq : K → K → Bool) : List (MapItem K V) → List (K × V) →
    List (Option (MapOut K V)) × List (K × V)
  | [], s => ([], s)
  | i :: is, s =>
    ((i.step eq s).1 :: (MapItem.run eq is (i.step eq s).2).1, (MapItem.run eq is (i.step eq s).2).2)

/-- The largest number of entries in the course of a history. -/
def MapItem.peak (eq : K → K → Bool) : List (MapItem K V) → List (K × V) → Nat
  | [], s => s.length
  | i :: is, s => max s.length (MapItem.peak eq is (i.step eq s).2)

end Verif.Spec
