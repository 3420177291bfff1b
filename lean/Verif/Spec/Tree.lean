import Verif.Spec.FiniteMap

/-!
# Binary trees, and what calls on an ordered map do

This file does not mention the model of the code.
-/

set_option autoImplicit false

namespace Verif.Spec

/-- Binary trees of any shape. -/
inductive Tree (α : Type) where
  | nil
  | node (l : Tree α) (x : α) (r : Tree α)
  deriving Repr

namespace Tree
variable {α β : Type}

/-- The labels from left to right. -/
def inorder : Tree α → List α
  | nil => []
  | node l x r => l.inorder ++ x :: r.inorder

/-- Number of nodes. -/
def count : Tree α → Nat
  | nil => 0
  | node l _ r => l.count + r.count + 1

/-- Change every label. -/
def map (f : α → β) : Tree α → Tree β
  | nil => nil
  | node l x r => node (l.map f) (f x) (r.map f)

/-- A search tree: at every node, what is left of it is less and what is right of it greater. -/
def Search (lt : α → α → Bool) : Tree α → Prop
  | nil => True
  | node l x r => l.Search lt ∧ r.Search lt ∧ (∀ y ∈ l.inorder, lt y x = true) ∧
      ∀ y ∈ r.inorder, lt x y = true

end Tree

variable {K V : Type}

/-- Two keys are equivalent if neither is less than the other. -/
def equiv (lt : K → K → Bool) (a b : K) : Bool := !lt a b && !lt b a

/-- Calls on an ordered map that has no way to insert or remove. -/
inductive TreeOp (K V : Type) where
  | get (k : K)
  | contains (k : K)
  /-- `get_mut`, then replacing the value `x` found by `f x` -/
  | modify (k : K) (f : V → V)
  | len
  | isEmpty
  /-- everything an iterator yields -/
  | iter
  /-- everything a mutable iterator yields, replacing each value by `f` of key and value -/
  | iterMut (f : K → V → V)

/-- What a call returns. -/
inductive TreeOut (K V : Type) where
  | val (v : Option V)
  | bool (b : Bool)
  | nat (n : Nat)
  | pairs (l : List (K × V))
  deriving DecidableEq, Repr

/-- One call on an increasing list of pairs. -/
def TreeOp.step (lt : K → K → Bool) : TreeOp K V → List (K × V) →
    TreeOut K V × List (K × V)
  | .get k, s => (.val ((lookup (equiv lt) s k).map Prod.snd), s)
  | .contains k, s => (.bool (lookup (equiv lt) s k).isSome, s)
  | .modify k f, s =>
    (.bool (lookup (equiv lt) s k).isSome,
      s.map fun p => if equiv lt p.1 k then (p.1, f p.2) else p)
  | .len, s => (.nat s.length, s)
  | .isEmpty, s => (.bool (decide (s = [])), s)
  | .iter, s => (.pairs s, s)
  | .iterMut f, s => (.pairs s, s.map fun p => (p.1, f p.1 p.2))

/-- A history of calls. -/
def TreeOp.run (lt : K → K → Bool) : List (TreeOp K V) → List (K × V) →
    List (TreeOut K V) × List (K × V)
  | [], s => ([], s)
  | op :: ops, s =>
    let (o, s) := op.step lt s
    let (os, s) := TreeOp.run lt ops s
    (o :: os, s)

end Verif.Spec
