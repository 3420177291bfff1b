/-!
# What a set of keys is

A set is a list of keys, in no particular order, no two of which are equal.  `eq` is the equality
of keys.
-/

set_option autoImplicit false

namespace Verif.Spec

variable {K : Type}

/-- Calls on a set. -/
inductive SetOp (K : Type) where
  | insert (k : K)
  | remove (k : K)
  | get (k : K)
  | contains (k : K)
  | len
  | isEmpty
  | clear

/-- What a call returns. -/
inductive SetOut (K : Type) where
  | unit
  | bool (b : Bool)
  | key (k : Option K)
  | nat (n : Nat)
  deriving DecidableEq, Repr

/-- The key of the set that equals `k`. -/
def member (eq : K → K → Bool) (s : List K) (k : K) : Option K := s.find? fun x => eq x k

/-- One call.  `inserted b` is what `insert` returns, `b` telling whether the key was new. -/
def SetOp.step (inserted : Bool → Bool) (eq : K → K → Bool) :
    SetOp K → List K → SetOut K × List K
  | .insert k, s =>
    if (member eq s k).isSome then (.bool (inserted false), s) else (.bool (inserted true), k :: s)
  | .remove k, s => (.key (member eq s k), s.filter fun x => !eq x k)
  | .get k, s => (.key (member eq s k), s)
  | .contains k, s => (.bool (member eq s k).isSome, s)
  | .len, s => (.nat s.length, s)
  | .isEmpty, s => (.bool s.isEmpty, s)
  | .clear, _ => (.unit, [])

/-- A history of calls. -/
def SetOp.run (inserted : Bool → Bool) (eq : K → K → Bool) : List (SetOp K) → List K →
    List (SetOut K) × List K
  | [], s => ([], s)
  | op :: ops, s =>
    let (o, s) := op.step inserted eq s
    let (os, s) := SetOp.run inserted eq ops s
    (o :: os, s)

/-- The largest number of keys during a history. -/
def SetOp.peak (eq : K → K → Bool) : List (SetOp K) → List K → Nat
  | [], s => s.length
  | op :: ops, s => max s.length (SetOp.peak eq ops (op.step id eq s).2)

end Verif.Spec
