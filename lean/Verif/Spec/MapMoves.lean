import Verif.Spec.FiniteMap

/-!
# What keeping a list of pairs sorted costs

This file does not mention the model of the code.
-/

set_option autoImplicit false

namespace Verif.Spec

variable {K V : Type}

/-- How many pairs have a greater key. -/
def greater (lt : K → K → Bool) (k : K) (s : List (K × V)) : Nat :=
  (s.filter fun p => lt k p.1).length

/-- Whether the key is bound. -/
def bound (eq : K → K → Bool) (k : K) (s : List (K × V)) : Bool := s.any fun p => eq p.1 k

/-- Pairs moved by a call on sorted pairs in an array with room for `cap`: those with greater keys
when a pair is put in or taken out, and all of them if there is no room for a new one. -/
def MapOp.moves (lt eq : K → K → Bool) (s : List (K × V)) (cap : Nat) : MapOp K V → Nat
  | .insert k _ | .entry k _ _ =>
    if bound eq k s then 0 else (if s.length = cap then s.length else 0) + greater lt k s
  | .remove k | .removeEntry k => if bound eq k s then greater lt k s else 0
  | _ => 0

/-- Blocks of memory asked for by a call. -/
def MapOp.asks (eq : K → K → Bool) (s : List (K × V)) (cap : Nat) : MapOp K V → Nat
  | .insert k _ | .entry k _ _ => if bound eq k s = false ∧ s.length = cap then 1 else 0
  | _ => 0

/-- Pairs given one after the other: for each whose key was not given before, how many of the
different keys before it are greater, all added up. -/
def displaced (lt eq : K → K → Bool) : List (K × V) → List (K × V) → Nat
  | _, [] => 0
  | seen, p :: ps =>
    if bound eq p.1 seen then displaced lt eq seen ps
    else greater lt p.1 seen + displaced lt eq (p :: seen) ps

end Verif.Spec
