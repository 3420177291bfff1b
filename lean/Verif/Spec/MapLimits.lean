import Verif.Spec.FiniteMap

/-!
# The capacities of a vector map

The capacities that the buffer of a vector map with the entries `s` and the capacity `cap` has after
each call, from the calls alone.
-/

set_option autoImplicit false

namespace Verif.Spec

variable {K V : Type}

/-- The capacity after a call: doubled if an entry was added to a full buffer, gone after `clear`,
the same otherwise. -/
def MapOp.capAfter (eq : K → K → Bool) (op : MapOp K V) (s : List (K × V)) (cap : Nat) : Nat :=
  match op with
  | .clear => 0
  | op =>
    if s.length < (op.step eq s).2.length then
      if s.length < cap then cap else if cap = 0 then 1 else 2 * cap
    else cap

/-- The capacities after each call of a history. -/
def MapOp.caps (eq : K → K → Bool) : List (MapOp K V) → List (K × V) → Nat → List Nat
  | [], _, _ => []
  | op :: ops, s, cap =>
    op.capAfter eq s cap :: MapOp.caps eq ops (op.step eq s).2 (op.capAfter eq s cap)

/-- The number of different keys among some pairs. -/
def keyCount (eq : K → K → Bool) : List (K × V) → Nat
  | [] => 0
  | p :: ps => keyCount eq ps + if ps.any fun q => eq q.1 p.1 then 0 else 1

end Verif.Spec
