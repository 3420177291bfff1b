import Verif.Spec.FiniteMap

/-! What calls may do to the order in which a map is iterated over. -/

set_option autoImplicit false

namespace Verif.Spec

variable {K V : Type}

/-- The entry a call adds to the map `s`, if its key is not there yet. -/
def MapOp.fresh (eq : K → K → Bool) (s : List (K × V)) : MapOp K V → Option (K × V)
  | .insert k v | .entry k _ v => if (lookup eq s k).isSome then none else some (k, v)
  | _ => none

/-- No call of the history adds an entry. -/
def MapOp.AddsNone (eq : K → K → Bool) : List (MapOp K V) → List (K × V) → Prop
  | [], _ => True
  | op :: ops, s => op.fresh eq s = none ∧ MapOp.AddsNone eq ops (op.step eq s).2

/-- The call removes `k` if it is there. -/
def MapOp.removes (eq : K → K → Bool) (k : K) : MapOp K V → Bool
  | .remove k' | .removeEntry k' => eq k k'
  | .clear => true
  | _ => false

end Verif.Spec
