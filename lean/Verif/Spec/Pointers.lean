import Verif.Spec.Deque
import Verif.Spec.LinkedList
import Verif.Spec.FiniteMap

/-!
# Where an element goes

Specification over mathematical sequences and maps: the place of an element after a call.  It does
not mention the model of any container.
-/

set_option autoImplicit false

namespace Verif.Spec

variable {α K V : Type}

/-- The place, after a call on a deque of `n` elements, of the element that was at place `i`; `none` if it
was popped.  `remove` may move any element, so it ends all claims. -/
def DeqOp.place : DeqOp α → Nat → Nat → Option Nat
  | .pushFront _, _, i => some (i + 1)
  | .popFront, _, i => if i = 0 then none else some (i - 1)
  | .popBack, n, i => if i + 1 = n then none else some i
  | .remove _, _, _ => none
  | _, _, i => some i

/-- The place after a history. -/
def DeqOp.placeAfter : List (DeqOp α) → List α → Nat → Option Nat
  | [], _, i => some i
  | op :: ops, xs, i =>
    match op.place xs.length i with
    | none => none
    | some i => DeqOp.placeAfter ops (op.step xs).2 i

/-- The same for a list. -/
def ListOp.place : ListOp α → Nat → Nat → Option Nat
  | .pushFront _, _, i => some (i + 1)
  | .popFront, _, i => if i = 0 then none else some (i - 1)
  | .popBack, n, i => if i + 1 = n then none else some i
  | .clear, _, _ => none
  | _, _, i => some i

def ListOp.placeAfter : List (ListOp α) → List α → Nat → Option Nat
  | [], _, i => some i
  | op :: ops, xs, i =>
    match op.place xs.length i with
    | none => none
    | some i => ListOp.placeAfter ops (op.step xs).2 i

/-- No call of a history on a sequence of capacity `cap` changes the capacity. -/
def SeqOp.steady (cap : Nat) : List (SeqOp α) → List α → Bool
  | [], _ => true
  | op :: ops, xs => op.capAfter xs.length cap == cap &&
    match op.step xs with
    | .error _ => true
    | .ok (_, ys) => SeqOp.steady cap ops ys

/-- The call does not remove the entry of `k`. -/
def MapOp.spares (eq : K → K → Bool) (k : K) : MapOp K V → Bool
  | .remove k' | .removeEntry k' => !eq k' k
  | .clear => false
  | _ => true

end Verif.Spec
