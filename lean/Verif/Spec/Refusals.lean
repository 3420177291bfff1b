import Verif.Spec.Deque
import Verif.Spec.HashTable
import Verif.Spec.LinkedList
import Verif.Spec.Text

/-!
# Histories in which some calls panic

Small specification of C123: given what the calls of a history returned, `none` standing for a
panic, which calls returned, which did not, and what was passed to the latter.
-/

set_option autoImplicit false

namespace Verif.Spec

/-- The calls that returned. -/
def answered {Op O : Type} : List Op → List (Option O) → List Op
  | op :: ops, some _ :: os => op :: answered ops os
  | _ :: ops, none :: os => answered ops os
  | _, _ => []

/-- The calls that panicked. -/
def panicked {Op O : Type} : List Op → List (Option O) → List Op
  | _ :: ops, some _ :: os => panicked ops os
  | op :: ops, none :: os => op :: panicked ops os
  | _, _ => []

/-- The key and value passed to a call that may add an entry. -/
def MapOp.passed {K V : Type} : MapOp K V → List (K ⊕ V)
  | .insert k v | .entry k _ v => [.inl k, .inr v]
  | _ => []

/-- Whether a call may add an entry. -/
def MapOp.mayAdd {K V : Type} : MapOp K V → Bool
  | .insert _ _ | .entry _ _ _ => true
  | _ => false

/-- Whether a call adds an entry to the map `s`: its key is not there. -/
def MapOp.newKey {K V : Type} (eq : K → K → Bool) (s : List (K × V)) : MapOp K V → Bool
  | .insert k _ | .entry k _ _ => (lookup eq s k).isNone
  | _ => false

/-- The values of the `push_back`s among some calls. -/
def DeqOp.backs {α : Type} (ops : List (DeqOp α)) : List α :=
  ops.filterMap fun op => match op with | .pushBack x => some x | _ => none

/-- What a call on a list does if there is memory for `n` more elements: `extend` appends as many of
its values as fit, a push that does not fit does nothing. -/
def ListOp.fitted {α : Type} (n : Nat) : ListOp α → ListOp α
  | .pushBack x => if n = 0 then .extend [] else .pushBack x
  | .pushFront x => if n = 0 then .extend [] else .pushFront x
  | .extend ys => .extend (ys.take n)
  | op => op

/-- The values passed to a push or to `extend`. -/
def ListOp.given {α : Type} : ListOp α → List α
  | .pushBack x | .pushFront x => [x]
  | .extend ys => ys
  | _ => []

/-- What a history does if there is memory for `n` more elements at the call it comes with `n`. -/
def ListOp.fittedAll {α : Type} (calls : List (Nat × ListOp α)) : List (ListOp α) :=
  calls.map fun c => c.2.fitted c.1

/-- The values that did not fit. -/
def ListOp.unfitted {α : Type} (calls : List (Nat × ListOp α)) : List α :=
  calls.flatMap fun c => c.2.given.drop c.1

/-- What a history returns, a call some of whose values do not fit having panicked. -/
def ListOp.outsFitted {α : Type} (calls : List (Nat × ListOp α)) (outs : List (Out α)) :
    List (Option (Out α)) :=
  List.zipWith (fun c o => if c.1 < c.2.given.length then none else some o) calls outs

/-- Whether a call on a text of `n` bytes needs memory if `cap` bytes are there. -/
def StrOp.needsMemory (n cap : Nat) : StrOp → Prop
  | .push _ | .insert _ _ => n = cap
  | .reserve _ | .assign _ => True
  | _ => False

end Verif.Spec
