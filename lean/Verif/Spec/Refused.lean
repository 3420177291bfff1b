import Verif.Spec.Sequence
import Verif.Spec.Text

/-!
# Histories in which the caller catches panics

A call refused by a panic gives `none` and changes nothing.
-/

set_option autoImplicit false

namespace Verif.Spec

variable {α : Type}

/-- One call on a mathematical sequence. -/
def SeqOp.stepC (op : SeqOp α) (xs : List α) : Option (Out α) × List α :=
  match op.step xs with
  | .error _ => (none, xs)
  | .ok (o, ys) => (some o, ys)

/-- A history of calls. -/
def SeqOp.runC : List (SeqOp α) → List α → List (Option (Out α)) × List α
  | [], xs => ([], xs)
  | op :: ops, xs =>
    let (o, xs) := op.stepC xs
    let (os, xs) := SeqOp.runC ops xs
    (o :: os, xs)

/-- One call on a text. -/
def StrOp.stepC (op : StrOp) (cs : List Char) : Option StrOut × List Char :=
  match op.step cs with
  | .error _ => (none, cs)
  | .ok (o, cs) => (some o, cs)

/-- A history of calls. -/
def StrOp.runC : List StrOp → List Char → List (Option StrOut) × List Char
  | [], cs => ([], cs)
  | op :: ops, cs =>
    let (o, cs) := op.stepC cs
    let (os, cs) := StrOp.runC ops cs
    (o :: os, cs)

end Verif.Spec
