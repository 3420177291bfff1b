import Verif.Spec.Text

/-!
# Changing a text in place

`str` has few methods that change the text behind a `&mut str`; those of the standard library that
need no `unsafe` change the case of the ASCII letters.
-/

set_option autoImplicit false

namespace Verif.Spec

/-- Calls on a text buffer, and on the `&mut str` that it lends out. -/
inductive TextEdit where
  | call (op : StrOp)
  /-- `make_ascii_uppercase` -/
  | upper
  /-- `make_ascii_lowercase` -/
  | lower

/-- `Char.toUpper` and `Char.toLower` (Lean core) change ASCII letters only. -/
def TextEdit.step : TextEdit → List Char → Except Fault (StrOut × List Char)
  | .call op, cs => op.step cs
  | .upper, cs => .ok (.unit, cs.map Char.toUpper)
  | .lower, cs => .ok (.unit, cs.map Char.toLower)

def TextEdit.run : List TextEdit → List Char → Except Fault (List StrOut × List Char)
  | [], cs => .ok ([], cs)
  | op :: ops, cs =>
    match op.step cs with
    | .error e => .error e
    | .ok (o, cs) =>
      match TextEdit.run ops cs with
      | .error e => .error e
      | .ok (os, cs) => .ok (o :: os, cs)

/-- Nothing but ASCII is put in, one character at a time. -/
def TextEdit.Plain : TextEdit → Prop
  | .call op => op.Ascii ∧ op.isAssign = false
  | _ => True

end Verif.Spec
