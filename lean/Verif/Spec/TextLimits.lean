import Verif.Spec.Text

/-! What it means for a history on a text buffer to stay within the address space. -/

set_option autoImplicit false

namespace Verif.Spec

/-- The number of bytes of a text buffer of `len` bytes after a call that does not panic.  A
character put in takes one byte (C16, C138) and `assign` adds the text (C18). -/
def StrOp.lenAfter (op : StrOp) (len : Nat) : Nat :=
  match op with
  | .push _ => len + 1
  | .pop => len - 1
  | .insert _ _ => len + 1
  | .remove i => if i < len then len - 1 else len
  | .assign s => len + (utf8 s).length
  | .reserve _ | .len | .isEmpty => len

/-- Whether a call on a text buffer of `len` bytes panics. -/
def StrOp.panics (op : StrOp) (len : Nat) : Bool :=
  match op with
  | .insert i _ => len < i
  | _ => false

/-- The capacity after a call on a text buffer of `len` bytes with room for `cap`: one character
doubles it when there is no room left; `reserve` adds what is asked for and one more. -/
def StrOp.capAfter (op : StrOp) (len cap : Nat) : Nat :=
  match op with
  | .push _ | .insert _ _ => if len < cap then cap else if cap = 0 then 1 else 2 * cap
  | .reserve n => cap + n + 1
  | .assign s => cap + (utf8 s).length + 1
  | .pop | .remove _ | .len | .isEmpty => cap

/-- The capacities a text buffer has after each call of a history; it ends at the first call that
panics. -/
def StrOp.caps : List StrOp → Nat → Nat → List Nat
  | [], _, _ => []
  | op :: ops, n, cap =>
    if op.panics n then []
    else op.capAfter n cap :: StrOp.caps ops (op.lenAfter n) (op.capAfter n cap)

/-- How much room the caller asks for: the argument of `reserve`, or the length of a text. -/
def StrOp.wanted : StrOp → Nat
  | .reserve n => n
  | .assign s => (utf8 s).length
  | _ => 0

/-- A text of `n` bytes and its terminator can exist: together at most `isize::MAX` bytes. -/
def TextFits (n : Nat) : Prop := n + 1 < 2 ^ 63

end Verif.Spec
