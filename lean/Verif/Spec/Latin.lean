import Verif.Spec.Text

/-!
# Texts of characters that fit into a byte

The 256 characters U+0000 to U+00FF are those of ISO 8859-1 (Latin-1).
-/

set_option autoImplicit false

namespace Verif.Spec

def IsLatin (c : Char) : Prop := c.toNat < 256

/-- The character whose number is the low byte of that of `c`. -/
def lowChar (c : Char) : Char := Char.ofNat (c.toNat % 256)

/-- The call with that character in place of the one it is given. -/
def StrOp.narrow : StrOp → StrOp
  | .push c => .push (lowChar c)
  | .insert i c => .insert i (lowChar c)
  | op => op

/-- Nothing but Latin-1 is put in. -/
def StrOp.Latin : StrOp → Prop
  | .push c => IsLatin c
  | .insert _ c => IsLatin c
  | _ => True

/-- One byte for each character. -/
def latin1 (cs : List Char) : List UInt8 := cs.map fun c => UInt8.ofNat c.toNat

end Verif.Spec
