import Verif.Spec.Text

/-!
# Strings as sequences of bytes

What the calls of a string mean if it is taken for a sequence of bytes, each standing for the
character of that number.
-/

set_option autoImplicit false

namespace Verif.Spec

/-- The byte a character is stored as: its number modulo 256. -/
def lowByte (c : Char) : UInt8 := UInt8.ofNat c.toNat

/-- The character a byte is handed out as: the one of that number. -/
def charOf (b : UInt8) : Char := Char.ofNat b.toNat

/-- One call.  `assign` appends the text in UTF-8. -/
def StrOp.stepBytes : StrOp → List UInt8 → Option (StrOut × List UInt8)
  | .push c, bs => some (.unit, bs ++ [lowByte c])
  | .pop, bs => some (.char (bs.getLast?.map charOf), bs.dropLast)
  | .insert i c, bs =>
    if bs.length < i then none else some (.unit, bs.insertIdx i (lowByte c))
  | .remove i, bs => some (.char (bs[i]?.map charOf), bs.eraseIdx i)
  | .reserve _, bs => some (.unit, bs)
  | .assign s, bs => some (.unit, bs ++ utf8 s)
  | .len, bs => some (.nat bs.length, bs)
  | .isEmpty, bs => some (.bool bs.isEmpty, bs)

/-- A history of calls, each panic being caught: a call that panics changes nothing. -/
def StrOp.runBytes : List StrOp → List UInt8 → List (Option StrOut) × List UInt8
  | [], bs => ([], bs)
  | op :: ops, bs =>
    let r := op.stepBytes bs
    let (os, bs) := StrOp.runBytes ops ((r.map Prod.snd).getD bs)
    (r.map Prod.fst :: os, bs)

end Verif.Spec
