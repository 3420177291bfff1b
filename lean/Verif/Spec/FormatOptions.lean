import Mathlib.Data.List.Basic

/-! Width, precision, fill and alignment of printed text. -/

set_option autoImplicit false

namespace Verif.Spec

inductive TextAlign where
  | left
  | right
  | center
  deriving DecidableEq, Repr

/-- What a format such as `{:*>10.3}` asks for: here fill `*`, alignment to the right, width 10 and
precision 3. -/
structure FormatOptions where
  fill : Char := ' '
  align : TextAlign := .left
  width : Option Nat := none
  precision : Option Nat := none
  deriving DecidableEq, Repr

/-- A text is cut to the precision and then filled up to the width. -/
def FormatOptions.apply (o : FormatOptions) (cs : List Char) : List Char :=
  let cs := match o.precision with
    | none => cs
    | some p => cs.take p
  let n := o.width.getD 0 - cs.length
  let before := match o.align with
    | .left => 0
    | .right => n
    | .center => n / 2
  List.replicate before o.fill ++ cs ++ List.replicate (n - before) o.fill

end Verif.Spec
