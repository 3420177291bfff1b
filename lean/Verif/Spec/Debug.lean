import Mathlib.Data.List.Basic

/-!
# Printed sequences

What it means for a text to list pieces of text: an opening bracket, the pieces in order with a
separator between neighbours, a closing bracket.
-/

set_option autoImplicit false

namespace Verif.Spec

/-- The pieces in order, `sep` between any two neighbours. -/
def separated (sep : List Char) : List (List Char) → List Char
  | [] => []
  | [p] => p
  | p :: q :: ps => p ++ sep ++ separated sep (q :: ps)

/-- The pieces between brackets. -/
def listed (opening sep closing : String) (ps : List (List Char)) : List Char :=
  opening.toList ++ separated sep.toList ps ++ closing.toList

/-- `key: value`, given how to print keys and values. -/
def showEntry {K V : Type} (dk : K → List Char) (dv : V → List Char) (e : K × V) : List Char :=
  dk e.1 ++ ": ".toList ++ dv e.2

/-- A text in quotes. -/
def quoted (s : List Char) : List Char := '"' :: s ++ ['"']

end Verif.Spec
