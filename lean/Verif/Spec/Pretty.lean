import Verif.Spec.Debug

/-! Sequences printed over several lines, as `{:#?}` prints Rust's own containers. -/

set_option autoImplicit false

namespace Verif.Spec

/-- The text consists of these lines. -/
def InLines (s : List Char) (ls : List (List Char)) : Prop :=
  s = separated ['\n'] ls ∧ ls ≠ [] ∧ ∀ l ∈ ls, '\n' ∉ l

/-- The lines, each indented by four spaces. -/
def indented (ls : List (List Char)) : List Char := separated ['\n'] (ls.map (' ' :: ' ' :: ' ' :: ' ' :: ·))

/-- The pieces between brackets that have lines of their own.  Each piece is given by its lines; they
are indented and a comma follows the last one. -/
def pretty (opening closing : String) (ps : List (List (List Char))) : List Char :=
  if ps = [] then opening.toList ++ closing.toList
  else opening.toList ++ ['\n'] ++ ps.flatMap (fun ls => indented ls ++ [',', '\n']) ++ closing.toList

/-- The lines of one piece, indented, with a comma behind the last. -/
def prettyPiece : List (List Char) → List (List Char)
  | [] => []
  | [l] => [' ' :: ' ' :: ' ' :: ' ' :: l ++ [',']]
  | l :: k :: ls => (' ' :: ' ' :: ' ' :: ' ' :: l) :: prettyPiece (k :: ls)

/-- The lines of a sequence printed over several lines, given those of its elements. -/
def prettyLines (opening closing : String) (ps : List (List (List Char))) : List (List Char) :=
  if ps = [] then [opening.toList ++ closing.toList]
  else opening.toList :: ps.flatMap prettyPiece ++ [closing.toList]

end Verif.Spec
