import Verif.Spec.Debug

/-!
# Printing to writers that may refuse

A value prints by handing texts to a writer, one at a time; it is told of each whether the writer took
it, and may do with that what it likes; in the end it reports success or an error.
-/

set_option autoImplicit false

namespace Verif.Spec

/-- What a value does when printed. -/
inductive Printing where
  /-- report success or an error -/
  | done (ok : Bool)
  /-- hand over a text, then go on according to whether it was taken -/
  | write (text : List Char) (next : Bool → Printing)

/-- Printing to a writer in state `s`: whether success is reported, and the writer afterwards. -/
def Printing.to {S : Type} (put : List Char → S → Bool × S) : Printing → S → Bool × S
  | .done ok, s => (ok, s)
  | .write t next, s => (next (put t s).1).to put (put t s).2

/-- A writer that takes everything. -/
def takeAll (t out : List Char) : Bool × List Char := (true, out ++ t)

/-- The text of a value, if it reports success to a writer that takes everything. -/
def Printing.text (p : Printing) : Option (List Char) :=
  if (p.to takeAll []).1 then some (p.to takeAll []).2 else none

/-- The text `key: value` of an entry, if both have one. -/
def entryText {K V : Type} (dk : K → Printing) (dv : V → Printing) (e : K × V) :
    Option (List Char) :=
  match (dk e.1).text, (dv e.2).text with
  | some k, some v => some (k ++ ": ".toList ++ v)
  | _, _ => none

/-- A writer that refuses texts as it likes, depending on what it has taken. -/
def picky (takes : List Char → List Char → Bool) (t out : List Char) : Bool × List Char :=
  if takes out t then (true, out ++ t) else (false, out)

/-- One thing after the other, up to the first that reports an error. -/
def inTurn {S : Type} : List (S → Bool × S) → S → Bool × S
  | [], s => (true, s)
  | a :: as, s => match a s with
    | (true, s) => inTurn as s
    | (false, s) => (false, s)

/-- A value that hands over these texts and gives up when one is refused. -/
def Printing.plain : List (List Char) → Printing
  | [] => .done true
  | t :: ts => .write t fun taken => if taken then .plain ts else .done false

/-- Brackets around things to be printed, a separator between neighbours. -/
def listing {S : Type} (put : List Char → S → Bool × S) (opening sep closing : String)
    (ps : List (S → Bool × S)) : List (S → Bool × S) :=
  [put opening.toList] ++ ps.intersperse (put sep.toList) ++ [put closing.toList]

end Verif.Spec
