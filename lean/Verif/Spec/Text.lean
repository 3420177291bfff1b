import Verif.Mem

/-! # What a text buffer is, over lists of characters -/

set_option autoImplicit false

namespace Verif.Spec

/-- Calls on a text buffer. -/
inductive StrOp where
  | push (c : Char)
  | pop
  | insert (i : Nat) (c : Char)
  | remove (i : Nat)
  | reserve (n : Nat)
  | assign (s : List Char)
  | len
  | isEmpty

/-- What a call returns. -/
inductive StrOut where
  | unit
  | char (c : Option Char)
  | nat (n : Nat)
  | bool (b : Bool)
  deriving DecidableEq, Repr

/-- One call on a sequence of characters. -/
def StrOp.step : StrOp → List Char → Except Fault (StrOut × List Char)
  | .push c, cs => .ok (.unit, cs ++ [c])
  | .pop, cs => .ok (.char cs.getLast?, cs.dropLast)
  | .insert i c, cs =>
    if i ≤ cs.length then .ok (.unit, cs.take i ++ c :: cs.drop i) else .error .panic
  | .remove i, cs => .ok (.char cs[i]?, cs.take i ++ cs.drop (i + 1))
  | .reserve _, cs => .ok (.unit, cs)
  | .assign s, _ => .ok (.unit, s)
  | .len, cs => .ok (.nat cs.length, cs)
  | .isEmpty, cs => .ok (.bool (decide (cs = [])), cs)

def StrOp.run : List StrOp → List Char → Except Fault (List StrOut × List Char)
  | [], cs => .ok ([], cs)
  | op :: ops, cs =>
    match op.step cs with
    | .error e => .error e
    | .ok (o, cs) =>
      match StrOp.run ops cs with
      | .error e => .error e
      | .ok (os, cs) => .ok (o :: os, cs)

def IsAscii (c : Char) : Prop := c.toNat < 128

/-- Every character mentioned by the call is ASCII. -/
def StrOp.Ascii : StrOp → Prop
  | .push c | .insert _ c => IsAscii c
  | .assign s => ∀ c ∈ s, IsAscii c
  | _ => True

def StrOp.isAssign : StrOp → Bool
  | .assign _ => true
  | _ => false

/-- The UTF-8 encoding of a text (`String.utf8EncodeChar` is Lean core's encoder). -/
def utf8 (cs : List Char) : List UInt8 := cs.flatMap String.utf8EncodeChar

/-- Well-formed UTF-8. -/
def WellFormed (bytes : List UInt8) : Prop := ∃ cs, bytes = utf8 cs

end Verif.Spec
