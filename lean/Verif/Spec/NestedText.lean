import Verif.Spec.Nested
import Verif.Spec.TextBytes

/-! Containers of strings: what a program that keeps strings in a container observes, as operations on
a mathematical container of sequences of bytes. -/

set_option autoImplicit false

namespace Verif.Spec

/-- A history of calls on a string, no panic being caught. -/
def StrOp.onBytes : List StrOp → List UInt8 → Except Fault (List StrOut × List UInt8)
  | [], bs => .ok ([], bs)
  | op :: ops, bs =>
    match op.stepBytes bs with
    | none => .error .panic
    | some (o, bs) =>
      match StrOp.onBytes ops bs with
      | .error e => .error e
      | .ok (os, bs) => .ok (o :: os, bs)

/-- One item of a program that uses a container of strings: a call, the string passed to it, if any,
being the one that the calls given instead produce from an empty one; or calls on the string at some
place of the container, through a mutable reference. -/
inductive TextItem (k : Kind) where
  | call (op : k.Op (List StrOp))
  | inside (p : k.Pos) (ops : List StrOp)

/-- What the item yields: the results of the calls that built the argument, and the result of the
call itself, with the bytes of strings in it; or the results of the calls on the string, if there
is one. -/
inductive TextOut (k : Kind) where
  | call (built : List StrOut) (r : k.Res (List UInt8))
  | inside (outs : Option (List StrOut))

/-- One item. -/
def TextItem.step {k : Kind} : TextItem k → k.St (List UInt8) →
    Except Fault (TextOut k × k.St (List UInt8))
  | .call op, bss =>
    match StrOp.onBytes ((k.arg op).getD []) [] with
    | .error e => .error e
    | .ok (os, bs) =>
      match k.step (k.mapOp (fun _ => bs) op) bss with
      | .error e => .error e
      | .ok (r, bss) => .ok (.call os r, bss)
  | .inside p ops, bss =>
    match k.get p bss with
    | none => .ok (.inside none, bss)
    | some bs =>
      match StrOp.onBytes ops bs with
      | .error e => .error e
      | .ok (os, bs) => .ok (.inside (some os), k.set p bs bss)

/-- A program. -/
def TextItem.run {k : Kind} : List (TextItem k) → k.St (List UInt8) →
    Except Fault (List (TextOut k) × k.St (List UInt8))
  | [], bss => .ok ([], bss)
  | i :: is, bss =>
    match i.step bss with
    | .error e => .error e
    | .ok (o, bss) =>
      match TextItem.run is bss with
      | .error e => .error e
      | .ok (os, bss) => .ok (o :: os, bss)

/-- An item whose call is one of those considered. -/
def TextItem.Ok {k : Kind} (ok : {α : Type} → k.Op α → Bool) : TextItem k → Prop
  | .call op => ok op = true
  | .inside _ _ => True

end Verif.Spec
