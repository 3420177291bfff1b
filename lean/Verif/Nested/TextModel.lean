import Verif.Nested.Model
import Verif.Text.Model
import Verif.Spec.NestedText

/-!
# Containers of strings

`Vector<String>`, `Deque<String>`, `List<String>` and maps to strings: as in Nested/Model.lean, but the
elements are strings (src/string/mod.rs:20-24: a `Vector<u8>` with another allocator), and calls on them
are those of `String`.  Dropping an element is `Drop` of the vector in it (src/vector/mod.rs:329-336);
bytes have no destructor.
-/

set_option autoImplicit false

namespace Verif
open Spec

/-- One item of a program, as `Outer.item` (the containers' functions are cited there; calls on strings
are src/string/mod.rs:75-171).  The program reads the strings in a result with `as_bytes`
(src/string/mod.rs:86-88) and drops those it owns. -/
def Outer.itemT {k : Kind} (C : Outer k Vec) (A : Allocator UInt8) :
    TextItem k → C.σ → Mem UInt8 → Exec (TextOut k × C.σ × Mem UInt8)
  | .call op, s, m => do
    let (os, v, m) ← Str.run A ((k.arg op).getD []) Vec.new m
    let op' := k.mapOp (fun _ => v) op
    let before := (C.dropped s).length
    let (r, s) ← C.step op' s
    let m ← dropAll A false ((C.dropped s).drop before) m
    let _ ← readAll (k.shows r) m
    let r' := k.mapRes (contents m) r
    let m ← dropAll A false (k.owned op' r) m
    .ok (.call os r', s, m)
  | .inside p ops, s, m => do
    let o ← C.get p s
    match o with
    | none => .ok (.inside none, s, m)
    | some v => do
      let (os, v, m) ← Str.run A ops v m
      let s ← C.put p v s
      .ok (.inside (some os), s, m)

/-- A program: its items in turn; no code of its own in /repo. -/
def Outer.runT {k : Kind} (C : Outer k Vec) (A : Allocator UInt8) :
    List (TextItem k) → C.σ → Mem UInt8 → Exec (List (TextOut k) × C.σ × Mem UInt8)
  | [], s, m => .ok ([], s, m)
  | i :: is, s, m => do
    let (o, s, m) ← C.itemT A i s m
    let (os, s, m) ← C.runT A is s m
    .ok (o :: os, s, m)

end Verif
