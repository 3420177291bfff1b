import Verif.Text.Model
import Verif.Vector.Slices
import Verif.Spec.TextEdit

/-!
# What is done through the `&mut str` of a `String`
-/

set_option autoImplicit false

namespace Verif
open Spec

/-- `u8::to_ascii_uppercase`, which `str::make_ascii_uppercase` applies to each byte of what
`deref_mut` (src/string/mod.rs:226-230) returns. -/
def upperByte (b : UInt8) : UInt8 := if 97 ≤ b ∧ b ≤ 122 then b - 32 else b

/-- `u8::to_ascii_lowercase`, likewise (src/string/mod.rs:226-230). -/
def lowerByte (b : UInt8) : UInt8 := if 65 ≤ b ∧ b ≤ 90 then b + 32 else b

namespace Str

/-- Apply `f` to `n` bytes from the one at `i` on, through the slice of the vector
(src/string/mod.rs:228, src/vector/mod.rs:75-81). -/
def mapFrom (f : UInt8 → UInt8) (v : Vec) : Nat → Nat → Mem UInt8 → Exec (Mem UInt8)
  | _, 0, m => .ok m
  | i, n + 1, m => do
    let b ← v.takeAt i m
    let m ← v.setAt false i (f b) m
    mapFrom f v (i + 1) n m

/-- A method of `&mut str` that changes every byte by `f`, called on `deref_mut`
(src/string/mod.rs:226-230).  Simplified: that the bytes are well-formed, which
`from_utf8_unchecked_mut` requires, is the subject of C19. -/
def mapBytes (f : UInt8 → UInt8) (v : Vec) (m : Mem UInt8) : Exec (Mem UInt8) := do
  let n ← v.len
  mapFrom f v 0 n m

/-- One call on the string or on the text it lends out (src/string/mod.rs:226-230). -/
def editStep (A : Allocator UInt8) (op : TextEdit) (v : Vec) (m : Mem UInt8) :
    Exec (StrOut × Vec × Mem UInt8) :=
  match op with
  | .call op => step A op v m
  | .upper => do let m ← mapBytes upperByte v m; .ok (.unit, v, m)
  | .lower => do let m ← mapBytes lowerByte v m; .ok (.unit, v, m)

/-- A history of these. -/
def edit (A : Allocator UInt8) : List TextEdit → Vec → Mem UInt8 →
    Exec (List StrOut × Vec × Mem UInt8)
  | [], v, m => .ok ([], v, m)
  | op :: ops, v, m => do
    let (o, v, m) ← editStep A op v m
    let (os, v, m) ← edit A ops v m
    .ok (o :: os, v, m)

end Str

end Verif
