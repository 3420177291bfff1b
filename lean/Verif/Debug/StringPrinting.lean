import Verif.Debug.Printing
import Verif.Text.Model

/-!
# Printing strings

`write!` hands the formatter each literal piece and each argument (a `str` prints as one text when no
flags are set), up to the first refusal.
-/

set_option autoImplicit false

namespace Verif
open Spec

/-- `as_str` (src/string/mod.rs:91-93, through `deref`, 218-224): the text the bytes encode.  Other
bytes must not be made into a `str`. -/
def Str.asText (v : Vec) (m : Mem UInt8) : Exec (List Char) := do
  let bs ← v.asSlice m
  match String.fromUTF8? bs.toByteArray with
  | some s => .ok s.toList
  | none => .error .ub

/-- `Debug` of `String` (src/string/mod.rs:206-210). -/
def Str.print (v : Vec) (m : Mem UInt8) : Exec Printing := do
  let t ← Str.asText v m
  .ok ((puts "\"".toList).andThen ((puts t).andThen (puts "\"".toList)))

/-- `Display` of `String` (src/string/mod.rs:232-236). -/
def Str.show (v : Vec) (m : Mem UInt8) : Exec Printing := do
  let t ← Str.asText v m
  .ok (puts t)

/-! ## Lemmas -/

theorem fromUTF8_utf8 (cs : List Char) :
    String.fromUTF8? (utf8 cs).toByteArray = some (String.ofList cs) := by
  have h : (utf8 cs).toByteArray = (String.ofList cs).toByteArray := by
    simp [utf8, List.utf8Encode]
  rw [h, String.fromUTF8?, dif_pos (String.ofList cs).isValidUTF8]
  rfl

theorem fromUTF8_none {bs : List UInt8} (h : ¬ WellFormed bs) :
    String.fromUTF8? bs.toByteArray = none := by
  rw [String.fromUTF8?, dif_neg]
  rintro ⟨cs, hc⟩
  refine h ⟨cs, ?_⟩
  have := congrArg (fun b => b.data.toList) hc
  simpa [utf8, List.utf8Encode] using this

theorem Str.asText_ok {v : Vec} {m : Mem UInt8} {cs : List Char} (h : v.asSlice m = .ok (utf8 cs)) :
    Str.asText v m = .ok cs := by
  simp [Str.asText, h, fromUTF8_utf8]

theorem Str.asText_ub {v : Vec} {m : Mem UInt8} {bs : List UInt8} (h : v.asSlice m = .ok bs)
    (hb : ¬ WellFormed bs) : Str.asText v m = .error .ub := by
  simp [Str.asText, h, fromUTF8_none hb]

end Verif
