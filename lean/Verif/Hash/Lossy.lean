import Verif.Mem

/-!
# `to_string_lossy`, used by the hash of foreign strings (src/hash.rs:123)

The function is `String::from_utf8_lossy` of Rust's standard library, which is not in the
repository; the model follows `core::str::lossy::Utf8Chunks` and `core::str::utf8_char_width`.
-/

set_option autoImplicit false

namespace Verif

/-- `core::str::utf8_char_width`: the length announced by a first byte, 0 if there is none. -/
def utf8CharWidth (b : UInt8) : Nat :=
  if b < 0x80 then 1 else if b < 0xC2 then 0 else if b < 0xE0 then 2 else if b < 0xF0 then 3
  else if b < 0xF5 then 4 else 0

/-- `safe_get` of `Utf8Chunks::next`: the byte at an index, 0 behind the end. -/
def safeGet (xs : List UInt8) (i : Nat) : UInt8 := xs.getD i 0

/-- `safe_get(..) & 192 == TAG_CONT_U8` of `Utf8Chunks::next`. -/
def isCont (b : UInt8) : Bool := b &&& 192 == 128

/-- The table of second bytes of three-byte sequences in `Utf8Chunks::next`. -/
def second3 (b x : UInt8) : Bool :=
  (b == 0xE0 && (0xA0 ≤ x && x ≤ 0xBF)) || ((0xE1 ≤ b && b ≤ 0xEC) && (0x80 ≤ x && x ≤ 0xBF)) ||
  (b == 0xED && (0x80 ≤ x && x ≤ 0x9F)) || ((0xEE ≤ b && b ≤ 0xEF) && (0x80 ≤ x && x ≤ 0xBF))

/-- The table of second bytes of four-byte sequences in `Utf8Chunks::next`. -/
def second4 (b x : UInt8) : Bool :=
  (b == 0xF0 && (0x90 ≤ x && x ≤ 0xBF)) || ((0xF1 ≤ b && b ≤ 0xF3) && (0x80 ≤ x && x ≤ 0xBF)) ||
  (b == 0xF4 && (0x80 ≤ x && x ≤ 0x8F))

/-- One turn of the loop of `Utf8Chunks::next`, behind the first byte: how many more bytes are
inspected, and whether the loop goes on (`valid_up_to = i`) or breaks. -/
def chunkStep (b : UInt8) (rest : List UInt8) : Nat × Bool :=
  if b < 0x80 then (0, true)
  else match utf8CharWidth b with
  | 2 => if isCont (safeGet rest 0) then (1, true) else (0, false)
  | 3 =>
    if second3 b (safeGet rest 0) then
      if isCont (safeGet rest 1) then (2, true) else (1, false)
    else (0, false)
  | 4 =>
    if second4 b (safeGet rest 0) then
      if isCont (safeGet rest 1) then
        if isCont (safeGet rest 2) then (3, true) else (2, false)
      else (1, false)
    else (0, false)
  | _ => (0, false)

/-- `to_string_lossy` (src/hash.rs:123): valid bytes are kept, the inspected bytes of a broken turn
become U+FFFD (`"\u{FFFD}"`, the bytes EF BF BD).  Simplified: the chunks are not built; the
next chunk starts where the loop broke, with nothing remembered. -/
def toStringLossy : List UInt8 → List UInt8
  | [] => []
  | b :: rest =>
    (if (chunkStep b rest).2 then b :: rest.take (chunkStep b rest).1 else [0xEF, 0xBF, 0xBD]) ++
      toStringLossy (rest.drop (chunkStep b rest).1)
termination_by bs => bs.length
decreasing_by simp only [List.length_drop, List.length_cons]; omega

end Verif
