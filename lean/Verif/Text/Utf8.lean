import Verif.Text.Proofs

/-! Which single-byte changes keep text well-formed UTF-8. -/

set_option autoImplicit false

namespace Verif
open Spec

/-- How many continuation bytes a byte announces; a continuation byte counts -1. -/
def byteWeight (b : UInt8) : Int :=
  if b.toNat < 128 then 0 else if b.toNat < 192 then -1 else if b.toNat < 224 then 1
  else if b.toNat < 240 then 2 else 3

def bytesWeight (bs : List UInt8) : Int := (bs.map byteWeight).sum

theorem bytesWeight_append (a b : List UInt8) :
    bytesWeight (a ++ b) = bytesWeight a + bytesWeight b := by
  simp [bytesWeight]

theorem byteWeight_eq_zero {b : UInt8} : byteWeight b = 0 ↔ b.toNat < 128 := by
  unfold byteWeight
  split_ifs <;> simp_all

theorem byteWeight_ofNat {n : Nat} (h : n < 256) : byteWeight (UInt8.ofNat n) =
    if n < 128 then 0 else if n < 192 then -1 else if n < 224 then 1
    else if n < 240 then 2 else 3 := by
  simp only [byteWeight, UInt8.toNat_ofNat', Nat.mod_eq_of_lt h]

theorem byteWeight_cont (v : Nat) : byteWeight (UInt8.ofNat (v % 64 + 128)) = -1 := by
  rw [byteWeight_ofNat (by omega), if_neg (by omega), if_pos (by omega)]

theorem byteWeight_two (v : Nat) : byteWeight (UInt8.ofNat (v % 32 + 192)) = 1 := by
  rw [byteWeight_ofNat (by omega), if_neg (by omega), if_neg (by omega), if_pos (by omega)]

theorem byteWeight_three (v : Nat) : byteWeight (UInt8.ofNat (v % 16 + 224)) = 2 := by
  rw [byteWeight_ofNat (by omega), if_neg (by omega), if_neg (by omega), if_neg (by omega),
    if_pos (by omega)]

theorem byteWeight_four (v : Nat) : byteWeight (UInt8.ofNat (v % 8 + 240)) = 3 := by
  rw [byteWeight_ofNat (by omega), if_neg (by omega), if_neg (by omega), if_neg (by omega),
    if_neg (by omega)]

theorem le_of_byteWeight {b : UInt8} (h : byteWeight b ≠ 0) : 128 ≤ b.toNat := by
  have := mt byteWeight_eq_zero.2 h
  omega

/-- The shape of an encoded character: one ASCII byte, or bytes from 128 on that balance. -/
theorem encode_shape (c : Char) :
    (∃ b, String.utf8EncodeChar c = [b] ∧ b.toNat < 128) ∨
      ((∀ b ∈ String.utf8EncodeChar c, 128 ≤ b.toNat) ∧
        bytesWeight (String.utf8EncodeChar c) = 0) := by
  unfold String.utf8EncodeChar
  simp only
  generalize c.val.toNat = v
  have w1 := byteWeight_cont v
  have w2 := byteWeight_cont (v / 64)
  have w3 := byteWeight_cont (v / 4096)
  have w4 := byteWeight_two (v / 64)
  have w5 := byteWeight_three (v / 4096)
  have w6 := byteWeight_four (v / 262144)
  split_ifs with h1 h2 h3
  · exact .inl ⟨_, rfl, by rw [UInt8.toNat_ofNat']; omega⟩
  · right
    constructor
    · intro b hb
      simp only [List.mem_cons, List.not_mem_nil, or_false] at hb
      rcases hb with rfl | rfl <;> (apply le_of_byteWeight; omega)
    · simp only [bytesWeight, List.map_cons, List.map_nil, w1, w4, List.sum_cons, List.sum_nil]
      omega
  · right
    constructor
    · intro b hb
      simp only [List.mem_cons, List.not_mem_nil, or_false] at hb
      rcases hb with rfl | rfl | rfl <;> (apply le_of_byteWeight; omega)
    · simp only [bytesWeight, List.map_cons, List.map_nil, w1, w2, w5, List.sum_cons,
        List.sum_nil]
      omega
  · right
    constructor
    · intro b hb
      simp only [List.mem_cons, List.not_mem_nil, or_false] at hb
      rcases hb with rfl | rfl | rfl | rfl <;> (apply le_of_byteWeight; omega)
    · simp only [bytesWeight, List.map_cons, List.map_nil, w1, w2, w3, w6, List.sum_cons,
        List.sum_nil]
      omega

theorem Spec.WellFormed.weight {bs : List UInt8} (h : WellFormed bs) : bytesWeight bs = 0 := by
  obtain ⟨cs, rfl⟩ := h
  induction cs with
  | nil => rfl
  | cons c cs ih =>
    rw [utf8, List.flatMap_cons, bytesWeight_append]
    have : bytesWeight (String.utf8EncodeChar c) = 0 := by
      rcases encode_shape c with ⟨b, h1, h2⟩ | ⟨_, h⟩
      · rw [h1]; simp [bytesWeight, byteWeight_eq_zero.2 h2]
      · exact h
    rw [this, Int.zero_add]
    exact ih

theorem Spec.WellFormed.join {a b : List UInt8} (ha : WellFormed a) (hb : WellFormed b) :
    WellFormed (a ++ b) := by
  obtain ⟨x, rfl⟩ := ha
  obtain ⟨y, rfl⟩ := hb
  exact ⟨x ++ y, by simp [utf8]⟩

theorem wellFormed_ascii {b : UInt8} (h : b.toNat < 128) : WellFormed [b] := by
  refine ⟨[Char.ofNat b.toNat], ?_⟩
  have hc : (Char.ofNat b.toNat).toNat = b.toNat := by
    unfold Char.ofNat
    rw [dif_pos (.inl (by omega))]
    rfl
  have ha : IsAscii (Char.ofNat b.toNat) := by unfold IsAscii; rw [hc]; exact h
  simp only [utf8, List.flatMap_cons, List.flatMap_nil, List.append_nil, utf8EncodeChar_ascii ha]
  congr 1
  rw [← UInt8.toNat_inj, charToByte_toNat ha, hc]

/-- An ASCII byte of well-formed text is a character of its own. -/
theorem Spec.WellFormed.split {bs : List UInt8} (h : WellFormed bs) {i : Nat} {b : UInt8}
    (hi : bs[i]? = some b) (hb : b.toNat < 128) :
    WellFormed (bs.take i) ∧ WellFormed (bs.drop (i + 1)) := by
  obtain ⟨cs, rfl⟩ := h
  induction cs generalizing i with
  | nil => simp [utf8] at hi
  | cons c cs ih =>
    have hu : utf8 (c :: cs) = String.utf8EncodeChar c ++ utf8 cs := by
      simp [utf8]
    rw [hu] at hi ⊢
    by_cases hlt : i < (String.utf8EncodeChar c).length
    · rw [List.getElem?_append_left hlt] at hi
      rcases encode_shape c with ⟨b', h1, h2⟩ | ⟨h1, _⟩
      · rw [h1] at hlt ⊢
        have : i = 0 := by simpa using hlt
        subst this
        exact ⟨⟨[], rfl⟩, ⟨cs, by simp⟩⟩
      · have := h1 b (List.mem_of_getElem? hi)
        omega
    · rw [List.getElem?_append_right (by omega)] at hi
      obtain ⟨g1, g2⟩ := ih hi
      rw [List.take_append, List.drop_append, List.take_of_length_le (by omega),
        List.drop_eq_nil_of_le (by omega), List.nil_append,
        show i + 1 - (String.utf8EncodeChar c).length = i - (String.utf8EncodeChar c).length + 1 by omega]
      exact ⟨Spec.WellFormed.join ⟨[c], by simp [utf8]⟩ g1, g2⟩

end Verif
