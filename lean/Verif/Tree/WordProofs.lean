import Verif.Tree.Word

/-! Lemmas about the word holding parent and colour. -/

set_option autoImplicit false

namespace Verif

theorem one_bit (i : Nat) : (1 : BitVec 64).getLsbD i = decide (i = 0) := by
  show (1#64).getLsbD i = _
  rw [BitVec.getLsbD_one]
  simp

theorem word_bit (c : Color) (i : Nat) : c.word.getLsbD i = (decide (i = 0) && decide (c = .black)) := by
  cases c
  · show (0#64).getLsbD i = _; simp
  · show (1 : BitVec 64).getLsbD i = _; rw [one_bit]; simp

namespace PWord

/-- The low bit is the colour. -/
theorem color_eq (w : PWord) :
    w.color = some (if w.getLsbD 0 then .black else .red) := by
  unfold color Color.ofU32
  cases h : w.getLsbD 0 with
  | false =>
    have : w &&& 1 = 0 := by
      apply BitVec.eq_of_getLsbD_eq
      intro i hi
      rw [BitVec.getLsbD_and, one_bit]
      by_cases h0 : i = 0
      · subst h0; rw [h]; rfl
      · simp [h0]
    rw [this]; rfl
  | true =>
    have : w &&& 1 = 1 := by
      apply BitVec.eq_of_getLsbD_eq
      intro i hi
      rw [BitVec.getLsbD_and, one_bit]
      by_cases h0 : i = 0
      · subst h0; simp [h]
      · simp [h0]
    rw [this]; rfl

theorem ptr_bit (w : PWord) {i : Nat} (hi : i < 64) :
    w.ptr.getLsbD i = (w.getLsbD i && !decide (i = 0)) := by
  unfold ptr
  rw [BitVec.getLsbD_and, BitVec.getLsbD_not, one_bit]
  simp [hi]

theorem ptr_setColor (w : PWord) (c : Color) : (w.setColor c).ptr = w.ptr := by
  apply BitVec.eq_of_getLsbD_eq
  intro i hi
  rw [ptr_bit _ hi, ptr_bit _ hi]
  unfold setColor
  rw [BitVec.getLsbD_or, BitVec.getLsbD_and, BitVec.getLsbD_not, one_bit, word_bit]
  by_cases h0 : i = 0 <;> simp [h0, hi]

theorem color_setColor (w : PWord) (c : Color) : (w.setColor c).color = some c := by
  rw [color_eq]
  unfold setColor
  rw [BitVec.getLsbD_or, BitVec.getLsbD_and, BitVec.getLsbD_not, one_bit, word_bit]
  cases c <;> simp

theorem ptr_setPtr (w : PWord) {p : BitVec 64} (hp : p.getLsbD 0 = false) :
    (w.setPtr p).ptr = p := by
  apply BitVec.eq_of_getLsbD_eq
  intro i hi
  rw [ptr_bit _ hi]
  unfold setPtr
  rw [BitVec.getLsbD_or, BitVec.getLsbD_and, one_bit]
  by_cases h0 : i = 0
  · subst h0; rw [hp]; simp
  · simp [h0]

theorem color_setPtr (w : PWord) {p : BitVec 64} (hp : p.getLsbD 0 = false) :
    (w.setPtr p).color = w.color := by
  rw [color_eq, color_eq]
  unfold setPtr
  rw [BitVec.getLsbD_or, BitVec.getLsbD_and, one_bit, hp]
  simp

theorem even_bit {p : BitVec 64} (hp : p.toNat % 2 = 0) : p.getLsbD 0 = false := by
  simp [BitVec.getLsbD, Nat.testBit_zero, hp]

end PWord

end Verif
