import Verif.Layout.Model
import Mathlib.Tactic.Ring
import Mathlib.Tactic.Linarith
import Mathlib.Data.Nat.Log

set_option autoImplicit false

namespace Verif.Spec

theorem alignUp_dvd (x a : Nat) : a ∣ alignUp x a := ⟨(x + (a - 1)) / a, Nat.mul_comm _ _⟩

theorem le_alignUp {x a : Nat} (ha : 0 < a) : x ≤ alignUp x a := by
  unfold alignUp
  have := Nat.div_add_mod (x + (a - 1)) a
  have hm := Nat.mod_lt (x + (a - 1)) ha
  have hc := Nat.mul_comm ((x + (a - 1)) / a) a
  omega

theorem alignUp_le {x a y : Nat} (ha : 0 < a) (hd : a ∣ y) (hx : x ≤ y) : alignUp x a ≤ y := by
  obtain ⟨k, rfl⟩ := hd
  unfold alignUp
  have : (x + (a - 1)) / a ≤ k := by
    have : (x + (a - 1)) / a < k + 1 := by
      rw [Nat.div_lt_iff_lt_mul ha]
      have : (k + 1) * a = a * k + a := by ring
      omega
    omega
  calc (x + (a - 1)) / a * a ≤ k * a := Nat.mul_le_mul_right a this
    _ = a * k := Nat.mul_comm _ _

theorem alignUp_eq {x a : Nat} (ha : 0 < a) (hd : a ∣ x) : alignUp x a = x :=
  Nat.le_antisymm (alignUp_le ha hd (Nat.le_refl _)) (le_alignUp ha)

/-- Rounding up to a divisor first changes nothing. -/
theorem alignUp_alignUp {x a b : Nat} (ha : 0 < a) (hb : 0 < b) (hab : a ∣ b) :
    alignUp (alignUp x a) b = alignUp x b := by
  apply Nat.le_antisymm
  · exact alignUp_le hb (alignUp_dvd x b)
      (alignUp_le ha (hab.trans (alignUp_dvd x b)) (le_alignUp hb))
  · exact alignUp_le hb (alignUp_dvd _ b) ((le_alignUp ha).trans (le_alignUp hb))

theorem pow2_dvd {a b : Nat} (ha : ∃ k, a = 2 ^ k) (hb : ∃ k, b = 2 ^ k) (h : a ≤ b) : a ∣ b := by
  obtain ⟨i, rfl⟩ := ha
  obtain ⟨j, rfl⟩ := hb
  exact Nat.pow_dvd_pow 2 ((Nat.pow_le_pow_iff_right (by decide)).1 h)

theorem pow2_max {a b : Nat} (ha : ∃ k, a = 2 ^ k) (hb : ∃ k, b = 2 ^ k) : ∃ k, max a b = 2 ^ k := by
  rcases Nat.le_total a b with h | h
  · rw [max_eq_right h]; exact hb
  · rw [max_eq_left h]; exact ha

theorem Lay.Valid.pos {l : Lay} (h : l.Valid) : 0 < l.align := by
  obtain ⟨⟨k, e⟩, _⟩ := h
  rw [e]; exact Nat.two_pow_pos k

theorem maxAlign_pair {K V : Lay} (hV : 0 < V.align) : maxAlign [K, V] = max K.align V.align := by
  simp only [maxAlign, List.map_cons, List.map_nil, List.foldr_cons, List.foldr_nil]
  omega

theorem maxAlign_three {K V : Lay} : maxAlign [K, V, ptrLay] = max K.align (max V.align 8) := by
  simp only [maxAlign, List.map_cons, List.map_nil, List.foldr_cons, List.foldr_nil, ptrLay]
  omega

@[simp] theorem alignUp_zero (a : Nat) : alignUp 0 a = 0 := by
  unfold alignUp
  rcases Nat.eq_zero_or_pos a with rfl | h
  · simp
  · rw [Nat.zero_add, Nat.div_eq_of_lt (by omega), Nat.zero_mul]

end Verif.Spec
