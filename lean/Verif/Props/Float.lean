import Verif.Spec.Float
import Verif.Compare.Model
import Mathlib.Tactic.FieldSimp
import Mathlib.Tactic.Ring
import Mathlib.Tactic.Linarith
import Mathlib.Tactic.Positivity

/-!
# Floating-point keys and hashes (C77, C81)
-/

set_option autoImplicit false

namespace Verif

open Spec

theorem msb_iff {e m : Nat} (b : BitVec (1 + e + m)) : b.msb = true ↔ 2 ^ (e + m) ≤ b.toNat := by
  rw [BitVec.msb_eq_decide, decide_eq_true_eq]
  have : 1 + e + m - 1 = e + m := by omega
  rw [this]

theorem decode_nan {e m : Nat} {b : BitVec (1 + e + m)} (h : isNaN e m b) :
    FVal.decode e m b = .nan := by
  obtain ⟨h1, h2⟩ := h
  unfold exponent at h1
  unfold mantissa at h2
  simp [FVal.decode, h1, h2]

theorem decode_inf {e m : Nat} {b : BitVec (1 + e + m)} (h : isInf e m b) :
    FVal.decode e m b = .inf b.msb := by
  obtain ⟨h1, h2⟩ := h
  unfold exponent at h1
  unfold mantissa at h2
  simp [FVal.decode, h1, h2]

theorem fracBits_eq {e : Nat} (he : 2 ≤ e) (m : Nat) :
    ((fracBits e m : Nat) : Int) = bias e - 1 + m := by
  unfold fracBits bias
  have h : 2 ≤ 2 ^ (e - 1) := by
    obtain ⟨k, rfl⟩ : ∃ k, e = k + 2 := ⟨e - 2, by omega⟩
    have : k + 2 - 1 = k + 1 := by omega
    rw [this, Nat.pow_succ]
    have := Nat.pow_pos (n := k) (show 0 < 2 by omega)
    omega
  push_cast [h]
  omega

theorem sign_eq {e m : Nat} (b : BitVec (1 + e + m)) :
    (b.msb = true ∧ sign e m b = -1) ∨ (b.msb = false ∧ sign e m b = 1) := by
  unfold sign
  by_cases h : 2 ^ (e + m) ≤ b.toNat
  · exact .inl ⟨(msb_iff b).2 h, if_pos h⟩
  · exact .inr ⟨Bool.eq_false_iff.2 fun hh => h ((msb_iff b).1 hh), if_neg h⟩

/-- A finite bit pattern decodes to its value, in units of the smallest positive number. -/
theorem decode_fin {e m : Nat} (he : 2 ≤ e) {b : BitVec (1 + e + m)} (h : isFinite e m b) :
    ∃ v : Int, FVal.decode e m b = .fin v ∧ (v : ℚ) = value e m b * 2 ^ fracBits e m := by
  unfold isFinite exponent at h
  refine ⟨if b.msb = true then
      -(if b.toNat / 2 ^ m % 2 ^ e = 0 then (b.toNat % 2 ^ m : Nat) else
        (2 ^ m + (b.toNat % 2 ^ m : Nat)) * 2 ^ (b.toNat / 2 ^ m % 2 ^ e - 1) : Int)
    else (if b.toNat / 2 ^ m % 2 ^ e = 0 then (b.toNat % 2 ^ m : Nat) else
        (2 ^ m + (b.toNat % 2 ^ m : Nat)) * 2 ^ (b.toNat / 2 ^ m % 2 ^ e - 1)),
    by simp only [FVal.decode, if_neg h], ?_⟩
  have hz : (2 : ℚ) ^ fracBits e m = 2 ^ (bias e - 1 + m) := by
    rw [← fracBits_eq he m, zpow_natCast]
  rw [hz]
  have h2 : (2 : ℚ) ≠ 0 := by norm_num
  have hm : (2 : ℚ) ^ m ≠ 0 := by positivity
  have habs : (((if b.toNat / 2 ^ m % 2 ^ e = 0 then (b.toNat % 2 ^ m : Nat) else
        (2 ^ m + (b.toNat % 2 ^ m : Nat)) * 2 ^ (b.toNat / 2 ^ m % 2 ^ e - 1) : Int)) : ℚ) =
      (if exponent e m b = 0 then (mantissa e m b / 2 ^ m : ℚ) * 2 ^ (1 - bias e)
     else (1 + mantissa e m b / 2 ^ m : ℚ) * 2 ^ (exponent e m b - bias e)) *
      2 ^ (bias e - 1 + m) := by
    unfold exponent mantissa
    by_cases h0 : b.toNat / 2 ^ m % 2 ^ e = 0
    · rw [if_pos h0, if_pos h0, mul_assoc, ← zpow_add₀ h2]
      have : 1 - bias e + (bias e - 1 + (m : Int)) = m := by omega
      rw [this, zpow_natCast]
      field_simp
      push_cast
      rfl
    · rw [if_neg h0, if_neg h0, mul_assoc, ← zpow_add₀ h2]
      generalize b.toNat / 2 ^ m % 2 ^ e = x at h0 ⊢
      generalize b.toNat % 2 ^ m = y
      have : (x : Int) - bias e + (bias e - 1 + (m : Int)) = (m : Int) + ((x - 1 : Nat) : Int) := by
        omega
      rw [this, zpow_add₀ h2, zpow_natCast, zpow_natCast]
      push_cast
      field_simp
  unfold value sign
  rw [mul_assoc, ← habs]
  by_cases hs : b.msb = true
  · rw [if_pos hs, if_pos ((msb_iff b).1 hs)]
    push_cast
    ring
  · rw [if_neg hs, if_neg (fun hh => hs ((msb_iff b).2 hh))]
    push_cast
    ring

/-- C81.  Keys that are numbers are ordered and compared by their values: the two zeroes are one
key, negative infinity comes first and positive infinity last. -/
theorem C81_order_of_values {e m : Nat} (he : 2 ≤ e) (a b : BitVec (1 + e + m)) :
    (isFinite e m a → isFinite e m b →
      (lessCompare (floatKey e m) a b = true ↔ value e m a < value e m b) ∧
      (greaterCompare (floatKey e m) a b = true ↔ value e m b < value e m a) ∧
      (equalTo (floatKey e m) a b = true ↔ value e m a = value e m b)) ∧
    (isInf e m a → isFinite e m b →
      (lessCompare (floatKey e m) a b = true ↔ sign e m a = -1) ∧
      (greaterCompare (floatKey e m) a b = true ↔ sign e m a = 1) ∧
      equalTo (floatKey e m) a b = false) ∧
    (isFinite e m a → isInf e m b →
      (lessCompare (floatKey e m) a b = true ↔ sign e m b = 1) ∧
      (greaterCompare (floatKey e m) a b = true ↔ sign e m b = -1) ∧
      equalTo (floatKey e m) a b = false) ∧
    (isInf e m a → isInf e m b →
      (lessCompare (floatKey e m) a b = true ↔ sign e m a < sign e m b) ∧
      (greaterCompare (floatKey e m) a b = true ↔ sign e m b < sign e m a) ∧
      (equalTo (floatKey e m) a b = true ↔ sign e m a = sign e m b)) := by
  have hp : (0 : ℚ) < 2 ^ fracBits e m := by positivity
  refine ⟨?_, ?_, ?_, ?_⟩
  · intro ha hb
    obtain ⟨v, hv, ev⟩ := decode_fin he ha
    obtain ⟨w, hw, ew⟩ := decode_fin he hb
    have hlt : ∀ x y : Int, x < y ↔ (x : ℚ) < y := fun x y => Int.cast_lt.symm
    have heq : ∀ x y : Int, x = y ↔ (x : ℚ) = y := fun x y => Int.cast_inj.symm
    refine ⟨?_, ?_, ?_⟩
    · simp only [lessCompare, floatKey, hv, hw, FVal.partialCmp, beq_iff_eq, Option.some.injEq]
      rw [Int.compare_eq_lt, hlt, ev, ew, mul_lt_mul_iff_left₀ hp]
    · simp only [greaterCompare, floatKey, hv, hw, FVal.partialCmp, beq_iff_eq, Option.some.injEq]
      rw [Int.compare_eq_gt, hlt, ev, ew, mul_lt_mul_iff_left₀ hp]
    · simp only [equalTo, floatKey, hv, hw, FVal.eq, beq_iff_eq]
      rw [heq, ev, ew, mul_left_inj' (ne_of_gt hp)]
  · intro ha hb
    obtain ⟨w, hw, ew⟩ := decode_fin he hb
    have hv := decode_inf ha
    rcases sign_eq a with ⟨h, hs⟩ | ⟨h, hs⟩ <;>
      simp [lessCompare, greaterCompare, equalTo, floatKey, hv, hw, FVal.partialCmp, FVal.eq, h, hs]
    all_goals norm_num
  · intro ha hb
    obtain ⟨w, hw, ew⟩ := decode_fin he ha
    have hv := decode_inf hb
    rcases sign_eq b with ⟨h, hs⟩ | ⟨h, hs⟩ <;>
      simp [lessCompare, greaterCompare, equalTo, floatKey, hv, hw, FVal.partialCmp, FVal.eq, h, hs]
    all_goals norm_num
  · intro ha hb
    have hv := decode_inf ha
    have hw := decode_inf hb
    rcases sign_eq a with ⟨h, hs⟩ | ⟨h, hs⟩ <;> rcases sign_eq b with ⟨h', hs'⟩ | ⟨h', hs'⟩ <;>
      simp [lessCompare, greaterCompare, equalTo, floatKey, hv, hw, FVal.partialCmp, FVal.eq, h, h',
        hs, hs']
    all_goals norm_num

/-- C81.  NaN is not less than, greater than or equal to anything, itself included. -/
theorem C81_nan_unordered {e m : Nat} (a b : BitVec (1 + e + m)) (h : isNaN e m a ∨ isNaN e m b) :
    (floatKey e m).partialCmp a b = none ∧ lessCompare (floatKey e m) a b = false ∧
      greaterCompare (floatKey e m) a b = false ∧ equalTo (floatKey e m) a b = false := by
  have hc : (floatKey e m).partialCmp a b = none ∧ equalTo (floatKey e m) a b = false := by
    show (FVal.decode e m a).partialCmp (FVal.decode e m b) = none ∧
      (FVal.decode e m a).eq (FVal.decode e m b) = false
    rcases h with h | h
    · rw [decode_nan h]
      exact ⟨rfl, rfl⟩
    · rw [decode_nan h]
      cases FVal.decode e m a <;> exact ⟨rfl, rfl⟩
  simp [lessCompare, greaterCompare, hc.1, hc.2]

/-- C77.  The hash of a finite number is its integer part, zero for negative numbers, and the
largest 64-bit number when the integer part does not fit. -/
theorem C77_float_hash_is_floor {e m : Nat} (he : 2 ≤ e) (a : BitVec (1 + e + m)) :
    (isFinite e m a → hashFloat e m a = min (2 ^ 64 - 1) ⌊value e m a⌋.toNat) ∧
    (isInf e m a → hashFloat e m a = if sign e m a = 1 then 2 ^ 64 - 1 else 0) ∧
    (isNaN e m a → hashFloat e m a = 0) := by
  refine ⟨?_, ?_, ?_⟩
  · intro h
    obtain ⟨v, hv, ev⟩ := decode_fin he h
    have hval : value e m a = (v : ℚ) / ((2 ^ fracBits e m : Nat) : ℚ) := by
      rw [ev]
      push_cast
      field_simp
    unfold hashFloat
    rw [hv, hval, Rat.floor_intCast_div_natCast]
    cases v with
    | ofNat n => simp; norm_cast
    | negSucc n =>
      simp only [Int.toNat_negSucc, Nat.zero_div]
      have : Int.negSucc n / ((2 ^ fracBits e m : Nat) : Int) < 0 :=
        Int.ediv_neg_of_neg_of_pos (Int.negSucc_lt_zero n)
          (by exact_mod_cast Nat.pow_pos (n := fracBits e m) (show 0 < 2 by omega))
      omega
  · intro h
    unfold hashFloat
    rw [decode_inf h]
    rcases sign_eq a with ⟨h, hs⟩ | ⟨h, hs⟩ <;> simp only [h, hs] <;> norm_num
  · intro h
    unfold hashFloat
    rw [decode_nan h]

/-- Bit patterns of each kind (`f32`): 1.5 and −0, infinity, NaN. -/
example : isFinite 8 23 0x3FC00000 ∧ value 8 23 0x3FC00000 = 3 / 2 ∧
    isFinite 8 23 0x80000000 ∧ value 8 23 0x80000000 = 0 ∧
    isInf 8 23 0xFF800000 ∧ sign 8 23 0xFF800000 = -1 ∧ isNaN 8 23 0x7FC00000 := by
  have h1 : BitVec.toNat (0x3FC00000 : BitVec (1 + 8 + 23)) = 0x3FC00000 := rfl
  have h2 : BitVec.toNat (0x80000000 : BitVec (1 + 8 + 23)) = 0x80000000 := rfl
  have h3 : BitVec.toNat (0xFF800000 : BitVec (1 + 8 + 23)) = 0xFF800000 := rfl
  have h4 : BitVec.toNat (0x7FC00000 : BitVec (1 + 8 + 23)) = 0x7FC00000 := rfl
  refine ⟨?_, ?_, ?_, ?_, ?_, ?_, ?_⟩ <;>
    norm_num [h1, h2, h3, h4, isFinite, isInf, isNaN, value, sign, exponent, mantissa, bias]

end Verif
