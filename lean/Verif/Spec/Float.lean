import Mathlib.Algebra.Order.Field.Power
import Mathlib.Data.Rat.Floor

/-!
# What the bits of a floating-point number mean

IEEE 754 binary interchange format with `e` exponent and `m` mantissa bits; `f32` is `e = 8`,
`m = 23`, `f64` is `e = 11`, `m = 52`.  Written from the standard, independent of the model.
-/

set_option autoImplicit false

namespace Verif.Spec

variable (e m : Nat) (b : BitVec (1 + e + m))

/-- Mantissa field: the low `m` bits. -/
def mantissa : Nat := b.toNat % 2 ^ m

/-- Exponent field: the next `e` bits. -/
def exponent : Nat := b.toNat / 2 ^ m % 2 ^ e

/-- Sign: minus one if the top bit is set. -/
def sign : ℚ := if 2 ^ (e + m) ≤ b.toNat then -1 else 1

/-- Not infinite and not NaN. -/
def isFinite : Prop := exponent e m b ≠ 2 ^ e - 1

/-- Not-a-number: all exponent bits set, mantissa not zero. -/
def isNaN : Prop := exponent e m b = 2 ^ e - 1 ∧ mantissa e m b ≠ 0

/-- Infinity: all exponent bits set, mantissa zero. -/
def isInf : Prop := exponent e m b = 2 ^ e - 1 ∧ mantissa e m b = 0

/-- The exponent bias. -/
def bias : Int := 2 ^ (e - 1) - 1

/-- The number a finite bit pattern stands for. -/
def value : ℚ :=
  sign e m b *
    (if exponent e m b = 0 then (mantissa e m b / 2 ^ m : ℚ) * 2 ^ (1 - bias e)
     else (1 + mantissa e m b / 2 ^ m : ℚ) * 2 ^ (exponent e m b - bias e))

end Verif.Spec
