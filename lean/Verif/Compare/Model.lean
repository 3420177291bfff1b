import Verif.Hash.Model

/-!
# Model of the comparators (src/compare.rs, src/equals.rs)

The comparators are thin: they forward to the key type's `PartialOrd` and `PartialEq`.  The model
of a key type is therefore what those two traits provide.
-/

set_option autoImplicit false

namespace Verif

/-- A key type's `PartialOrd::partial_cmp` and `PartialEq::eq`.  `<` and `>` are the provided
methods of `PartialOrd` (core): `partial_cmp` is `Some(Less)`, `Some(Greater)`. -/
structure KeyType (K : Type) where
  partialCmp : K → K → Option Ordering
  eq : K → K → Bool

variable {K : Type}

/-- `Less::compare` (src/compare.rs:4-8, 33-58): `left < right`. -/
def lessCompare (O : KeyType K) (left right : K) : Bool := O.partialCmp left right == some .lt

/-- `Greater::compare` (src/compare.rs:12-31): `left > right`. -/
def greaterCompare (O : KeyType K) (left right : K) : Bool := O.partialCmp left right == some .gt

/-- `EqualTo::equals` (src/equals.rs:4-24): `lhs == rhs`. -/
def equalTo (O : KeyType K) (lhs rhs : K) : Bool := O.eq lhs rhs

/-- IEEE 754 comparison of two decoded numbers: nothing compares with not-a-number. -/
def FVal.partialCmp : FVal → FVal → Option Ordering
  | .nan, _ => none
  | _, .nan => none
  | .inf a, .inf b => some (if a = b then .eq else if a then .lt else .gt)
  | .inf a, .fin _ => some (if a then .lt else .gt)
  | .fin _, .inf b => some (if b then .gt else .lt)
  | .fin a, .fin b => some (compare a b)

/-- `f32` (`e = 8`, `m = 23`) and `f64` (`e = 11`, `m = 52`) as key types. -/
def floatKey (e m : Nat) : KeyType (BitVec (1 + e + m)) where
  partialCmp a b := (FVal.decode e m a).partialCmp (FVal.decode e m b)
  eq a b := (FVal.decode e m a).eq (FVal.decode e m b)

end Verif
