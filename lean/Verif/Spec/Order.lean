import Verif.Compare.Model

/-!
# What `Ord` promises

The contract that Rust documents for `Ord`, in terms of `partial_cmp` and `==`.
-/

set_option autoImplicit false

namespace Verif.Spec

variable {K : Type}

/-- A totally ordered key type. -/
structure TotalOrd (O : KeyType K) : Prop where
  total : ∀ a b, (O.partialCmp a b).isSome
  eq_iff : ∀ a b, O.eq a b = true ↔ O.partialCmp a b = some .eq
  dual : ∀ a b, O.partialCmp a b = some .lt ↔ O.partialCmp b a = some .gt
  lt_trans : ∀ a b c, O.partialCmp a b = some .lt → O.partialCmp b c = some .lt →
    O.partialCmp a c = some .lt
  eq_symm : ∀ a b, O.eq a b = true → O.eq b a = true
  eq_trans : ∀ a b c, O.eq a b = true → O.eq b c = true → O.eq a c = true

end Verif.Spec
