import Mathlib.Data.List.Basic

/-!
# Keys that share a bucket
-/

set_option autoImplicit false

namespace Verif.Spec

variable {K : Type}

/-- How many of `keys` go into bucket `i` of `n`. -/
def inBucket (hash : K → Nat) (n i : Nat) (keys : List K) : Nat :=
  keys.countP fun k => hash k % n = i

/-- The number of keys in the fullest of `n` buckets. -/
def fullest (hash : K → Nat) (n : Nat) (keys : List K) : Nat :=
  ((List.range n).map fun i => inBucket hash n i keys).foldr max 0

end Verif.Spec
