import Verif.Spec.FiniteMap

/-!
# Which keys a hash map hashes and compares
-/

set_option autoImplicit false

namespace Verif.Spec

variable {K V : Type}

/-- A call of the hash function, or of the equality with a stored key on the left. -/
inductive KeyCall (K : Type) where
  | hashed (k : K)
  | compared (stored asked : K)
  deriving DecidableEq, Repr

/-- The keys of `l` up to the first that is equal to `k`, that one included. -/
def searched (eq : K → K → Bool) (k : K) : List K → List K
  | [] => []
  | x :: l => if eq x k then [x] else x :: searched eq k l

/-- The key a call asks for. -/
def MapOp.asked : MapOp K V → Option K
  | .insert k _ | .remove k | .removeEntry k | .get k | .modify k _ | .contains k
  | .entry k _ _ | .entryKey k => some k
  | .len | .isEmpty | .clear => none

/-- What a call should ask of keys, for a map with keys `ks` in `n` buckets: hash the key asked for,
compare it with the keys of its bucket until one is equal.  If the map `grows`, hash every key it
has, and the new one again. -/
def MapOp.keyCalls (hash : K → Nat) (eq : K → K → Bool) (op : MapOp K V) (ks : List K) (n : Nat)
    (grows : Bool) : List (KeyCall K) :=
  match op.asked with
  | none => []
  | some k =>
    .hashed k :: (searched eq k (ks.filter fun x => hash x % n = hash k % n)).map (.compared · k) ++
      if grows then ks.map .hashed ++ [.hashed k] else []

end Verif.Spec
