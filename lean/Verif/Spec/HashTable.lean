import Verif.Spec.FiniteMap

/-!
# What a hash map does with the keys and values it is given

The results of calls are those of a finite map (`FiniteMap.lean`).  This file says who drops what,
and how large a map gets.
-/

set_option autoImplicit false

namespace Verif.Spec

variable {K V : Type}

/-- The keys and values of a map. -/
def contents (s : List (K × V)) : List (K ⊕ V) := s.flatMap fun p => [.inl p.1, .inr p.2]

/-- What a call moves into the map's care, closures included: `f x` is made by the closure. -/
def MapOp.taken (eq : K → K → Bool) : MapOp K V → List (K × V) → List (K ⊕ V)
  | .insert k v, _ => [.inl k, .inr v]
  | .modify k f, s => match lookup eq s k with
    | some p => [.inr (f p.2)]
    | none => []
  | .entry k f v, s => match lookup eq s k with
    | some p => [.inl k, .inr v, .inr (f p.2)]
    | none => [.inl k, .inr v]
  | .entryKey k, _ => [.inl k]
  | _, _ => []

/-- What a call moves out of the map's care: to the caller, or to the closure that replaces it. -/
def MapOp.given (eq : K → K → Bool) : MapOp K V → List (K × V) → List (K ⊕ V)
  | .insert k _, s | .remove k, s | .modify k _, s | .entry k _ _, s =>
    match lookup eq s k with
    | some p => [.inr p.2]
    | none => []
  | .removeEntry k, s => match lookup eq s k with
    | some p => [.inl p.1, .inr p.2]
    | none => []
  | _, _ => []

/-- What a call drops: the second copy of a key, a default not needed, a key removed without
being asked for, and everything at `clear`. -/
def MapOp.drops (eq : K → K → Bool) : MapOp K V → List (K × V) → List (K ⊕ V)
  | .insert k _, s => if (lookup eq s k).isSome then [.inl k] else []
  | .remove k, s => match lookup eq s k with
    | some p => [.inl p.1]
    | none => []
  | .entry k _ v, s => if (lookup eq s k).isSome then [.inl k, .inr v] else []
  | .entryKey k, _ => [.inl k]
  | .clear, s => contents s
  | _, _ => []

/-- Everything a history moves in. -/
def MapOp.allTaken (eq : K → K → Bool) : List (MapOp K V) → List (K × V) → List (K ⊕ V)
  | [], _ => []
  | op :: ops, s => op.taken eq s ++ MapOp.allTaken eq ops (op.step eq s).2

/-- Everything a history moves out. -/
def MapOp.allGiven (eq : K → K → Bool) : List (MapOp K V) → List (K × V) → List (K ⊕ V)
  | [], _ => []
  | op :: ops, s => op.given eq s ++ MapOp.allGiven eq ops (op.step eq s).2

/-- Everything a history drops. -/
def MapOp.allDrops (eq : K → K → Bool) : List (MapOp K V) → List (K × V) → List (K ⊕ V)
  | [], _ => []
  | op :: ops, s => op.drops eq s ++ MapOp.allDrops eq ops (op.step eq s).2

/-- The largest number of entries during a history. -/
def MapOp.peak (eq : K → K → Bool) : List (MapOp K V) → List (K × V) → Nat
  | [], s => s.length
  | op :: ops, s => max s.length (MapOp.peak eq ops (op.step eq s).2)

end Verif.Spec
