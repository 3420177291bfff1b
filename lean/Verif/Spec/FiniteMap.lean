/-!
# What a finite map is

A map is a list of pairs, in no particular order, no two of which have equal keys.  `eq` is
the equality of keys.
-/

set_option autoImplicit false

namespace Verif.Spec

variable {K V : Type}

/-- The binding of `k`. -/
def lookup (eq : K → K → Bool) (s : List (K × V)) (k : K) : Option (K × V) :=
  s.find? fun p => eq p.1 k

/-- `s` with the value of `k` changed to `v`. -/
def setVal (eq : K → K → Bool) (k : K) (v : V) (s : List (K × V)) : List (K × V) :=
  s.map fun p => if eq p.1 k then (p.1, v) else p

/-- `s` without `k`. -/
def eraseKey (eq : K → K → Bool) (k : K) (s : List (K × V)) : List (K × V) :=
  s.filter fun p => !eq p.1 k

/-- Calls on a map. -/
inductive MapOp (K V : Type) where
  | insert (k : K) (v : V)
  | remove (k : K)
  | removeEntry (k : K)
  | get (k : K)
  /-- `get_mut`, then replacing the value `x` found by `f x` -/
  | modify (k : K) (f : V → V)
  | contains (k : K)
  /-- `entry(k)`: if occupied replace its value `x` by `f x`, if vacant insert `v`; returns the
  value then present -/
  | entry (k : K) (f : V → V) (v : V)
  /-- `entry(k).key()`, the entry being dropped -/
  | entryKey (k : K)
  | len
  | isEmpty
  | clear

/-- What a call returns. -/
inductive MapOut (K V : Type) where
  | unit
  | val (v : Option V)
  | pair (p : Option (K × V))
  | key (k : K)
  | bool (b : Bool)
  | nat (n : Nat)
  deriving DecidableEq, Repr

/-- One call. -/
def MapOp.step (eq : K → K → Bool) : MapOp K V → List (K × V) → MapOut K V × List (K × V)
  | .insert k v, s =>
    match lookup eq s k with
    | some p => (.val (some p.2), setVal eq k v s)
    | none => (.val none, (k, v) :: s)
  | .remove k, s => (.val ((lookup eq s k).map Prod.snd), eraseKey eq k s)
  | .removeEntry k, s => (.pair (lookup eq s k), eraseKey eq k s)
  | .get k, s => (.val ((lookup eq s k).map Prod.snd), s)
  | .modify k f, s =>
    match lookup eq s k with
    | some p => (.val (some p.2), setVal eq k (f p.2) s)
    | none => (.val none, s)
  | .contains k, s => (.bool (lookup eq s k).isSome, s)
  | .entry k f v, s =>
    match lookup eq s k with
    | some p => (.val (some (f p.2)), setVal eq k (f p.2) s)
    | none => (.val (some v), (k, v) :: s)
  | .entryKey k, s =>
    match lookup eq s k with
    | some p => (.key p.1, s)
    | none => (.key k, s)
  | .len, s => (.nat s.length, s)
  | .isEmpty, s => (.bool s.isEmpty, s)
  | .clear, _ => (.unit, [])

/-- A history of calls. -/
def MapOp.run (eq : K → K → Bool) : List (MapOp K V) → List (K × V) →
    List (MapOut K V) × List (K × V)
  | [], s => ([], s)
  | op :: ops, s =>
    let (o, s) := op.step eq s
    let (os, s) := MapOp.run eq ops s
    (o :: os, s)

/-- `eq` is an equivalence. -/
structure EquivRel (eq : K → K → Bool) : Prop where
  refl : ∀ a, eq a a = true
  symm : ∀ a b, eq a b = true → eq b a = true
  trans : ∀ a b c, eq a b = true → eq b c = true → eq a c = true

/-- What Rust asks of `PartialEq`: a key need not be equal to itself. -/
structure PartialEquiv (eq : K → K → Bool) : Prop where
  symm : ∀ a b, eq a b = true → eq b a = true
  trans : ∀ a b c, eq a b = true → eq b c = true → eq a c = true

/-- A strict weak order, as C++ asks of comparators. -/
structure StrictWeak (lt : K → K → Bool) : Prop where
  irrefl : ∀ a, lt a a = false
  trans : ∀ a b c, lt a b = true → lt b c = true → lt a c = true
  incomp : ∀ a b c, lt a b = false → lt b a = false → lt b c = false → lt c b = false →
    lt a c = false ∧ lt c a = false

/-- Equality is what the order cannot tell apart. -/
def Consistent (lt eq : K → K → Bool) : Prop :=
  ∀ a b, eq a b = true ↔ lt a b = false ∧ lt b a = false

/-- A strict weak order of the keys satisfying `P`; nothing is said about other keys. -/
structure StrictWeakOn (P : K → Prop) (lt : K → K → Bool) : Prop where
  irrefl : ∀ a, P a → lt a a = false
  trans : ∀ a b c, P a → P b → P c → lt a b = true → lt b c = true → lt a c = true
  incomp : ∀ a b c, P a → P b → P c → lt a b = false → lt b a = false → lt b c = false →
    lt c b = false → lt a c = false ∧ lt c a = false

/-- Equality of keys satisfying `P` is what the order cannot tell apart. -/
def ConsistentOn (P : K → Prop) (lt eq : K → K → Bool) : Prop :=
  ∀ a b, P a → P b → (eq a b = true ↔ lt a b = false ∧ lt b a = false)

/-- The key a call may put into the map. -/
def MapOp.stores : MapOp K V → Option K
  | .insert k _ | .entry k _ _ => some k
  | _ => none

/-- Keys strictly increasing. -/
def Increasing (lt : K → K → Bool) (s : List (K × V)) : Prop :=
  s.Pairwise fun p q => lt p.1 q.1 = true

/-- No two keys are equal. -/
def Distinct (eq : K → K → Bool) (s : List (K × V)) : Prop :=
  s.Pairwise fun p q => eq p.1 q.1 = false

/-- The call may change the binding of `k`. -/
def MapOp.touches (eq : K → K → Bool) (k : K) : MapOp K V → Bool
  | .insert k' _ | .remove k' | .removeEntry k' | .modify k' _ | .entry k' _ _ => eq k' k
  | .clear => true
  | .get _ | .contains _ | .entryKey _ | .len | .isEmpty => false

end Verif.Spec
