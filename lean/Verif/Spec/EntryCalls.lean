import Verif.Spec.HashTable

/-!
# Entry calls whose closures may panic

`entry(k).and_modify(f).or_insert_with(default)` on a finite map.  `f` leaves a value behind and says
whether it then panics; `default` is `none` if it panics.  A call left by a panic returns nothing.
-/

set_option autoImplicit false

namespace Verif.Spec

variable {K V : Type}

/-- A call on a map: one of those of `MapOp`, or an entry call with closures. -/
inductive EntryCall (K V : Type) where
  | plain (op : MapOp K V)
  | closures (k : K) (f : V → V × Bool) (default : Option V)

/-- What a call returns, and the pairs then held.  If the key is there its value becomes what `f`
left, also if `f` panicked; `default` is not run.  If not, the default is stored, unless making it
panicked. -/
def EntryCall.step (eq : K → K → Bool) : EntryCall K V → List (K × V) →
    Option (MapOut K V) × List (K × V)
  | .plain op, s => (some (op.step eq s).1, (op.step eq s).2)
  | .closures k f default, s => match lookup eq s k with
    | some p =>
      (if (f p.2).2 then none else some (.val (some (f p.2).1)), setVal eq k (f p.2).1 s)
    | none => match default with
      | some v => (some (.val (some v)), (k, v) :: s)
      | none => (none, s)

/-- A history of calls; the caller catches panics and goes on. -/
def EntryCall.run (eq : K → K → Bool) : List (EntryCall K V) → List (K × V) →
    List (Option (MapOut K V)) × List (K × V)
  | [], s => ([], s)
  | c :: cs, s =>
    let r := EntryCall.run eq cs (c.step eq s).2
    ((c.step eq s).1 :: r.1, r.2)

/-- What a call moves into the map's care, what the closures make included. -/
def EntryCall.taken (eq : K → K → Bool) : EntryCall K V → List (K × V) → List (K ⊕ V)
  | .plain op, s => op.taken eq s
  | .closures k f default, s => match lookup eq s k with
    | some p => [.inl k, .inr (f p.2).1]
    | none => match default with
      | some v => [.inl k, .inr v]
      | none => [.inl k]

/-- What a call moves out: to the caller, or to the closure that replaces it. -/
def EntryCall.given (eq : K → K → Bool) : EntryCall K V → List (K × V) → List (K ⊕ V)
  | .plain op, s => op.given eq s
  | .closures k _ _, s => match lookup eq s k with
    | some p => [.inr p.2]
    | none => []

/-- What a call drops. -/
def EntryCall.drops (eq : K → K → Bool) : EntryCall K V → List (K × V) → List (K ⊕ V)
  | .plain op, s => op.drops eq s
  | .closures k _ default, s => match lookup eq s k with
    | some _ => [.inl k]
    | none => match default with
      | some _ => []
      | none => [.inl k]

/-- Everything a history moves in. -/
def EntryCall.allTaken (eq : K → K → Bool) : List (EntryCall K V) → List (K × V) → List (K ⊕ V)
  | [], _ => []
  | c :: cs, s => c.taken eq s ++ EntryCall.allTaken eq cs (c.step eq s).2

/-- Everything a history moves out. -/
def EntryCall.allGiven (eq : K → K → Bool) : List (EntryCall K V) → List (K × V) → List (K ⊕ V)
  | [], _ => []
  | c :: cs, s => c.given eq s ++ EntryCall.allGiven eq cs (c.step eq s).2

/-- Everything a history drops. -/
def EntryCall.allDrops (eq : K → K → Bool) : List (EntryCall K V) → List (K × V) → List (K ⊕ V)
  | [], _ => []
  | c :: cs, s => c.drops eq s ++ EntryCall.allDrops eq cs (c.step eq s).2

/-- The largest number of entries during a history. -/
def EntryCall.peak (eq : K → K → Bool) : List (EntryCall K V) → List (K × V) → Nat
  | [], s => s.length
  | c :: cs, s => max s.length (EntryCall.peak eq cs (c.step eq s).2)

end Verif.Spec
