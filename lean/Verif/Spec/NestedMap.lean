import Verif.Spec.Nested
import Verif.Spec.FiniteMap

/-! Maps whose values are sequences. -/

set_option autoImplicit false

namespace Verif.Spec

variable {K V W : Type}

/-- Calls on a map without closures.  `orInsert`: `entry(k).or_insert(v)`. -/
inductive TabOp (K V : Type) where
  | insert (k : K) (v : V)
  | remove (k : K)
  | removeEntry (k : K)
  | get (k : K)
  | contains (k : K)
  | orInsert (k : K) (v : V)
  | len
  | isEmpty
  | clear

/-- The call among those of Spec/FiniteMap.lean. -/
def TabOp.toMap : TabOp K V → MapOp K V
  | .insert k v => .insert k v
  | .remove k => .remove k
  | .removeEntry k => .removeEntry k
  | .get k => .get k
  | .contains k => .contains k
  | .orInsert k v => .entry k id v
  | .len => .len
  | .isEmpty => .isEmpty
  | .clear => .clear

def TabOp.map (f : V → W) : TabOp K V → TabOp K W
  | .insert k v => .insert k (f v)
  | .remove k => .remove k
  | .removeEntry k => .removeEntry k
  | .get k => .get k
  | .contains k => .contains k
  | .orInsert k v => .orInsert k (f v)
  | .len => .len
  | .isEmpty => .isEmpty
  | .clear => .clear

def TabOp.arg : TabOp K V → Option V
  | .insert _ v | .orInsert _ v => some v
  | _ => none

def MapOut.map (f : V → W) : MapOut K V → MapOut K W
  | .unit => .unit
  | .val v => .val (v.map f)
  | .pair p => .pair (p.map fun q => (q.1, f q.2))
  | .key k => .key k
  | .bool b => .bool b
  | .nat n => .nat n

/-- The values in a result. -/
def MapOut.vals : MapOut K V → List V
  | .val v => v.toList
  | .pair p => (p.map Prod.snd).toList
  | _ => []

/-- `insert` gives back the old value, `remove` and `remove_entry` the one removed; `get` and
`or_insert` only lend. -/
def TabOp.owned : TabOp K V → MapOut K V → List V
  | .insert _ _, r | .remove _, r | .removeEntry _, r => r.vals
  | _, _ => []

/-- The value of the first pair with this key replaced; keys being different, that is the only one. -/
def setFirst (eq : K → K → Bool) (k : K) (v : V) : List (K × V) → List (K × V)
  | [] => []
  | p :: s => if eq p.1 k then (p.1, v) :: s else p :: setFirst eq k v s

/-- Maps: a mutable reference to the value of every key (`get_mut`). -/
def Kind.table (eq : K → K → Bool) : Kind where
  Op := TabOp K
  St V := List (K × V)
  Res := MapOut K
  Pos := K
  mapOp := TabOp.map
  mapSt f s := s.map fun p => (p.1, f p.2)
  mapRes := MapOut.map
  arg := TabOp.arg
  elems s := s.map Prod.snd
  shows := MapOut.vals
  step op s := .ok (op.toMap.step eq s)
  owned := TabOp.owned
  get k s := (lookup eq s k).map Prod.snd
  set := setFirst eq
  nil := []

end Verif.Spec
