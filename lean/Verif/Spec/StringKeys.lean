import Verif.Spec.KeyCalls

/-!
# Calls with keys of another type

A program has a map with keys that own memory.  What it sees are their values: its calls and their
results are those of a map with plain keys, which these functions translate.
-/

set_option autoImplicit false

namespace Verif.Spec

variable {K L V : Type}

/-- The same call with another key. -/
def MapOp.mapKey (f : K → L) : MapOp K V → MapOp L V
  | .insert k v => .insert (f k) v
  | .remove k => .remove (f k)
  | .removeEntry k => .removeEntry (f k)
  | .get k => .get (f k)
  | .modify k g => .modify (f k) g
  | .contains k => .contains (f k)
  | .entry k g v => .entry (f k) g v
  | .entryKey k => .entryKey (f k)
  | .len => .len
  | .isEmpty => .isEmpty
  | .clear => .clear

/-- The same result with another key. -/
def MapOut.mapKey (f : K → L) : MapOut K V → MapOut L V
  | .unit => .unit
  | .val v => .val v
  | .pair p => .pair (p.map fun p => (f p.1, p.2))
  | .key k => .key (f k)
  | .bool b => .bool b
  | .nat n => .nat n

/-- The key that stays with the caller, who only lends it. -/
def MapOp.lent : MapOp K V → List K
  | .remove k | .removeEntry k | .get k | .modify k _ | .contains k => [k]
  | .insert _ _ | .entry _ _ _ | .entryKey _ | .len | .isEmpty | .clear => []

/-- The key that the caller is given. -/
def MapOut.owned : MapOut K V → List K
  | .pair (some p) => [p.1]
  | _ => []

end Verif.Spec
