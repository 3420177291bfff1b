import Verif.Tree.Model
import Verif.Pool.Model

/-!
# Model of `FixedMap` and `FixedMapWithOverflow` (src/fixed_map/mod.rs)
-/

set_option autoImplicit false

namespace Verif

variable {K V σ : Type}

/-- `FixedMapImpl::new` (src/fixed_map/mod.rs:58-75): the map's anchor is at `s`, the inline buffer
of `n` nodes at `buf`.  `dflt` is the default pool and `init` its initialisation on memory of the
given address and length.  All other calls are those of the map (77-101). -/
def fixedMapNew (dflt : σ) (init : Nat → Nat → Exec σ) (size s buf n : Nat) (m : TMem K V) :
    Exec (RBTree σ × TMem K V) := do
  let (t, m) ← RBTree.newIn dflt s m
  let al ← init buf (n * size)
  .ok ({ t with al := al }, m)

/-- `FixedMap::new` (src/fixed_map/mod.rs:16-18). -/
def fixedMapPlain (size align s buf n : Nat) (m : TMem K V) : Exec (RBTree Pool × TMem K V) :=
  fixedMapNew Pool.default (Pool.init size align) size s buf n m

/-- `FixedMapWithOverflow::new` with the default allocator (src/fixed_map/mod.rs:12-22). -/
def fixedMapOverflow (size align s buf n : Nat) (m : TMem K V) : Exec (RBTree OPool × TMem K V) :=
  fixedMapNew OPool.withAllocator (OPool.init size align) size s buf n m

end Verif
