import Verif.Tree.Model

/-!
# Attempts to remove a key from a map

`Map::remove_entry` is public but unimplemented.  A program may catch the panic and go on.
-/

set_option autoImplicit false

namespace Verif
open Spec

variable {K V σ : Type}

/-- Calls on a map, or attempts to remove the entry of a key. -/
inductive MapTry (K V : Type) where
  | call (op : TreeOp K V)
  | removeEntry (k : K)

/-- What came of it. -/
inductive MapTried (K V : Type) where
  | out (o : TreeOut K V)
  | removed (e : Option (K × V))
  | panicked
  deriving DecidableEq, Repr

/-- `std::panic::catch_unwind` around `Map::remove_entry` (src/map/mod.rs:146-148,
src/internal/rb_tree/mod.rs:202-204), which has written nothing when it panics. -/
def RBTree.tryRemove (t : RBTree σ) (k : K) (m : TMem K V) : Exec (MapTried K V) :=
  match t.removeEntry k m with
  | .ok e => .ok (.removed e)
  | .error .panic => .ok .panicked
  | .error e => .error e

/-- A history of calls and of such attempts (src/map/mod.rs:26-149). -/
def RBTree.runTries (E : TEnv K V σ) (fuel : Nat) (t : RBTree σ) : List (MapTry K V) → TMem K V →
    Exec (List (MapTried K V) × TMem K V)
  | [], m => .ok ([], m)
  | .call op :: ops, m => do
    let (o, m) ← t.step E fuel op m
    let (os, m) ← t.runTries E fuel ops m
    .ok (.out o :: os, m)
  | .removeEntry k :: ops, m => do
    let o ← t.tryRemove k m
    let (os, m) ← t.runTries E fuel ops m
    .ok (o :: os, m)

end Verif
