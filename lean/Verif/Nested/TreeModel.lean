import Verif.Nested.Model
import Verif.Spec.NestedTree
import Verif.Tree.Model

/-!
# Ordered maps whose values are vectors or strings

`Map<K, Vector<T>>` and `Map<K, String>`: the model of the tree with `Vec` as the type of values.
-/

set_option autoImplicit false

namespace Verif
open Spec

variable {K H σ : Type}

/-- `Map<K, H>` (src/map/mod.rs:26-149).  References: `get_mut` (src/map/mod.rs:90-92,
src/internal/rb_tree/mod.rs:142-144).  Its end is `Drop for RBTree` (src/internal/rb_tree/mod.rs:52-54). -/
def treeOuter (E : TEnv K H σ) (fuel : Nat) : Outer (Kind.ordered E.lt) H where
  σ := RBTree σ × TMem K H
  step op s := do
    let (r, m) ← s.1.step E fuel op.toTree s.2
    .ok (r, s.1, m)
  dropped s := s.2.dropped.filterMap Sum.getRight?
  get k s := s.1.get E fuel k s.2
  put k x s := do
    let (_, m) ← s.1.modify E fuel k (fun _ => x) s.2
    .ok (s.1, m)
  drop s := do
    let (_, m) ← s.1.drop E fuel s.2
    .ok (s.1, m)

end Verif
