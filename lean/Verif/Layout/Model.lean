import Verif.Spec.Layout

/-! The layouts of the nodes and elements the crate shares with C++. -/

set_option autoImplicit false

namespace Verif
open Spec

/-- Offsets of `key`, `val`, `next` in `Node<K, V>`, `repr(C)`
(src/internal/hash_table/node.rs:2-7). -/
def hashNodeOffsets (K V : Lay) : List Nat := offsets [K, V, ptrLay]

/-- Layout of `Node<K, V>` (src/internal/hash_table/node.rs:2-7). -/
def hashNode (K V : Lay) : Lay := structLay [K, V, ptrLay]

/-- The unit type: the value type of the table under a `HashSet` (src/hash_set/mod.rs:25). -/
def unitLay : Lay := ⟨0, 1⟩

/-- Offsets of `right`, `left`, `parent`, and key and value inside `pair`, in the tree's
`Node<K, V>`, `repr(C)` around a tuple (src/internal/rb_tree/node.rs:25-29, 85-92). -/
def treeNodeOffsets {K V : Lay} (T : TupleLay K V) : List Nat :=
  let o := offsets [ptrLay, ptrLay, ptrLay, T.lay]
  o.take 3 ++ [o.getD 3 0 + T.key, o.getD 3 0 + T.val]

/-- Offsets of key and value in an element of a `VectorMap`, a `Vector<(K, V), A>`
(src/vector_map/mod.rs:19). -/
def vectorMapElemOffsets {K V : Lay} (T : TupleLay K V) : List Nat := [T.key, T.val]

end Verif
