import Verif.Replay.Basic
import Verif.Tree.Model

/-! Tests of the red-black tree and its nodes (src/internal/rb_tree/node.rs:250-290,
src/internal/rb_tree/mod.rs:323-337).  `Node::default` is a node with nothing linked and a
default entry (node.rs:237-247). -/

set_option autoImplicit false

namespace Verif.Replay
open Spec

/-- `empty_parent` (node.rs:254-260). -/
def tree_empty_parent : Exec Unit := do
  check (decide (PWord.default.color = some Color.red))
  check (PWord.default.ptr == 0)

/-- `non_empty_black_ptr` (node.rs:262-269), the node being at `p`. -/
def tree_non_empty_black_ptr (p : BitVec 64) : Exec Unit := do
  check (decide ((PWord.new .black p).color = some Color.black))
  check ((PWord.new .black p).ptr == p)

/-- `non_empty_red_ptr` (node.rs:271-278). -/
def tree_non_empty_red_ptr (p : BitVec 64) : Exec Unit := do
  check (decide ((PWord.new .red p).color = some Color.red))
  check ((PWord.new .red p).ptr == p)

/-- `empty_node` (node.rs:280-289). -/
def tree_empty_node : Exec Unit := do
  let n : TNode Nat Nat := ⟨0, 0, PWord.default, some (0, 0)⟩
  check (n.left == 0)
  check (n.right == 0)
  check (n.parent.addr == 0)
  check (decide (n.parent.color = some Color.red))
  check (n.pair.map Prod.snd == some 0)

/-- `default` (mod.rs:327-337), the tree being at 64. -/
def tree_default : Exec Unit := do
  let m : TMem Nat Nat := 
    ⟨fun a => if a = 64 then some .uninit else none, fun _ => none, fun _ => none, 0, nofun, []⟩
  let (t, m) ← RBTree.newIn () 64 m
  let n ← m.get 64
  check (n.right == 0)
  check (n.left == 0)
  check ((← t.root m) == 0)
  check (t.size == 0)
  check (t.len == 0)
  check t.isEmpty

theorem tree_tests :
    Passes tree_empty_parent ∧ Passes (tree_non_empty_black_ptr 4096) ∧
    Passes (tree_non_empty_red_ptr 4096) ∧ Passes tree_empty_node ∧ Passes tree_default := by
  decide +kernel

end Verif.Replay
