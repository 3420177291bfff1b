import Verif.Tree.Model
import Verif.Node.Law

/-!
# Trees in memory
-/

set_option autoImplicit false

namespace Verif
open Spec

variable {K V σ : Type}

/-- The tree `t`, whose labels are addresses with entries, is in memory at `p`, below the node
`par`: every node has its entry, points to its children, and its children point back. -/
def TreeAt (m : TMem K V) (par : Nat) : Tree (Nat × K × V) → Nat → Prop
  | .nil, p => p = 0
  | .node l (a, e) r, p => p = a ∧ a ≠ 0 ∧ ∃ n, m.node a = some n ∧ n.pair = some e ∧
      n.parent.addr = par ∧ TreeAt m a l n.left ∧ TreeAt m a r n.right

/-- The addresses of the nodes, from left to right. -/
def nodeAddrs (t : Tree (Nat × K × V)) : List Nat := t.inorder.map Prod.fst

/-- The entries, from left to right. -/
def entries (t : Tree (Nat × K × V)) : List (K × V) := t.inorder.map Prod.snd

/-- The object `T` holds the tree `t`: the root's parent is the object itself, `begin` is the
left-most and `end` the right-most node (in an empty tree null, or as in C++ the anchor), and
`size` is the number of nodes. -/
structure TreeRep (T : RBTree σ) (m : TMem K V) (t : Tree (Nat × K × V)) : Prop where
  anchor : ∃ n r, m.node T.anchor = some n ∧ n.parent.toNat = r ∧ n.parent.addr = r ∧
    TreeAt m T.anchor t r ∧
    (t ≠ .nil → (nodeAddrs t).head? = some n.right ∧ (nodeAddrs t).getLast? = some n.left) ∧
    (t = .nil → n.right = 0 ∨ n.right = T.anchor)
  nonnull : T.anchor ≠ 0
  nodup : (nodeAddrs t).Nodup
  apart : T.anchor ∉ nodeAddrs t
  size : T.size = t.count

@[simp] theorem addrs_nil : nodeAddrs (.nil : Tree (Nat × K × V)) = [] := rfl
@[simp] theorem nodeAddrs_node (l r : Tree (Nat × K × V)) (x : Nat × K × V) :
    nodeAddrs (.node l x r) = nodeAddrs l ++ x.1 :: nodeAddrs r := by simp [nodeAddrs, Tree.inorder]
@[simp] theorem entries_nil : entries (.nil : Tree (Nat × K × V)) = [] := rfl
@[simp] theorem entries_node (l r : Tree (Nat × K × V)) (x : Nat × K × V) :
    entries (.node l x r) = entries l ++ x.2 :: entries r := by simp [entries, Tree.inorder]

theorem length_inorder {α : Type} (t : Tree α) : t.inorder.length = t.count := by
  induction t with
  | nil => rfl
  | node l x r h1 h2 => simp [Tree.inorder, Tree.count, h1, h2]; omega

theorem length_entries (t : Tree (Nat × K × V)) : (entries t).length = t.count := by
  simp [entries, length_inorder]

theorem TreeAt.root_mem {m : TMem K V} {par p : Nat} {t : Tree (Nat × K × V)}
    (h : TreeAt m par t p) (hp : p ≠ 0) : p ∈ nodeAddrs t := by
  cases t with
  | nil => exact absurd h hp
  | node l x r => obtain ⟨a, e⟩ := x; obtain ⟨rfl, _⟩ := h; simp

theorem TreeAt.ne_zero {m : TMem K V} {par p : Nat} {t : Tree (Nat × K × V)}
    (h : TreeAt m par t p) {a : Nat} (ha : a ∈ nodeAddrs t) : a ≠ 0 := by
  induction t generalizing par p with
  | nil => simp at ha
  | node l x r ih1 ih2 =>
    obtain ⟨b, e⟩ := x
    obtain ⟨rfl, h0, n, _, _, _, hl, hr⟩ := h
    simp only [nodeAddrs_node, List.mem_append, List.mem_cons] at ha
    rcases ha with ha | rfl | ha
    · exact ih1 hl ha
    · exact h0
    · exact ih2 hr ha

theorem TreeAt.nil_iff {m : TMem K V} {par p : Nat} {t : Tree (Nat × K × V)}
    (h : TreeAt m par t p) : p = 0 ↔ t = .nil := by
  cases t with
  | nil => exact ⟨fun _ => rfl, fun _ => h⟩
  | node l x r =>
    obtain ⟨a, e⟩ := x
    obtain ⟨rfl, h0, _⟩ := h
    exact ⟨fun e => absurd e h0, fun e => by simp at e⟩

theorem TreeAt.live {m : TMem K V} {par p : Nat} {t : Tree (Nat × K × V)}
    (h : TreeAt m par t p) {a : Nat} (ha : a ∈ nodeAddrs t) : ∃ n, m.node a = some n := by
  induction t generalizing par p with
  | nil => simp at ha
  | node l x r ih1 ih2 =>
    obtain ⟨b, e⟩ := x
    obtain ⟨rfl, h0, n, hn, _, _, hl, hr⟩ := h
    simp only [nodeAddrs_node, List.mem_append, List.mem_cons] at ha
    rcases ha with ha | rfl | ha
    · exact ih1 hl ha
    · exact ⟨n, hn⟩
    · exact ih2 hr ha

/-- A tree is where it is whatever happens elsewhere. -/
theorem TreeAt.frame {m m' : TMem K V} {par p : Nat} {t : Tree (Nat × K × V)}
    (h : TreeAt m par t p) (hm : ∀ a ∈ nodeAddrs t, m'.node a = m.node a) : TreeAt m' par t p := by
  induction t generalizing par p with
  | nil => exact h
  | node l x r ih1 ih2 =>
    obtain ⟨b, e⟩ := x
    obtain ⟨rfl, h0, n, hn, h1, h2, hl, hr⟩ := h
    refine ⟨rfl, h0, n, by rw [hm p (by simp), hn], h1, h2, ih1 hl ?_, ih2 hr ?_⟩
    · intro a ha; exact hm a (by simp [ha])
    · intro a ha; exact hm a (by simp [ha])

theorem NMem.get_some {N D : Type} {m : NMem N D} {p : Nat} {n : N} (h : m.node p = some n) :
    m.get p = .ok n := by simp [NMem.get, h]

theorem NMem.get_none {N D : Type} {m : NMem N D} {p : Nat} (h : m.node p = none) :
    m.get p = .error .ub := by simp [NMem.get, h]

theorem NMem.modify_some {N D : Type} {m : NMem N D} {p : Nat} {n : N} (h : m.node p = some n)
    (f : N → N) : m.modify p f = .ok { m with node := Function.update m.node p (some (f n)) } := by
  simp [NMem.modify, h]

end Verif
