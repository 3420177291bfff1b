import Verif.Tree.Iter
import Verif.Tree.WordProofs
import Verif.Spec.RedBlack
import Mathlib.Data.Nat.Log

/-! Trees as C++ leaves them in memory.  The crate has no working insertion
(src/internal/rb_tree/mod.rs:153-156), so every tree with entries was made by C++; this file writes
down a tree of any shape and colouring in the layout of src/internal/rb_tree/node.rs:85-92. -/

set_option autoImplicit false

namespace Verif
open Spec

variable {K V σ : Type}

/-- Address of the root, 0 if there is none. -/
def rootAddr : Tree (Color × Nat × K × V) → Nat
  | .nil => 0
  | .node _ x _ => x.2.1

/-- The word with a parent pointer and a colour, as `_new` (src/internal/rb_tree/node.rs:33-38)
makes it. -/
def parentWord (c : Color) (par : Nat) : PWord := PWord.new c (BitVec.ofNat 64 par)

/-- The node at address `q` of a tree below `par`, laid out as in
src/internal/rb_tree/node.rs:85-92. -/
def builtNode (par : Nat) : Tree (Color × Nat × K × V) → Nat → Option (TNode K V)
  | .nil, _ => none
  | .node l (c, a, e) r, q =>
    if q = a then some ⟨rootAddr r, rootAddr l, parentWord c par, some e⟩
    else match builtNode a l q with
      | some n => some n
      | none => builtNode a r q

/-- Memory `m` after the tree was written to it; the tree object is at `s`
(src/internal/rb_tree/mod.rs:14-27: `begin`, `end` and `parent`). -/
def buildTree (s : Nat) (t : Tree (Color × Nat × K × V)) (m : TMem K V) : TMem K V :=
  { m with node := fun q =>
      if q = s then
        some ⟨((t.inorder.head?).map (·.2.1)).getD 0, ((t.inorder.getLast?).map (·.2.1)).getD 0,
          BitVec.ofNat 64 (rootAddr t), none⟩
      else match builtNode s t q with
        | some n => some n
        | none => m.node q }

theorem parentWord_addr (c : Color) {par : Nat} (h : par < 2 ^ 64) (h2 : par % 2 = 0) :
    (parentWord c par).addr = par := by
  have hn : (BitVec.ofNat 64 par).toNat = par := by simp [Nat.mod_eq_of_lt h]
  unfold parentWord PWord.new PWord.addr
  rw [PWord.ptr_setPtr _ (PWord.even_bit (by rw [hn]; exact h2)), hn]

theorem parentWord_color (c : Color) {par : Nat} (h : par < 2 ^ 64) (h2 : par % 2 = 0) :
    (parentWord c par).color = some c := by
  have hn : (BitVec.ofNat 64 par).toNat = par := by simp [Nat.mod_eq_of_lt h]
  unfold parentWord PWord.new
  rw [PWord.color_setPtr _ (PWord.even_bit (by rw [hn]; exact h2)), PWord.color_setColor]

theorem builtNode_none {par : Nat} {t : Tree (Color × Nat × K × V)} {q : Nat}
    (h : q ∉ t.inorder.map (·.2.1)) : builtNode par t q = none := by
  induction t generalizing par with
  | nil => rfl
  | node l x r ih1 ih2 =>
    obtain ⟨c, a, e⟩ := x
    simp only [Tree.inorder, List.map_append, List.map_cons, List.mem_append, List.mem_cons,
      not_or] at h
    simp only [builtNode, if_neg h.2.1, ih1 h.1, ih2 h.2.2]

theorem builtNode_some {par : Nat} {t : Tree (Color × Nat × K × V)} {x : Color × Nat × K × V}
    (h : x ∈ t.inorder) (hd : (t.inorder.map (·.2.1)).Nodup) :
    ∃ n p, builtNode par t x.2.1 = some n ∧ n.parent = parentWord x.1 p ∧
      (p = par ∨ p ∈ t.inorder.map (·.2.1)) := by
  induction t generalizing par with
  | nil => cases h
  | node l y r ih1 ih2 =>
    obtain ⟨c, a, e⟩ := y
    simp only [Tree.inorder, List.map_append, List.map_cons] at hd
    rw [List.nodup_append] at hd
    obtain ⟨h1, h2, h3⟩ := hd
    rw [List.nodup_cons] at h2
    simp only [Tree.inorder, List.mem_append, List.mem_cons] at h
    rcases h with h | rfl | h
    · have hne : x.2.1 ≠ a := h3 _ (List.mem_map_of_mem h) _ (by simp)
      obtain ⟨n, p, e1, e2, e3⟩ := ih1 (par := a) h h1
      refine ⟨n, p, by simp only [builtNode, if_neg hne, e1], e2, .inr ?_⟩
      simp only [Tree.inorder, List.map_append, List.map_cons, List.mem_append, List.mem_cons]
      rcases e3 with rfl | e3
      · exact .inr (.inl rfl)
      · exact .inl e3
    · exact ⟨_, par, by simp only [builtNode, if_pos trivial]; rfl, rfl, .inl rfl⟩
    · have hne : x.2.1 ≠ a := fun hc => h2.1 (hc ▸ List.mem_map_of_mem h)
      have hl : x.2.1 ∉ l.inorder.map (·.2.1) := fun hc =>
        h3 _ hc _ (List.mem_cons_of_mem _ (List.mem_map_of_mem h)) rfl
      obtain ⟨n, p, e1, e2, e3⟩ := ih2 (par := a) h h2.2
      refine ⟨n, p, by simp only [builtNode, if_neg hne, builtNode_none hl, e1], e2, .inr ?_⟩
      simp only [Tree.inorder, List.map_append, List.map_cons, List.mem_append, List.mem_cons]
      rcases e3 with rfl | e3
      · exact .inr (.inl rfl)
      · exact .inr (.inr e3)

/-- Addresses nodes may have: not null, even (the colour is in the lowest bit), and below 2^64. -/
def GoodAddr (p : Nat) : Prop := p ≠ 0 ∧ p % 2 = 0 ∧ p < 2 ^ 64

theorem builtNode_at {par : Nat} {t : Tree (Color × Nat × K × V)} {m : TMem K V}
    (hd : (t.inorder.map (·.2.1)).Nodup) (hg : ∀ p ∈ t.inorder.map (·.2.1), GoodAddr p)
    (hp : GoodAddr par)
    (hm : ∀ p ∈ t.inorder.map (·.2.1), m.node p = builtNode par t p) :
    TreeAt m par (t.map Prod.snd) (rootAddr t) := by
  induction t generalizing par with
  | nil => exact rfl
  | node l y r ih1 ih2 =>
    obtain ⟨c, a, e⟩ := y
    simp only [Tree.inorder, List.map_append, List.map_cons] at hd hg hm
    rw [List.nodup_append] at hd
    obtain ⟨h1, h2, h3⟩ := hd
    rw [List.nodup_cons] at h2
    have ga : GoodAddr a := hg a (by simp)
    refine ⟨rfl, ga.1, ⟨rootAddr r, rootAddr l, parentWord c par, some e⟩, ?_, rfl,
      parentWord_addr c hp.2.2 hp.2.1, ih1 h1 ?_ ga ?_, ih2 h2.2 ?_ ga ?_⟩
    · rw [hm a (by simp)]; simp only [builtNode, if_true]
    · intro p hp; exact hg p (by simp only [List.mem_append]; exact .inl hp)
    · intro p hp
      have hne : p ≠ a := h3 _ hp _ (by simp)
      have hb : ∃ n, builtNode a l p = some n := by
        obtain ⟨x, hx, rfl⟩ := List.mem_map.1 hp
        obtain ⟨n, _, e1, _⟩ := builtNode_some (par := a) hx h1
        exact ⟨n, e1⟩
      obtain ⟨n, hn⟩ := hb
      rw [hm p (by simp only [List.mem_append]; exact .inl hp)]
      simp only [builtNode, if_neg hne, hn]
    · intro p hp; exact hg p (by simp only [List.mem_append, List.mem_cons]; exact .inr (.inr hp))
    · intro p hp
      have hne : p ≠ a := fun hc => h2.1 (hc ▸ hp)
      have hl : p ∉ l.inorder.map (·.2.1) := fun hc => h3 _ hc _ (List.mem_cons_of_mem _ hp) rfl
      rw [hm p (by simp only [List.mem_append, List.mem_cons]; exact .inr (.inr hp))]
      simp only [builtNode, if_neg hne, builtNode_none hl]

/-- What was written is a tree in the sense of the theorems on trees. -/
theorem buildTree_rep {s : Nat} {t : Tree (Color × Nat × K × V)} (m : TMem K V) (a : σ)
    (hd : (t.inorder.map (·.2.1)).Nodup) (hg : ∀ p ∈ t.inorder.map (·.2.1), GoodAddr p)
    (hs : GoodAddr s) (hns : s ∉ t.inorder.map (·.2.1)) :
    TreeRep ⟨s, t.count, a⟩ (buildTree s t m) (t.map Prod.snd) := by
  have hin : nodeAddrs (t.map Prod.snd) = t.inorder.map (·.2.1) := by
    simp [nodeAddrs, inorder_map]
  have hr : rootAddr t < 2 ^ 64 ∧ rootAddr t % 2 = 0 := by
    cases t with
    | nil => exact ⟨Nat.two_pow_pos 64, rfl⟩
    | node l x r => have := hg x.2.1 (by simp [Tree.inorder]); exact ⟨this.2.2, this.2.1⟩
  have hn : (BitVec.ofNat 64 (rootAddr t)).toNat = rootAddr t := by simp [Nat.mod_eq_of_lt hr.1]
  refine ⟨⟨_, rootAddr t, if_pos rfl, hn, ?_, ?_, ?_, ?_⟩, hs.1, by rw [hin]; exact hd,
    by rw [hin]; exact hns, by simp [count_map]⟩
  · have hb := PWord.even_bit (p := BitVec.ofNat 64 (rootAddr t)) (by rw [hn]; exact hr.2)
    show (BitVec.ofNat 64 (rootAddr t) &&& ~~~1).toNat = rootAddr t
    have : BitVec.ofNat 64 (rootAddr t) &&& ~~~1 = BitVec.ofNat 64 (rootAddr t) := by
      apply BitVec.eq_of_getLsbD_eq
      intro i hi
      have h1 := PWord.ptr_bit (BitVec.ofNat 64 (rootAddr t)) (i := i) hi
      unfold PWord.ptr at h1
      rw [h1]
      by_cases h0 : i = 0
      · subst h0; rw [hb]; rfl
      · simp [h0]
    rw [this, hn]
  · refine builtNode_at hd hg hs ?_
    intro p hp
    have hne : p ≠ s := fun hc => hns (hc ▸ hp)
    obtain ⟨x, hx, rfl⟩ := List.mem_map.1 hp
    obtain ⟨n, _, e1, _⟩ := builtNode_some (par := s) hx hd
    simp only [buildTree, if_neg hne, e1]
  · intro hne
    rw [hin]
    have : t.inorder ≠ [] := by
      intro hc; apply hne
      cases t with
      | nil => rfl
      | node l x r => simp [Tree.inorder] at hc
    obtain ⟨x, xs, hx⟩ := List.exists_cons_of_ne_nil this
    simp only [List.head?_map, List.getLast?_map]
    rw [hx]
    rw [List.getLast?_eq_some_getLast (by simp)]
    exact ⟨rfl, rfl⟩
  · intro he
    have : t = .nil := by
      cases t with
      | nil => rfl
      | node l x r => simp [Tree.map] at he
    subst this
    exact .inl rfl

/-- Its colours are those of the tree. -/
theorem buildTree_color {s : Nat} {t : Tree (Color × Nat × K × V)} (m : TMem K V)
    (hd : (t.inorder.map (·.2.1)).Nodup) (hg : ∀ p ∈ t.inorder.map (·.2.1), GoodAddr p)
    (hs : GoodAddr s) (hns : s ∉ t.inorder.map (·.2.1)) {x : Color × Nat × K × V}
    (hx : x ∈ t.inorder) :
    ∃ n, (buildTree s t m).node x.2.1 = some n ∧ n.parent.color = some x.1 := by
  have hne : x.2.1 ≠ s := fun hc => hns (hc ▸ List.mem_map_of_mem (f := (·.2.1)) hx)
  obtain ⟨n, p, e1, e2, e3⟩ := builtNode_some (par := s) hx hd
  refine ⟨n, by simp only [buildTree, if_neg hne, e1], ?_⟩
  have gp : GoodAddr p := by
    rcases e3 with rfl | e3
    · exact hs
    · exact hg p e3
  rw [e2, parentWord_color _ gp.2.2 gp.2.1]

/-! ## A red-black tree for every list -/

section Shape
variable {α β : Type}

theorem balanced_aux (h : Nat) (xs : List α) (h1 : 2 ^ h ≤ xs.length + 1)
    (h2 : xs.length + 1 ≤ 2 ^ (h + 1)) :
    ∃ t : Tree (Color × α), t.inorder.map Prod.snd = xs ∧
      t.NoRedRed (fun x => decide (x.1 = .red)) ∧
      t.BlackHeight (fun x => decide (x.1 = .red)) h ∧
      (0 < h → t.RootBlack (fun x => decide (x.1 = .red))) := by
  induction h generalizing xs with
  | zero =>
    match xs, h2 with
    | [], _ => exact ⟨.nil, rfl, trivial, rfl, fun h => absurd h (by decide)⟩
    | [x], _ =>
      exact ⟨.node .nil (.red, x) .nil, rfl, ⟨trivial, trivial, fun _ => ⟨trivial, trivial⟩⟩,
        ⟨0, rfl, rfl, rfl⟩, fun h => absurd h (by decide)⟩
    | x :: y :: zs, h2 => simp at h2
  | succ h ih =>
    have e1 : 2 ^ (h + 1) = 2 * 2 ^ h := by rw [Nat.pow_succ]; omega
    have e2 : 2 ^ (h + 1 + 1) = 4 * 2 ^ h := by rw [Nat.pow_succ, e1]; omega
    have hp : 0 < 2 ^ h := Nat.two_pow_pos h
    have hlen : xs.length = xs.length := rfl
    obtain ⟨k, hk⟩ : ∃ k, k = (xs.length - 1) / 2 := ⟨_, rfl⟩
    have hkl : k < xs.length := by omega
    obtain ⟨y, ys, hy⟩ := List.exists_cons_of_ne_nil (l := xs.drop k) (by
      intro hc; rw [List.drop_eq_nil_iff] at hc; omega)
    have hys : ys.length = xs.length - k - 1 := by
      have := congrArg List.length hy
      simp only [List.length_drop, List.length_cons] at this
      omega
    have htk : (xs.take k).length = k := by rw [List.length_take]; omega
    obtain ⟨tl, a1, a2, a3, _⟩ := ih (xs.take k) (by rw [htk]; omega) (by rw [htk]; omega)
    obtain ⟨tr, b1, b2, b3, _⟩ := ih ys (by rw [hys]; omega) (by rw [hys]; omega)
    refine ⟨.node tl (.black, y) tr, ?_, ⟨a2, b2, fun h => by simp at h⟩,
      ⟨h, by rfl, a3, b3⟩, fun _ => by rfl⟩
    simp only [Tree.inorder, List.map_append, List.map_cons, a1, b1]
    rw [← hy, List.take_append_drop]

/-- Every list is the content of a red-black tree. -/
theorem balanced_exists (xs : List α) :
    ∃ t : Tree (Color × α), t.inorder.map Prod.snd = xs ∧
      t.RedBlack (fun x => decide (x.1 = .red)) := by
  obtain ⟨t, h1, h2, h3, h4⟩ := balanced_aux (Nat.log 2 (xs.length + 1)) xs
    (Nat.pow_log_le_self 2 (by omega)) (Nat.lt_pow_succ_log_self (by decide) _).le
  refine ⟨t, h1, ?_, h2, _, h3⟩
  cases xs with
  | nil =>
    cases t with
    | nil => trivial
    | node l x r => simp [Tree.inorder] at h1
  | cons x xs => exact h4 (Nat.log_pos (by decide) (by simp))

theorem rootBlack_map {red : β → Bool} {red' : α → Bool} (f : α → β) {t : Tree α}
    (h : ∀ x ∈ t.inorder, red (f x) = red' x) :
    (t.map f).RootBlack red ↔ t.RootBlack red' := by
  cases t with
  | nil => exact Iff.rfl
  | node l x r => simp only [Tree.map, Tree.RootBlack]; rw [h x (by simp [Tree.inorder])]

theorem noRedRed_map {red : β → Bool} {red' : α → Bool} (f : α → β) {t : Tree α}
    (h : ∀ x ∈ t.inorder, red (f x) = red' x) :
    (t.map f).NoRedRed red ↔ t.NoRedRed red' := by
  induction t with
  | nil => exact Iff.rfl
  | node l x r ih1 ih2 =>
    have hl : ∀ x ∈ l.inorder, red (f x) = red' x := fun x hx => h x (by simp [Tree.inorder, hx])
    have hr : ∀ x ∈ r.inorder, red (f x) = red' x := fun x hx => h x (by simp [Tree.inorder, hx])
    simp only [Tree.map, Tree.NoRedRed, ih1 hl, ih2 hr, rootBlack_map f hl, rootBlack_map f hr]
    rw [h x (by simp [Tree.inorder])]

theorem blackHeight_map {red : β → Bool} {red' : α → Bool} (f : α → β) {t : Tree α}
    (h : ∀ x ∈ t.inorder, red (f x) = red' x) (n : Nat) :
    (t.map f).BlackHeight red n ↔ t.BlackHeight red' n := by
  induction t generalizing n with
  | nil => exact Iff.rfl
  | node l x r ih1 ih2 =>
    have hl : ∀ x ∈ l.inorder, red (f x) = red' x := fun x hx => h x (by simp [Tree.inorder, hx])
    have hr : ∀ x ∈ r.inorder, red (f x) = red' x := fun x hx => h x (by simp [Tree.inorder, hx])
    simp only [Tree.map, Tree.BlackHeight, ih1 hl, ih2 hr]
    rw [h x (by simp [Tree.inorder])]

theorem redBlack_map {red : β → Bool} {red' : α → Bool} (f : α → β) {t : Tree α}
    (h : ∀ x ∈ t.inorder, red (f x) = red' x) (hb : t.RedBlack red') :
    (t.map f).RedBlack red :=
  ⟨(rootBlack_map f h).2 hb.root, (noRedRed_map f h).2 hb.noRedRed,
    hb.black.imp fun n hn => (blackHeight_map f h n).2 hn⟩

/-- A tree whose labels increase from left to right is a search tree. -/
theorem search_of_pairwise {lt : α → α → Bool} {t : Tree α}
    (h : t.inorder.Pairwise fun a b => lt a b = true) : t.Search lt := by
  induction t with
  | nil => trivial
  | node l x r ih1 ih2 =>
    simp only [Tree.inorder] at h
    rw [List.pairwise_append] at h
    obtain ⟨h1, h2, h3⟩ := h
    rw [List.pairwise_cons] at h2
    exact ⟨ih1 h1, ih2 h2.2, fun y hy => h3 y hy x (by simp), h2.1⟩

end Shape

end Verif
