import Verif.Tree.Find
import Verif.Tree.Free
import Verif.Tree.WordProofs
import Verif.Tree.Calls

/-!
# Properties of `RBTree`, `Map` and `Set` (C60–C65, C73–C76)

Nothing in the crate inserts into a tree (`_insert` is `unimplemented!()`), so non-empty trees
come from foreign code; the theorems hold for every tree `t` of any shape and colouring that the
object represents (`TreeRep`, in `Tree/Rep.lean`).  `entries t` are its entries from left to right.
The number `f` bounds the steps of every loop, so that "for all `f` above the number of nodes"
includes termination.
-/

set_option autoImplicit false

namespace Verif
open Spec

variable {K V σ : Type}

/-! ## An example tree -/

/-- A tree with root 5, below it 2 and 9, and 3 below 2. -/
def exampleTree : Tree (Nat × Nat × Nat) :=
  .node (.node .nil (192, 2, 20) (.node .nil (256, 3, 30) .nil)) (128, 5, 50)
    (.node .nil (320, 9, 90) .nil)

/-- Memory holding it; the object is at 64. -/
def exampleTreeMem : TMem Nat Nat where
  node q :=
    if q = 64 then some ⟨192, 320, 128, none⟩
    else if q = 128 then some ⟨320, 192, 65, some (5, 50)⟩
    else if q = 192 then some ⟨256, 0, 129, some (2, 20)⟩
    else if q = 256 then some ⟨0, 0, 192, some (3, 30)⟩
    else if q = 320 then some ⟨0, 0, 129, some (9, 90)⟩
    else none
  link _ := none
  reg q :=
    if q = 64 then some ⟨48, 8, false⟩
    else if q = 128 ∨ q = 192 ∨ q = 256 ∨ q = 320 then some ⟨40, 8, true⟩
    else none
  top := 400
  top_ok := by
    intro a r h
    split at h
    · cases h; simp; omega
    · split at h
      · cases h; simp; omega
      · cases h
  dropped := []

/-- The object. -/
def exampleTreeObj : RBTree Unit := ⟨64, 4, ()⟩

/-- Its comparator, layout and allocator. -/
def exampleTreeEnv : TEnv Nat Nat Unit :=
  ⟨fun a b => decide (a < b), 40, 8, defaultNAlloc Placer.bump TNode.uninit true⟩

theorem exampleTree_rep : TreeRep exampleTreeObj exampleTreeMem exampleTree := by
  refine ⟨⟨⟨192, 320, 128, none⟩, 128, rfl, by decide, by decide, ?_, ?_, ?_⟩, by decide,
    by decide, by decide, rfl⟩
  · exact ⟨rfl, by decide, _, rfl, rfl, by decide,
      ⟨rfl, by decide, _, rfl, rfl, by decide, rfl,
        ⟨rfl, by decide, _, rfl, rfl, by decide, rfl, rfl⟩⟩,
      ⟨rfl, by decide, _, rfl, rfl, by decide, rfl, rfl⟩⟩
  · intro _; exact ⟨by decide, by decide⟩
  · intro h; cases h

theorem exampleTree_search : exampleTree.Search fun a b => exampleTreeEnv.lt a.2.1 b.2.1 := by
  simp [Tree.Search, exampleTree, exampleTreeEnv, Tree.inorder]

theorem exampleTree_order : StrictWeak exampleTreeEnv.lt := by
  refine ⟨?_, ?_, ?_⟩ <;> simp only [exampleTreeEnv, decide_eq_false_iff_not, decide_eq_true_eq]
  · intro a; omega
  · intro a b c; omega
  · intro a b c; omega

/-! ## C60 -/

/-- C60.  On any tree ordered by a strict weak order, `get` returns the value bound to a key
equivalent to the one asked for, if there is one, and `contains_key` tells whether there is. -/
theorem C60_tree_lookup {E : TEnv K V σ} (hw : StrictWeak E.lt) {T : RBTree σ} {m : TMem K V}
    {t : Tree (Nat × K × V)} (h : TreeRep T m t) (ho : t.Search fun a b => E.lt a.2.1 b.2.1) (k : K)
    {f : Nat} (hf : t.count < f) :
    T.get E f k m = .ok ((lookup (equiv E.lt) (entries t) k).map Prod.snd) ∧
      T.containsKey E f k m = .ok (lookup (equiv E.lt) (entries t) k).isSome := by
  have hg := h.get hw (search_increasing hw ho) k hf
  exact ⟨hg, by simp [RBTree.containsKey, hg]⟩

/-- C60.  In particular `get` finds `v` exactly if some entry has the value `v` and a key
equivalent to the one asked for, and finds nothing exactly if no entry's key is equivalent. -/
theorem C60_tree_lookup_iff {E : TEnv K V σ} (hw : StrictWeak E.lt) {T : RBTree σ}
    {m : TMem K V} {t : Tree (Nat × K × V)} (h : TreeRep T m t)
    (ho : t.Search fun a b => E.lt a.2.1 b.2.1) (k : K) {f : Nat} (hf : t.count < f) :
    (∀ v, T.get E f k m = .ok (some v) ↔
      ∃ k', (k', v) ∈ entries t ∧ E.lt k' k = false ∧ E.lt k k' = false) ∧
    (T.get E f k m = .ok none ↔
      ∀ e ∈ entries t, ¬ (E.lt e.1 k = false ∧ E.lt k e.1 = false)) := by
  have hi := search_increasing hw ho
  rw [h.get hw hi k hf]
  constructor
  · intro v
    simp only [Except.ok.injEq]
    constructor
    · intro hv
      cases hl : lookup (equiv E.lt) (entries t) k with
      | none => rw [hl] at hv; cases hv
      | some e =>
        rw [hl] at hv
        simp only [Option.map_some, Option.some.injEq] at hv
        subst hv
        have h1 := List.mem_of_find?_eq_some hl
        have h2 : equiv E.lt e.1 k = true := by simpa using List.find?_some hl
        exact ⟨e.1, h1, equiv_true.1 h2⟩
    · rintro ⟨k', hm, he⟩
      have he' := equiv_true.2 he
      cases hl : lookup (equiv E.lt) (entries t) k with
      | none =>
        have := List.find?_eq_none.1 hl _ hm
        rw [he'] at this
        exact absurd rfl this
      | some e =>
        have h1 := List.mem_of_find?_eq_some hl
        have h2 : equiv E.lt e.1 k = true := by simpa using List.find?_some hl
        obtain ⟨x, hx, rfl⟩ := List.mem_map.1 h1
        obtain ⟨y, hy, hye⟩ := List.mem_map.1 hm
        have := increasing_unique hw hi hx hy h2 (by rw [hye]; exact he')
        subst this
        simp [hye]
  · simp only [Except.ok.injEq, Option.map_eq_none_iff]
    unfold lookup
    rw [List.find?_eq_none]
    constructor
    · intro h e he h2; exact h e he (equiv_true.2 h2)
    · intro h e he h2; exact h e he (equiv_true.1 h2)

/-- The hypotheses hold of the example tree. -/
example : TreeRep exampleTreeObj exampleTreeMem exampleTree ∧ StrictWeak exampleTreeEnv.lt ∧
    (exampleTree.Search fun a b => exampleTreeEnv.lt a.2.1 b.2.1) ∧
    [0, 2, 3, 4, 5, 9, 10].map (fun k => exampleTreeObj.get exampleTreeEnv 5 k exampleTreeMem) =
      [none, some 20, some 30, none, some 50, some 90, none].map .ok :=
  ⟨exampleTree_rep, exampleTree_order, exampleTree_search, by decide +kernel⟩

/-! ## C61 -/

/-- C61.  Iterating yields the entries from left to right, each once, and then ends.  Those of a
search tree are in increasing order. -/
theorem C61_tree_iter {T : RBTree σ} {m : TMem K V} {t : Tree (Nat × K × V)} (h : TreeRep T m t)
    {f : Nat} (hf : t.count + 2 ≤ f) :
    T.toList f m = .ok (entries t) ∧
      ∀ lt : K → K → Bool, StrictWeak lt → (t.Search fun a b => lt a.2.1 b.2.1) →
        Increasing lt (entries t) :=
  ⟨h.toList hf, fun _ hw ho => search_increasing hw ho⟩

/-- C61.  The same for a set. -/
theorem C61_set_iter {T : RBTree σ} {m : TMem K Unit} {t : Tree (Nat × K × Unit)}
    (h : TreeRep T m t) {f : Nat} (hf : t.count + 2 ≤ f) :
    T.keyList f m = .ok ((entries t).map Prod.fst) := by
  simp [RBTree.keyList, h.toList hf]

/-- C61.  A mutable iterator yields the same entries, and the values it was used to change are
changed, each once; nothing else is. -/
theorem C61_tree_iter_mut {T : RBTree σ} {m : TMem K V} {t : Tree (Nat × K × V)} (h : TreeRep T m t)
    (g : K → V → V) {f : Nat} (hf : t.count + 2 ≤ f) :
    ∃ m', T.forEachMut g f m = .ok (entries t, m') ∧
      TreeRep T m' (t.map fun x => (x.1, (x.2.1, g x.2.1 x.2.2))) ∧
      T.toList f m' = .ok ((entries t).map fun e => (e.1, g e.1 e.2)) ∧
      (∀ p, p ∉ nodeAddrs t → m'.node p = m.node p) ∧ m'.reg = m.reg ∧
      m'.dropped = m.dropped := by
  obtain ⟨m', h1, h2, h3, h4, _, h6⟩ := h.forEachMut g hf
  refine ⟨m', h1, h2, ?_, h3, h4, h6⟩
  have := h2.toList (f := f) (by rw [count_map]; exact hf)
  rw [this, ← entries_map (fun e => (e.1, g e.1 e.2))]

/-- C61.  Any number of calls of `next`, more than there are entries or fewer: call number `i` returns
the entry number `i`, and every call past the last entry returns `None`. -/
theorem C61_tree_iter_calls {T : RBTree σ} {m : TMem K V} {t : Tree (Nat × K × V)}
    (h : TreeRep T m t) {f : Nat} (hf : t.count + 2 ≤ f) (n : Nat) :
    ∃ it it', T.iter m = .ok it ∧
      it.look f n m = .ok ((List.range n).map fun i => (entries t)[i]?, it') :=
  h.look hf n

/-- C61.  Any number of calls of `next` of the iterator `iter_mut` returns, a caller replacing the
values it is handed one by one, each in its own way, and stopping anywhere: the calls return the
entries as they were, the tree has the same nodes in the same places and its entries are those the
caller made of the ones it was handed, followed by the others as they were; nothing else changes. -/
theorem C61_tree_iter_mut_calls {T : RBTree σ} {m : TMem K V} {t : Tree (Nat × K × V)}
    (h : TreeRep T m t) {f : Nat} (hf : t.count + 2 ≤ f) (gs : List (K → V → V)) :
    ∃ it it' m' t', T.iter m = .ok it ∧
      it.calls f gs m =
        .ok ((List.range gs.length).map fun i => (entries t)[i]?, it', m') ∧
      TreeRep T m' t' ∧ t'.map Prod.fst = t.map Prod.fst ∧
      T.toList f m' = .ok (alter gs (entries t)) ∧
      (∀ p, p ∉ nodeAddrs t → m'.node p = m.node p) ∧ m'.reg = m.reg ∧
      m'.dropped = m.dropped := by
  obtain ⟨it, it', m', t', h1, h2, h3, h4, h5, h6, h7, _, h9⟩ := h.calls hf gs
  refine ⟨it, it', m', t', h1, h2, h3, h5, ?_, h6, h7, h9⟩
  have hc : t'.count = t.count := by rw [← count_map Prod.fst, h5, count_map]
  rw [h3.toList (f := f) (by rw [hc]; exact hf), h4]

/-- C61.  What iteration yields is determined by the field `begin`: the entries from the node it
points to on, whichever node of the tree that is. -/
theorem C61_iter_from_begin {T : RBTree σ} {m : TMem K V} {t : Tree (Nat × K × V)} {n : TNode K V}
    {r : Nat} (hn : m.node T.anchor = some n) (hr : n.parent.addr = r)
    (ht : TreeAt m T.anchor t r) (hnd : (nodeAddrs t).Nodup) (h0 : T.anchor ≠ 0)
    (ha : T.anchor ∉ nodeAddrs t) {pre post : List (Nat × K × V)} {x : Nat × K × V}
    (hs : t.inorder = pre ++ x :: post) (hb : n.right = x.1) {f : Nat} (hf : t.count + 2 ≤ f) :
    T.toList f m = .ok ((x :: post).map Prod.snd) := by
  have hsub : ∀ y ∈ x :: post, y ∈ t.inorder := by
    intro y hy; rw [hs]; exact List.mem_append_right _ hy
  have hsucc : Succ f m (.ok T.anchor) ((x :: post).map Prod.fst) := by
    have := succ_anchor ht hnd hn hr h0 ha hf
    unfold nodeAddrs at this
    rw [hs, List.map_append] at this
    exact this.suffix
  have hlen : (x :: post).length ≤ t.count := by
    rw [← length_inorder t, hs, List.length_append]; omega
  have := drain_ok hsucc (fun h => ha (by
      obtain ⟨y, hy, hye⟩ := List.mem_map.1 h
      exact hye ▸ List.mem_map_of_mem (hsub y hy)))
    (fun y hy => ht.ne_zero (List.mem_map_of_mem (hsub y hy)))
    (fun y hy => ht.pair (hsub y hy)) (f := f) (by omega)
  simp only [RBTree.toList, RBTree.iter, RBTree.first, NMem.get_some hn, Exec.ok_bind, hb]
  exact this

/-- So an object whose first word is the right-most node — where a node has its right child, which
is how the anchor of the C++ library is laid out — iterates over its last entry only. -/
theorem C61_iter_rightmost_begin {T : RBTree σ} {m : TMem K V} {t : Tree (Nat × K × V)}
    {n : TNode K V} {r : Nat} (hn : m.node T.anchor = some n) (hr : n.parent.addr = r)
    (ht : TreeAt m T.anchor t r) (hnd : (nodeAddrs t).Nodup) (h0 : T.anchor ≠ 0)
    (ha : T.anchor ∉ nodeAddrs t) {pre : List (Nat × K × V)} {x : Nat × K × V}
    (hs : t.inorder = pre ++ [x]) (hb : n.right = x.1) {f : Nat} (hf : t.count + 2 ≤ f) :
    T.toList f m = .ok [x.2] :=
  C61_iter_from_begin hn hr ht hnd h0 ha hs hb hf

/-- A concrete iteration. -/
example : exampleTreeObj.toList 6 exampleTreeMem = .ok [(2, 20), (3, 30), (5, 50), (9, 90)] := by
  decide +kernel

/-- A caller that adds the key to the first value, doubles the second, and stops: two
entries are as they were. -/
example : (do
    let it ← exampleTreeObj.iter exampleTreeMem
    let (os, _, m) ← it.calls 6 [fun k v => v + k, fun _ v => 2 * v] exampleTreeMem
    .ok (os, ← exampleTreeObj.toList 6 m)) =
    Except.ok ([some (2, 20), some (3, 30)], [(2, 22), (3, 60), (5, 50), (9, 90)]) := by
  decide +kernel

/-- Six calls on four entries. -/
example : (do
    let it ← exampleTreeObj.iter exampleTreeMem
    let (os, _) ← it.look 6 6 exampleTreeMem
    .ok os) =
    Except.ok [some (2, 20), some (3, 30), some (5, 50), some (9, 90), none, none] := by
  decide +kernel

/-! ## C62 -/

/-- Blocks of the default allocator that hold one node each. -/
structure HeapNodes (m : TMem K V) (size align : Nat) (ps : List Nat) : Prop where
  wf : m.WF
  reg : ∀ p ∈ ps, m.reg p = some ⟨size, align, true⟩
  solid : ∀ p ∈ ps, ∀ q, p < q → q < p + size → m.node q = none
  aligned : ∀ p ∈ ps, 0 < align → align ∣ p

/-- C62.  Dropping a tree of any shape calls `deallocate` exactly once for each of its nodes, with
the layout of a node, and does not use a node after freeing it.  This is for any allocator to
which a node in use can be given back (`NFree`: the default allocator, the pools), `qs` being
nodes of the same allocator that are not part of the tree. -/
theorem C62_drop_frees_each_node_once {T : RBTree σ} {E : TEnv K V σ}
    {Inv : σ → TMem K V → List Nat → Prop} (L : NFree E.A E.size E.align Inv)
    {m : TMem K V} {t : Tree (Nat × K × V)} {qs : List Nat} (h : TreeRep T m t)
    (hi : Inv T.al m (nodeAddrs t ++ qs)) {f : Nat} (hf : t.count ≤ f) :
    ∃ (order : List Nat) (a' : σ) (m' : TMem K V), order.Perm (nodeAddrs t) ∧
      T.drop E f m = .ok (a', m') ∧
      deallocAll E.A E.size E.align order T.al m = .ok (a', m') ∧
      (∀ q, m'.node q = if q ∈ nodeAddrs t then none else m.node q) ∧ Inv a' m' qs := by
  obtain ⟨o, a', m', h1, h2, h3, h4, _, h6⟩ := h.freeNodes L hi hf
  exact ⟨o, a', m', h1, by simp [RBTree.drop, h2], h3, h4, h6⟩

theorem TreeRep.freeNodes_default {T : RBTree Unit} {E : TEnv K V Unit} {P : Placer (TNode K V) (K ⊕ V)}
    {u : TNode K V} (hE : E.A = defaultNAlloc P u true) (hsz : 0 < E.size)
    {m : TMem K V} {t : Tree (Nat × K × V)} (h : TreeRep T m t)
    (hb : HeapNodes m E.size E.align (nodeAddrs t)) {f : Nat} (hf : t.count ≤ f) :
    ∃ m', T.freeNodes E f m = .ok (T, m') ∧
      (∀ q, m'.reg q = if q ∈ nodeAddrs t then none else m.reg q) ∧
      (∀ q, m'.node q = if q ∈ nodeAddrs t then none else m.node q) ∧ m'.dropped = m.dropped := by
  obtain ⟨n, r, hn, _, _, ht, _⟩ := h.anchor
  have hi : DefInv (m.without (nodeAddrs t)) E.size E.align () m (nodeAddrs t) := by
    refine DefInv.of_blocks hb.wf h.nodup hb.reg ?_ hb.solid hb.aligned
    intro p hp he
    obtain ⟨n, hn⟩ := ht.live hp
    rw [hn] at he; cases he
  have L := defaultNAlloc_law P u true hsz (fun _ => ⟨rfl, rfl⟩) (m.without (nodeAddrs t))
    (dbytes := E.size) (dalign := E.align) (align := E.align)
  rw [← hE] at L
  obtain ⟨o, a', m', _, g2, _, g4, g5, g6⟩ := h.freeNodes L.free (qs := []) (by simpa using hi) hf
  refine ⟨m', g2, ?_, g4, g5⟩
  intro q
  rw [g6.done]
  rfl

/-- C62 with the default allocator: afterwards exactly the blocks of the tree are returned.  As
freeing a block twice is an error, so would be a second call for a node. -/
theorem C62_drop_returns_memory {T : RBTree Unit} {E : TEnv K V Unit}
    {P : Placer (TNode K V) (K ⊕ V)} {u : TNode K V} (hE : E.A = defaultNAlloc P u true)
    (hsz : 0 < E.size) {m : TMem K V} {t : Tree (Nat × K × V)} (h : TreeRep T m t)
    (hb : HeapNodes m E.size E.align (nodeAddrs t)) {f : Nat} (hf : t.count ≤ f) :
    ∃ m', T.drop E f m = .ok ((), m') ∧
      (∀ q, m'.reg q = if q ∈ nodeAddrs t then none else m.reg q) ∧
      (∀ q, m'.node q = if q ∈ nodeAddrs t then none else m.node q) := by
  obtain ⟨m', h1, h2, h3, _⟩ := h.freeNodes_default hE hsz hb hf
  exact ⟨m', by simp [RBTree.drop, h1], h2, h3⟩

/-- The hypotheses hold of the example tree. -/
theorem exampleTree_heap : HeapNodes exampleTreeMem 40 8 (nodeAddrs exampleTree) := by
  have hreg : ∀ a r, exampleTreeMem.reg a = some r →
      (a = 64 ∧ r.size = 48) ∨ ((a = 128 ∨ a = 192 ∨ a = 256 ∨ a = 320) ∧ r.size = 40) := by
    intro a r h
    simp only [exampleTreeMem] at h
    split at h
    · rename_i h1; cases h; exact .inl ⟨h1, rfl⟩
    · split at h
      · rename_i h2; cases h; exact .inr ⟨h2, rfl⟩
      · cases h
  have hnode : ∀ q, exampleTreeMem.node q ≠ none →
      q = 64 ∨ q = 128 ∨ q = 192 ∨ q = 256 ∨ q = 320 := by
    intro q h
    by_contra hc
    simp only [not_or] at hc
    exact h (by simp [exampleTreeMem, hc])
  have hmem : ∀ p ∈ nodeAddrs exampleTree, p = 128 ∨ p = 192 ∨ p = 256 ∨ p = 320 := by
    have he : nodeAddrs exampleTree = [192, 256, 128, 320] := rfl
    rw [he]
    intro p hp
    simp only [List.mem_cons, List.not_mem_nil, or_false] at hp
    omega
  refine ⟨⟨?_, ?_, ?_⟩, ?_, ?_, ?_⟩
  · intro a b r r' h1 h2 hne
    have := hreg a r h1
    have := hreg b r' h2
    omega
  · intro q hq
    rcases hnode q hq with rfl | rfl | rfl | rfl | rfl
    · exact ⟨64, ⟨48, 8, false⟩, rfl, by omega, by simp⟩
    · exact ⟨128, ⟨40, 8, true⟩, rfl, by omega, by simp⟩
    · exact ⟨192, ⟨40, 8, true⟩, rfl, by omega, by simp⟩
    · exact ⟨256, ⟨40, 8, true⟩, rfl, by omega, by simp⟩
    · exact ⟨320, ⟨40, 8, true⟩, rfl, by omega, by simp⟩
  · intro a r h
    have := hreg a r h
    omega
  · intro p hp
    rcases hmem p hp with rfl | rfl | rfl | rfl <;> rfl
  · intro p hp q h1 h2
    by_contra hc
    have := hmem p hp
    have := hnode q hc
    omega
  · intro p hp _
    have := hmem p hp
    omega

/-- In the example the nodes are freed in the order 3, 2, 9, 5. -/
example : (do
    let (_, m) ← exampleTreeObj.drop exampleTreeEnv 4 exampleTreeMem
    .ok ([64, 128, 192, 256, 320].map fun q => (m.reg q).isSome)) =
  (.ok [true, false, false, false, false] : Exec _) := by decide +kernel

/-! ## C63 -/

/-- C63 is false.  On every non-empty tree `clear` frees the nodes but leaves `size`, `begin` and
the root as they were: `len` is unchanged and `is_empty` is false, and looking up any key,
iterating, clearing again or dropping the tree uses freed memory. -/
theorem C63_clear_leaves_dangling_tree {T : RBTree Unit} {E : TEnv K V Unit}
    {P : Placer (TNode K V) (K ⊕ V)} {u : TNode K V} (hE : E.A = defaultNAlloc P u true)
    (hsz : 0 < E.size) {m : TMem K V} {t : Tree (Nat × K × V)} (h : TreeRep T m t)
    (hb : HeapNodes m E.size E.align (nodeAddrs t)) (hne : t ≠ .nil) {f : Nat} (hf : t.count ≤ f) :
    ∃ T' m', T.clear E f m = .ok (T', m') ∧ T'.len = (entries t).length ∧ T'.isEmpty = false ∧
      ∀ g, 0 < g → (∀ k, T'.get E g k m' = .error .ub) ∧ T'.toList g m' = .error .ub ∧
        T'.clear E g m' = .error .ub ∧ T'.drop E g m' = .error .ub := by
  obtain ⟨m', h1, _, h3, _⟩ := h.freeNodes_default hE hsz hb hf
  obtain ⟨n, r, hn, hr, _, ht, h5, _⟩ := h.anchor
  have hr0 : r ≠ 0 := fun e => hne (ht.nil_iff.1 e)
  have ha : m'.node T.anchor = some n := by rw [h3, if_neg h.apart, hn]
  have hroot : m'.node r = none := by rw [h3, if_pos (ht.root_mem hr0)]
  have hcount : t.count ≠ 0 := by
    cases t with
    | nil => exact absurd rfl hne
    | node => simp [Tree.count]
  have hbm : n.right ∈ nodeAddrs t := List.mem_of_mem_head? (h5 hne).1
  have hb0 := ht.ne_zero hbm
  have hba : n.right ≠ T.anchor := fun e => h.apart (e ▸ hbm)
  have hfirst : m'.node n.right = none := by rw [h3, if_pos hbm]
  refine ⟨T, m', h1, by rw [length_entries]; exact h.size, ?_, ?_⟩
  · simp [RBTree.isEmpty, RBTree.len, h.size, hcount]
  · intro g hg
    obtain ⟨g, rfl⟩ : ∃ k, g = k + 1 := ⟨g - 1, by omega⟩
    refine ⟨?_, ?_, ?_, ?_⟩
    · intro k
      simp [RBTree.get, RBTree.find, RBTree.root, NMem.get_some ha, hr, RBTree.findLoop, hr0,
        NMem.get_none hroot]
    · simp [RBTree.toList, RBTree.iter, RBTree.first, NMem.get_some ha, RBTree.Iter.drain,
        RBTree.Iter.next, hb0, hba, nodeNext, NMem.get_none hfirst]
    · simp [RBTree.clear, RBTree.freeNodes, RBTree.root, NMem.get_some ha, hr, hr0,
        RBTree.freeTree, NMem.get_none hroot]
    · simp [RBTree.drop, RBTree.freeNodes, RBTree.root, NMem.get_some ha, hr, hr0,
        RBTree.freeTree, NMem.get_none hroot]

/-- What is true of C63: `clear` returns each node to the allocator exactly once; on an empty
tree it changes nothing, so an empty tree stays empty and can be dropped.  Missing: the tree must
be empty afterwards, see `C63_clear_leaves_dangling_tree`. -/
theorem C63_clear_partial {T : RBTree σ} {E : TEnv K V σ}
    {Inv : σ → TMem K V → List Nat → Prop} (L : NFree E.A E.size E.align Inv)
    {m : TMem K V} {t : Tree (Nat × K × V)} {qs : List Nat} (h : TreeRep T m t)
    (hi : Inv T.al m (nodeAddrs t ++ qs)) {f : Nat} (hf : t.count ≤ f) :
    (∃ (order : List Nat) (T' : RBTree σ) (m' : TMem K V), order.Perm (nodeAddrs t) ∧
      T.clear E f m = .ok (T', m') ∧
      deallocAll E.A E.size E.align order T.al m = .ok (T'.al, m')) ∧
    (t = .nil → T.clear E f m = .ok (T, m) ∧ T.len = 0 ∧ T.isEmpty = true ∧
      T.toList (f + 2) m = .ok [] ∧ T.drop E f m = .ok (T.al, m)) := by
  constructor
  · obtain ⟨o, a', m', h1, h2, h3, h4, _, h6⟩ := h.freeNodes L hi hf
    exact ⟨o, _, m', h1, h2, h3⟩
  · rintro rfl
    obtain ⟨n, r, hn, hr, _, ht, _⟩ := h.anchor
    have hr0 : r = 0 := ht
    have hs : T.size = 0 := h.size
    refine ⟨?_, hs, by simp [RBTree.isEmpty, RBTree.len, hs], h.toList (by simp [Tree.count]), ?_⟩
    · simp [RBTree.clear, RBTree.freeNodes, RBTree.root, NMem.get_some hn, hr, hr0]
    · simp [RBTree.drop, RBTree.freeNodes, RBTree.root, NMem.get_some hn, hr, hr0]

/-- The example tree cleared and then dropped: a double free. -/
example : (do
    let (t, m) ← exampleTreeObj.clear exampleTreeEnv 4 exampleTreeMem
    .ok (t.len, (t.drop exampleTreeEnv 4 m).isOk)) = (.ok (4, false) : Exec _) := by
  decide +kernel

/-! ## C64 -/

/-- C64 is false.  Dropping a tree runs no destructor.  So what should be dropped — the keys if
keys have destructors, the values if values do — is dropped exactly if there is nothing to drop:
the tree is empty or neither type has a destructor.  Missing: all other trees. -/
theorem C64_entries_dropped_iff_partial {T : RBTree Unit} {E : TEnv K V Unit}
    {P : Placer (TNode K V) (K ⊕ V)} {u : TNode K V} (hE : E.A = defaultNAlloc P u true)
    (hsz : 0 < E.size) {m : TMem K V} {t : Tree (Nat × K × V)} (h : TreeRep T m t)
    (hb : HeapNodes m E.size E.align (nodeAddrs t)) {f : Nat} (hf : t.count ≤ f) (ndK ndV : Bool) :
    ∃ m', T.drop E f m = .ok ((), m') ∧ m'.dropped = m.dropped ∧
      (m'.dropped.Perm (m.dropped ++ (if ndK then (entries t).map fun e => .inl e.1 else []) ++
          (if ndV then (entries t).map fun e => .inr e.2 else [])) ↔
        t = .nil ∨ (ndK = false ∧ ndV = false)) := by
  obtain ⟨m', h1, _, _, h4⟩ := h.freeNodes_default hE hsz hb hf
  refine ⟨m', by simp [RBTree.drop, h1], h4, ?_⟩
  rw [h4]
  constructor
  · intro hp
    have hlen := hp.length_eq
    have hz : t.count = 0 → t = .nil := by
      intro hz
      cases t with
      | nil => rfl
      | node => simp [Tree.count] at hz
    cases ndK <;> cases ndV <;> simp [length_entries] at hlen ⊢ <;> exact hz (by omega)
  · rintro (rfl | ⟨rfl, rfl⟩)
    · simp
    · simp

/-- The hypotheses hold of the example tree, whose four keys and values are leaked. -/
example : HeapNodes exampleTreeMem exampleTreeEnv.size exampleTreeEnv.align (nodeAddrs exampleTree) ∧
    (do let (_, m) ← exampleTreeObj.drop exampleTreeEnv 4 exampleTreeMem
        .ok m.dropped) = (.ok [] : Exec (List (Nat ⊕ Nat))) :=
  ⟨exampleTree_heap, by decide +kernel⟩

/-! ## C65 -/

/-- A write to the word that holds parent and colour. -/
inductive WordOp where
  | color (c : Color)
  | ptr (p : BitVec 64)

/-- The write done by the code. -/
def WordOp.write : WordOp → PWord → PWord
  | .color c, w => w.setColor c
  | .ptr p, w => w.setPtr p

/-- The colour last written, if any. -/
def lastColor (c : Color) (ops : List WordOp) : Color :=
  ops.foldl (fun c op => match op with | .color d => d | .ptr _ => c) c

/-- The pointer last written, if any. -/
def lastPtr (p : BitVec 64) (ops : List WordOp) : BitVec 64 :=
  ops.foldl (fun p op => match op with | .color _ => p | .ptr q => q) p

/-- C65.  After creating the word with any colour and any even pointer and any sequence of writes
of colours and even pointers, reading the colour and the pointer gives what was last written. -/
theorem C65_parent_color_lossless (c : Color) (p : BitVec 64) (hp : p.toNat % 2 = 0)
    (ops : List WordOp) (ho : ∀ q, WordOp.ptr q ∈ ops → q.toNat % 2 = 0) :
    let w := ops.foldl (fun w op => op.write w) (PWord.new c p)
    w.color = some (lastColor c ops) ∧ w.ptr = lastPtr p ops := by
  have key : ∀ (ops : List WordOp) (w : PWord) (c : Color) (p : BitVec 64),
      (∀ q, WordOp.ptr q ∈ ops → q.toNat % 2 = 0) → w.color = some c → w.ptr = p →
      (ops.foldl (fun w op => op.write w) w).color = some (lastColor c ops) ∧
      (ops.foldl (fun w op => op.write w) w).ptr = lastPtr p ops := by
    intro ops
    induction ops with
    | nil => intro w c p _ h1 h2; exact ⟨h1, h2⟩
    | cons op ops ih =>
      intro w c p ho h1 h2
      have ho' : ∀ q, WordOp.ptr q ∈ ops → q.toNat % 2 = 0 :=
        fun q hq => ho q (List.mem_cons_of_mem _ hq)
      cases op with
      | color d =>
        exact ih _ d p ho' (PWord.color_setColor w d) ((PWord.ptr_setColor w d).trans h2)
      | ptr q =>
        have hq := PWord.even_bit (ho q (by simp))
        exact ih _ c q ho' ((PWord.color_setPtr w hq).trans h1) (PWord.ptr_setPtr w hq)
  have hp' := PWord.even_bit hp
  refine key ops _ c p ho ?_ ?_
  · unfold PWord.new
    rw [PWord.color_setPtr _ hp', PWord.color_setColor]
  · unfold PWord.new
    rw [PWord.ptr_setPtr _ hp']

/-- C65.  Every word has a colour and an even pointer: reading never panics. -/
theorem C65_color_total (w : PWord) : (∃ c, w.color = some c) ∧ w.ptr.toNat % 2 = 0 := by
  refine ⟨⟨_, w.color_eq⟩, ?_⟩
  have h := PWord.ptr_bit w (i := 0) (by omega)
  simp only [decide_true, Bool.not_true, Bool.and_false] at h
  simp only [BitVec.getLsbD, Nat.testBit_zero, decide_eq_false_iff_not] at h
  omega

/-- The pointers have to be even: an odd one destroys the colour, and comes back as another
pointer. -/
theorem C65_odd_pointer (c : Color) {p : BitVec 64} (hp : p.toNat % 2 = 1) :
    (PWord.new c p).color = some .black ∧ (PWord.new c p).ptr ≠ p := by
  have hb : p.getLsbD 0 = true := by simp [BitVec.getLsbD, Nat.testBit_zero, hp]
  refine ⟨?_, fun h => ?_⟩
  · rw [PWord.color_eq]
    unfold PWord.new PWord.setPtr
    rw [BitVec.getLsbD_or, hb]
    simp
  · have h0 := PWord.ptr_bit (PWord.new c p) (i := 0) (by omega)
    rw [h, hb] at h0
    simp at h0

example : (PWord.new .red 1).color = some .black ∧ (PWord.new .red 1).ptr = 0 := by decide

example : ((PWord.new .black 0x7fff0010).setColor .red).color = some .red ∧
    (((PWord.new .black 0x7fff0010).setPtr 64).setColor .black).ptr = 64 := by decide

/-! ## C73 -/

/-- C73.  A history of calls on an ordered tree returns what the calls return on the increasing
list of its entries.  Afterwards the object holds a tree of the same nodes with the resulting
entries; nothing outside the tree changed, and nothing was allocated, freed or dropped. -/
theorem C73_tree_history {E : TEnv K V σ} (hw : StrictWeak E.lt) {T : RBTree σ} {m : TMem K V}
    {t : Tree (Nat × K × V)} (h : TreeRep T m t) (ho : t.Search fun a b => E.lt a.2.1 b.2.1)
    (ops : List (TreeOp K V)) {f : Nat} (hf : t.count + 2 ≤ f) :
    ∃ m' t', T.run E f ops m = .ok ((TreeOp.run E.lt ops (entries t)).1, m') ∧
      TreeRep T m' t' ∧ entries t' = (TreeOp.run E.lt ops (entries t)).2 ∧ nodeAddrs t' = nodeAddrs t ∧
      Increasing E.lt (entries t') ∧ (∀ p, p ∉ nodeAddrs t → m'.node p = m.node p) ∧
      m'.reg = m.reg ∧ m'.link = m.link ∧ m'.dropped = m.dropped := by
  have hi := search_increasing hw ho
  clear ho
  induction ops generalizing m t with
  | nil => exact ⟨m, t, rfl, h, rfl, rfl, hi, fun _ _ => rfl, rfl, rfl, rfl⟩
  | cons op ops ih =>
    have key : ∃ m1 t1, T.step E f op m = .ok ((op.step E.lt (entries t)).1, m1) ∧
        TreeRep T m1 t1 ∧ entries t1 = (op.step E.lt (entries t)).2 ∧ nodeAddrs t1 = nodeAddrs t ∧
        t1.count = t.count ∧ Increasing E.lt (entries t1) ∧
        (∀ p, p ∉ nodeAddrs t → m1.node p = m.node p) ∧
        m1.reg = m.reg ∧ m1.link = m.link ∧ m1.dropped = m.dropped := by
      have hinc : ∀ g : K × V → K × V, (∀ e, (g e).1 = e.1) →
          Increasing E.lt ((entries t).map g) := by
        intro g hg
        unfold Increasing at *
        rw [List.pairwise_map]
        exact hi.imp (by intro a b hab; rw [hg, hg]; exact hab)
      cases op with
      | get k =>
        exact ⟨m, t, by simp [RBTree.step, h.get hw hi k (f := f) (by omega), TreeOp.step], h, rfl,
          rfl, rfl, hi, fun _ _ => rfl, rfl, rfl, rfl⟩
      | contains k =>
        exact ⟨m, t, by simp [RBTree.step, RBTree.containsKey, h.get hw hi k (f := f) (by omega),
          TreeOp.step], h, rfl, rfl, rfl, hi, fun _ _ => rfl, rfl, rfl, rfl⟩
      | modify k g =>
        obtain ⟨m1, e1, e2, e3, e4, e5, e6⟩ := h.modify hw hi k g (f := f) (by omega)
        refine ⟨m1, _, by simp [RBTree.step, e1, TreeOp.step], e2, ?_, ?_, count_map _ _, ?_, e3,
          e4, e5, e6⟩
        · exact entries_map (fun e => if equiv E.lt e.1 k then (e.1, g e.2) else e) t
        · exact nodeAddrs_map (fun e => if equiv E.lt e.1 k then (e.1, g e.2) else e) t
        · rw [entries_map (fun e => if equiv E.lt e.1 k then (e.1, g e.2) else e) t]
          refine hinc _ (fun e => ?_)
          split <;> rfl
      | len =>
        exact ⟨m, t, by simp [RBTree.step, RBTree.len, h.size, TreeOp.step, length_entries], h, rfl,
          rfl, rfl, hi, fun _ _ => rfl, rfl, rfl, rfl⟩
      | isEmpty =>
        refine ⟨m, t, ?_, h, rfl, rfl, rfl, hi, fun _ _ => rfl, rfl, rfl, rfl⟩
        have : (T.size == 0) = decide (entries t = []) := by
          rw [h.size, ← length_entries]
          cases entries t <;> rfl
        simp [RBTree.step, RBTree.isEmpty, RBTree.len, TreeOp.step, this]
      | iter =>
        exact ⟨m, t, by simp [RBTree.step, h.toList hf, TreeOp.step], h, rfl,
          rfl, rfl, hi, fun _ _ => rfl, rfl, rfl, rfl⟩
      | iterMut g =>
        obtain ⟨m1, e1, e2, e3, e4, e5, e6⟩ := h.forEachMut g hf
        refine ⟨m1, _, by simp [RBTree.step, e1, TreeOp.step], e2, ?_, ?_, count_map _ _, ?_, e3,
          e4, e5, e6⟩
        · exact entries_map (fun e => (e.1, g e.1 e.2)) t
        · exact nodeAddrs_map (fun e => (e.1, g e.1 e.2)) t
        · rw [entries_map (fun e => (e.1, g e.1 e.2)) t]
          exact hinc _ (fun e => rfl)
    obtain ⟨m1, t1, e1, e2, e3, e4, e5, e6, e7, e8, e9, e10⟩ := key
    obtain ⟨m2, t2, g1, g2, g3, g4, g6, g7, g8, g9, g10⟩ := ih e2 (by omega) e6
    rw [e3] at g1 g3
    refine ⟨m2, t2, by simp [RBTree.run, e1, g1, TreeOp.run], g2, by simp [TreeOp.run, g3],
      g4.trans e4, g6, ?_, g8.trans e8, g9.trans e9, g10.trans e10⟩
    intro p hp
    rw [g7 p (by rw [e4]; exact hp), e7 p hp]

example : (exampleTreeObj.run exampleTreeEnv 6
    [.len, .modify 3 (· + 1), .get 3, .iterMut (fun k v => k + v), .iter, .contains 4] exampleTreeMem).map
      Prod.fst =
  .ok [.nat 4, .bool true, .val (some 31), .pairs [(2, 20), (3, 31), (5, 50), (9, 90)],
    .pairs [(2, 22), (3, 34), (5, 55), (9, 99)], .bool false] := by decide +kernel

/-- C73.  A newly created tree is an empty tree for every call. -/
theorem C73_new_tree_empty {E : TEnv K V σ} (a : σ) {s : Nat} {m : TMem K V} {n : TNode K V}
    (hs : s ≠ 0) (hn : m.node s = some n) :
    ∃ T m', RBTree.newIn a s m = .ok (T, m') ∧ TreeRep T m' .nil ∧
      (∀ p, p ≠ s → m'.node p = m.node p) ∧ T.len = 0 ∧ T.isEmpty = true ∧
      (∀ f k, 0 < f → T.get E f k m' = .ok none) ∧ (∀ f, 0 < f → T.toList f m' = .ok []) ∧
      (∀ f, T.drop E f m' = .ok (a, m')) := by
  have hn' : (Function.update m.node s (some { n with right := 0, left := 0, parent := 0 })) s =
      some { n with right := 0, left := 0, parent := 0 } := by simp
  refine ⟨⟨s, 0, a⟩, _, by simp [RBTree.newIn, NMem.modify_some hn]; rfl, ?_, ?_, rfl, rfl, ?_, ?_, ?_⟩
  · exact ⟨⟨_, 0, hn', show (0 : PWord).toNat = 0 by decide,
      show PWord.addr 0 = 0 by decide, rfl, fun h => absurd rfl h, fun _ => .inl rfl⟩, hs,
      by simp, by simp, rfl⟩
  · intro p hp; simp [hp]
  · intro f k hf
    obtain ⟨f, rfl⟩ : ∃ g, f = g + 1 := ⟨f - 1, by omega⟩
    simp [RBTree.get, RBTree.find, RBTree.root, NMem.get, RBTree.findLoop]
  · intro f hf
    obtain ⟨f, rfl⟩ : ∃ g, f = g + 1 := ⟨f - 1, by omega⟩
    simp [RBTree.toList, RBTree.iter, RBTree.first, NMem.get, RBTree.Iter.drain, RBTree.Iter.next]
  · intro f
    simp [RBTree.drop, RBTree.freeNodes, RBTree.root, NMem.get]

/-- A new tree where the example's anchor is. -/
example : (do
    let (T, m) ← RBTree.newIn () exampleTreeObj.anchor exampleTreeMem
    let o ← T.get exampleTreeEnv 3 5 m
    let l ← T.toList 3 m
    .ok (T.len, o, l)) = (.ok (0, none, []) : Exec _) := by decide +kernel

/-! ## C74 -/

/-- C74.  On a non-empty ordered tree the search for the place of a new key returns a node next to
that place: among the entries from left to right, the key goes right before the node if it is
less than the node's key and right after it otherwise; all entries before that place are not
greater than the key, all entries after it are greater; and the child slot of the node on that
side is free.  On an empty tree it returns nothing. -/
theorem C74_insertion_position {E : TEnv K V σ} (hw : StrictWeak E.lt) {T : RBTree σ}
    {m : TMem K V} {t : Tree (Nat × K × V)} (h : TreeRep T m t)
    (ho : t.Search fun a b => E.lt a.2.1 b.2.1) (k : K) {f : Nat} (hf : t.count < f) :
    (t = .nil ∧ T.position E f k m = .ok 0) ∨
    ∃ pre x post n, t.inorder = pre ++ x :: post ∧ m.node x.1 = some n ∧
      T.position E f k m = .ok x.1 ∧
      (∀ y ∈ pre, E.lt k y.2.1 = false) ∧ (∀ y ∈ post, E.lt k y.2.1 = true) ∧
      if E.lt k x.2.1 then n.left = 0 else n.right = 0 := by
  obtain ⟨n, r, hn, h1, _, h3, _⟩ := h.anchor
  have := positionLoop_ok hw k h3 (search_increasing hw ho) (prev := 0) hf
  simp only [RBTree.position, RBTree.root, NMem.get_some hn, Exec.ok_bind, h1]
  exact this

example : [0, 2, 4, 7, 10].map (fun k => exampleTreeObj.position exampleTreeEnv 5 k exampleTreeMem) =
    [192, 256, 256, 320, 320].map .ok := by decide +kernel

/-! ## C75 -/

private theorem modify_ok {m : TMem K V} {p : Nat} {n : TNode K V} (h : m.node p = some n)
    (g : TNode K V → TNode K V) :
    ∃ m', m.modify p g = .ok m' ∧ m'.node = Function.update m.node p (some (g n)) :=
  ⟨_, NMem.modify_some h g, rfl⟩

/-- C75.  Linking a child (or none) below a node: the node's child is the one given, the child's
parent is the node and its colour is kept, the old child is returned, and nothing else changes
(the old child still names its old parent). -/
theorem C75_set_left {m : TMem K V} {self : BitVec 64} (he : self.toNat % 2 = 0) {left : Nat}
    {n : TNode K V} (hn : m.node self.toNat = some n)
    (hl : left ≠ 0 → ∃ c, m.node left = some c) (hne : left ≠ self.toNat) :
    ∃ m', nodeSetLeft self left m = .ok (n.left, m') ∧
      m'.node self.toNat = some { n with left := left } ∧
      (∀ c, left ≠ 0 → m.node left = some c → ∃ c', m'.node left = some c' ∧
        c'.parent.addr = self.toNat ∧ c'.parent.color = c.parent.color ∧
        c'.left = c.left ∧ c'.right = c.right ∧ c'.pair = c.pair) ∧
      (∀ q, q ≠ self.toNat → (q = left → left = 0) → m'.node q = m.node q) := by
  have hb := PWord.even_bit he
  obtain ⟨m1, e1, e2⟩ := modify_ok hn (fun n => { n with left := left })
  by_cases h0 : left = 0
  · refine ⟨m1, by simp only [nodeSetLeft, NMem.get_some hn, e1, Exec.ok_bind]; rw [if_neg (not_not.2 h0)], by rw [e2]; simp,
      fun c h => absurd h0 h, ?_⟩
    intro q hq _; rw [e2]; simp [hq]
  · obtain ⟨c, hc⟩ := hl h0
    have hc' : m1.node left = some c := by rw [e2, Function.update_of_ne hne, hc]
    obtain ⟨m2, g1, g2⟩ := modify_ok hc' (fun n => { n with parent := n.parent.setPtr self })
    refine ⟨m2, ?_, ?_, ?_, ?_⟩
    · simp only [nodeSetLeft, NMem.get_some hn, e1, Exec.ok_bind, ne_eq, h0, not_false_eq_true,
        if_true, nodeSetParent, NMem.get_some hc', g1]
    · rw [g2, Function.update_of_ne (Ne.symm hne), e2]; simp
    · intro d _ hd
      rw [hc] at hd
      obtain rfl := Option.some.inj hd
      refine ⟨{ c with parent := c.parent.setPtr self }, by rw [g2, Function.update_self], ?_,
        PWord.color_setPtr _ hb, rfl, rfl, rfl⟩
      show (PWord.ptr _).toNat = _
      rw [PWord.ptr_setPtr _ hb]
    · intro q hq hql
      have : q ≠ left := fun e => h0 (hql e)
      rw [g2, Function.update_of_ne this, e2, Function.update_of_ne hq]

/-- C75 for the right child. -/
theorem C75_set_right {m : TMem K V} {self : BitVec 64} (he : self.toNat % 2 = 0) {right : Nat}
    {n : TNode K V} (hn : m.node self.toNat = some n)
    (hl : right ≠ 0 → ∃ c, m.node right = some c) (hne : right ≠ self.toNat) :
    ∃ m', nodeSetRight self right m = .ok (n.right, m') ∧
      m'.node self.toNat = some { n with right := right } ∧
      (∀ c, right ≠ 0 → m.node right = some c → ∃ c', m'.node right = some c' ∧
        c'.parent.addr = self.toNat ∧ c'.parent.color = c.parent.color ∧
        c'.left = c.left ∧ c'.right = c.right ∧ c'.pair = c.pair) ∧
      (∀ q, q ≠ self.toNat → (q = right → right = 0) → m'.node q = m.node q) := by
  have hb := PWord.even_bit he
  obtain ⟨m1, e1, e2⟩ := modify_ok hn (fun n => { n with right := right })
  by_cases h0 : right = 0
  · refine ⟨m1, by simp only [nodeSetRight, NMem.get_some hn, e1, Exec.ok_bind]; rw [if_neg (not_not.2 h0)], by rw [e2]; simp,
      fun c h => absurd h0 h, ?_⟩
    intro q hq _; rw [e2]; simp [hq]
  · obtain ⟨c, hc⟩ := hl h0
    have hc' : m1.node right = some c := by rw [e2, Function.update_of_ne hne, hc]
    obtain ⟨m2, g1, g2⟩ := modify_ok hc' (fun n => { n with parent := n.parent.setPtr self })
    refine ⟨m2, ?_, ?_, ?_, ?_⟩
    · simp only [nodeSetRight, NMem.get_some hn, e1, Exec.ok_bind, ne_eq, h0, not_false_eq_true,
        if_true, nodeSetParent, NMem.get_some hc', g1]
    · rw [g2, Function.update_of_ne (Ne.symm hne), e2]; simp
    · intro d _ hd
      rw [hc] at hd
      obtain rfl := Option.some.inj hd
      refine ⟨{ c with parent := c.parent.setPtr self }, by rw [g2, Function.update_self], ?_,
        PWord.color_setPtr _ hb, rfl, rfl, rfl⟩
      show (PWord.ptr _).toNat = _
      rw [PWord.ptr_setPtr _ hb]
    · intro q hq hql
      have : q ≠ right := fun e => h0 (hql e)
      rw [g2, Function.update_of_ne this, e2, Function.update_of_ne hq]

/-- C75 for the parent: the node's parent is the one given (or none), its colour is kept, the old
parent is returned, and nothing else changes. -/
theorem C75_set_parent {m : TMem K V} {parent : BitVec 64} (he : parent.toNat % 2 = 0) {self : Nat}
    {n : TNode K V} (hn : m.node self = some n) :
    ∃ m' n', nodeSetParent self parent m = .ok (n.parent.addr, m') ∧ m'.node self = some n' ∧
      n'.parent.addr = parent.toNat ∧ n'.parent.color = n.parent.color ∧
      n'.left = n.left ∧ n'.right = n.right ∧ n'.pair = n.pair ∧
      (∀ q, q ≠ self → m'.node q = m.node q) := by
  have hb := PWord.even_bit he
  obtain ⟨m1, e1, e2⟩ := modify_ok hn (fun n => { n with parent := n.parent.setPtr parent })
  refine ⟨m1, { n with parent := n.parent.setPtr parent }, ?_, by rw [e2, Function.update_self], ?_,
    PWord.color_setPtr _ hb, rfl, rfl, rfl, fun q hq => by rw [e2, Function.update_of_ne hq]⟩
  · simp only [nodeSetParent, NMem.get_some hn, e1, Exec.ok_bind]
  · show (PWord.ptr _).toNat = _
    rw [PWord.ptr_setPtr _ hb]

/-- Hanging a new node below node 3 of the example keeps its colour. -/
example : (do
    let (old, m) ← nodeSetLeft (K := Nat) (V := Nat) 256 384
      (exampleTreeMem.setNode 384 (some ⟨0, 0, 1, some (4, 40)⟩))
    let n ← m.get 256
    let c ← m.get 384
    .ok (old, n.left, c.parent.addr, c.parent.color)) =
  (.ok (0, 384, 256, some .black) : Exec _) := by decide +kernel

/-! ## C76 -/

/-- C76 is false.  Moving a tree object, which Rust does silently for a value of this type, makes
iteration over any non-empty tree use the place the object was moved from. -/
theorem C76_moved_tree_dangles {T : RBTree σ} {m : TMem K V} {t : Tree (Nat × K × V)}
    (h : TreeRep T m t) (hne : t ≠ .nil) {s : Nat} (hs : s ∉ nodeAddrs t) (hsa : s ≠ T.anchor) {f : Nat}
    (hf : t.count ≤ f) :
    ∃ T' m', T.moveTo s m = .ok (T', m') ∧ T'.toList f m' = .error .ub := by
  obtain ⟨n, r, hn, hr, _, ht, h5, _⟩ := h.anchor
  refine ⟨⟨s, T.size, T.al⟩, (m.setNode s (some n)).setNode T.anchor none,
    by simp only [RBTree.moveTo, NMem.get_some hn, Exec.ok_bind], ?_⟩
  have hold : ((m.setNode s (some n)).setNode T.anchor none).node T.anchor = none := by
    simp [NMem.setNode]
  have hnew : ((m.setNode s (some n)).setNode T.anchor none).node s = some n := by
    simp [NMem.setNode, hsa]
  have ht' : TreeAt ((m.setNode s (some n)).setNode T.anchor none) T.anchor t r := by
    refine ht.frame fun a ha => ?_
    have h1 : a ≠ s := fun e => hs (e ▸ ha)
    have h2 : a ≠ T.anchor := fun e => h.apart (e ▸ ha)
    simp [NMem.setNode, h1, h2]
  have := drain_err (xs := t.inorder) (s := s) (p := n.right) (succ_dangling ht' h.nodup hold hf) hs
    (fun x hx => ht'.ne_zero (List.mem_map_of_mem hx)) (fun x hx => ht'.pair hx) (f := f)
    (h5 hne).1 (by rw [length_inorder]; exact hf)
  simp only [RBTree.toList, RBTree.iter, RBTree.first, NMem.get_some hnew, Exec.ok_bind]
  exact this

/-- What is true of C76: lookup in the moved tree still works (it does not use the anchor), and an
empty tree created by this crate may be moved.  Missing: iteration over non-empty trees, see
`C76_moved_tree_dangles`. -/
theorem C76_moved_tree_partial {T : RBTree σ} {E : TEnv K V σ} (hw : StrictWeak E.lt)
    {m : TMem K V} {t : Tree (Nat × K × V)} (h : TreeRep T m t)
    (ho : t.Search fun a b => E.lt a.2.1 b.2.1) {s : Nat} (hs : s ∉ nodeAddrs t) (hsa : s ≠ T.anchor) (hs0 : s ≠ 0) {f : Nat}
    (hf : t.count < f) :
    ∃ T' m', T.moveTo s m = .ok (T', m') ∧
      (∀ k, T'.get E f k m' = T.get E f k m) ∧ T'.len = T.len ∧
      (t = .nil → (m.node T.anchor).map (·.right) = some 0 → T'.toList f m' = .ok []) := by
  obtain ⟨n, r, hn, hr, _, ht, h5, _⟩ := h.anchor
  refine ⟨⟨s, T.size, T.al⟩, (m.setNode s (some n)).setNode T.anchor none,
    by simp only [RBTree.moveTo, NMem.get_some hn, Exec.ok_bind], ?_, rfl, ?_⟩
  · intro k
    have hnew : ((m.setNode s (some n)).setNode T.anchor none).node s = some n := by
      simp [NMem.setNode, hsa]
    have ht' : TreeAt ((m.setNode s (some n)).setNode T.anchor none) T.anchor t r := by
      refine ht.frame fun a ha => ?_
      have h1 : a ≠ s := fun e => hs (e ▸ ha)
      have h2 : a ≠ T.anchor := fun e => h.apart (e ▸ ha)
      simp [NMem.setNode, h1, h2]
    have hi := search_increasing hw ho
    have hfind := findLoop_ok hw k ht' hi hf
    rw [h.get hw hi k hf, lookup_entries]
    cases hx : t.inorder.find? fun x => equiv E.lt x.2.1 k with
    | none =>
      rw [hx] at hfind
      simp [RBTree.get, RBTree.find, RBTree.root, NMem.get_some hnew, hr, hfind]
    | some x =>
      rw [hx] at hfind
      obtain ⟨n', hn', hp'⟩ := ht'.pair (List.mem_of_find?_eq_some hx)
      simp [RBTree.get, RBTree.find, RBTree.root, NMem.get_some hnew, hr, hfind, nodePair,
        NMem.get_some hn', hp', initd]
  · rintro rfl hb
    rw [hn] at hb
    simp only [Option.map_some, Option.some.injEq] at hb
    obtain ⟨f, rfl⟩ : ∃ g, f = g + 1 := ⟨f - 1, by omega⟩
    simp [RBTree.toList, RBTree.iter, RBTree.first, NMem.get, NMem.setNode, hsa,
      RBTree.Iter.drain, RBTree.Iter.next, hb, Ne.symm hs0]

example : (do
    let (t, m) ← exampleTreeObj.moveTo 448 exampleTreeMem
    .ok ((t.toList 6 m).isOk, t.get exampleTreeEnv 6 3 m)) = (.ok (false, .ok (some 30)) : Exec _) := by
  decide +kernel

end Verif
