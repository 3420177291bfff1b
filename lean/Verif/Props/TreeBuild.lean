import Verif.Props.Cost
import Verif.Tree.Build

/-!
# Every map that C++ hands over can be read (C115)

The crate cannot insert into its trees, so a map with entries comes from C++.  The theorems on maps
(C60 to C64, C73, C98) assume a tree in memory.  Here that assumption is met for every content.
-/

set_option autoImplicit false

namespace Verif
open Spec

variable {K V σ : Type}

theorem buildTree_isRed {s : Nat} {t : Spec.Tree (Color × Nat × K × V)} (m : TMem K V)
    (hd : (t.inorder.map (·.2.1)).Nodup) (hg : ∀ p ∈ t.inorder.map (·.2.1), GoodAddr p)
    (hs : GoodAddr s) (hns : s ∉ t.inorder.map (·.2.1)) {x : Color × Nat × K × V}
    (hx : x ∈ t.inorder) : nodeIsRed (buildTree s t m) x.2.1 = decide (x.1 = .red) := by
  obtain ⟨n, h1, h2⟩ := buildTree_color m hd hg hs hns hx
  simp only [nodeIsRed, h1, h2, Option.some.injEq]

theorem buildTree_heap {s : Nat} {t : Spec.Tree (Color × Nat × K × V)} {m : TMem K V} {size align : Nat}
    (h : HeapNodes m size align (t.inorder.map (·.2.1)))
    (hl : ∀ p ∈ s :: t.inorder.map (·.2.1), m.node p ≠ none)
    (hd : (t.inorder.map (·.2.1)).Nodup) :
    HeapNodes (buildTree s t m) size align (t.inorder.map (·.2.1)) := by
  have hiff : ∀ q, (buildTree s t m).node q = none ↔ m.node q = none := by
    intro q
    simp only [buildTree]
    by_cases hq : q = s
    · subst hq
      simp only [if_true]
      exact iff_of_false (by simp) (hl q (by simp))
    · rw [if_neg hq]
      by_cases hm : q ∈ t.inorder.map (·.2.1)
      · obtain ⟨x, hx, rfl⟩ := List.mem_map.1 hm
        obtain ⟨n, _, e1, _⟩ := builtNode_some (par := s) hx hd
        simp only [e1]
        exact iff_of_false (by simp) (hl _ (List.mem_cons_of_mem _ hm))
      · simp only [builtNode_none hm]
  exact ⟨⟨h.wf.disj, fun q hq => h.wf.cover q (fun hc => hq ((hiff q).2 hc)), h.wf.null⟩, h.reg,
    fun p hp q h1 h2 => (hiff q).2 (h.solid p hp q h1 h2), h.aligned⟩

/-- C115.  A tree of any shape, with any colours, and with its nodes and the map object at any
places that are not null, even and below 2^64, is read correctly from the memory C++ writes it to:
iterating yields the entries from left to right, `len` is their number, and if the tree is ordered
by a strict weak order a lookup finds exactly the keys equivalent to the one asked for. -/
theorem C115_every_shape (m0 : TMem K V) (a : σ) {s : Nat} {t : Spec.Tree (Color × Nat × K × V)}
    (hd : (t.inorder.map (·.2.1)).Nodup) (hg : ∀ p ∈ t.inorder.map (·.2.1), GoodAddr p)
    (hs : GoodAddr s) (hns : s ∉ t.inorder.map (·.2.1)) {f : Nat} (hf : t.inorder.length + 2 ≤ f) :
    let T : RBTree σ := ⟨s, t.inorder.length, a⟩
    T.toList f (buildTree s t m0) = .ok (t.inorder.map (·.2.2)) ∧
    T.len = t.inorder.length ∧
    (∀ (E : TEnv K V σ), StrictWeak E.lt →
      (t.inorder.Pairwise fun x y => E.lt x.2.2.1 y.2.2.1 = true) → ∀ k,
      T.get E f k (buildTree s t m0) =
        .ok ((t.inorder.find? fun x => !E.lt x.2.2.1 k && !E.lt k x.2.2.1).map (·.2.2.2))) := by
  have h := buildTree_rep m0 a hd hg hs hns
  rw [← length_inorder] at h
  have hc : (t.map Prod.snd).count = t.inorder.length := by rw [count_map, length_inorder]
  have he : entries (t.map Prod.snd) = t.inorder.map (·.2.2) := by
    simp [entries, inorder_map]
  refine ⟨?_, rfl, ?_⟩
  · rw [h.toList (by rw [hc]; exact hf), he]
  · intro E hw hp k
    have ho : (t.map Prod.snd).Search fun a b => E.lt a.2.1 b.2.1 := by
      apply search_of_pairwise
      rw [inorder_map, List.pairwise_map]
      exact hp
    rw [(C60_tree_lookup hw h ho k (by omega)).1, he]
    unfold lookup
    rw [List.find?_map, Option.map_map]
    congr 2

/-- C115.  Every content can be handed over as a red-black tree: for every list of entries
increasing in a strict weak order, and any places for the nodes and the object, there is a red-black
tree holding them such that every history of calls behaves as on the list, every lookup visits at
most `2 log₂ (n + 1)` nodes, and nothing but the nodes and the object was written. -/
theorem C115_every_content (E : TEnv K V σ) (hw : StrictWeak E.lt) (m0 : TMem K V) (a : σ)
    (es : List (K × V)) (hinc : es.Pairwise fun x y => E.lt x.1 y.1 = true) {s : Nat}
    {ps : List Nat} (hlen : ps.length = es.length) (hd : ps.Nodup) (hg : ∀ p ∈ ps, GoodAddr p)
    (hs : GoodAddr s) (hns : s ∉ ps) :
    ∃ t : Spec.Tree (Color × Nat × K × V), t.inorder.map (·.2) = ps.zip es ∧
      t.RedBlack (fun x => decide (x.1 = .red)) ∧
      (∀ q, q ∉ s :: ps → (buildTree s t m0).node q = m0.node q) ∧
      let T : RBTree σ := ⟨s, es.length, a⟩
      (∀ (ops : List (TreeOp K V)) (f : Nat), es.length + 2 ≤ f →
        ∃ m', T.run E f ops (buildTree s t m0) = .ok ((TreeOp.run E.lt ops es).1, m')) ∧
      (∀ (k : K) (f : Nat), 2 * Nat.log 2 (es.length + 1) < f →
        ∃ r c, T.findT E f k (buildTree s t m0) = .ok (r, c) ∧
          c.visited.length ≤ 2 * Nat.log 2 (es.length + 1)) := by
  obtain ⟨t, h1, h2⟩ := balanced_exists (ps.zip es)
  have ha : t.inorder.map (·.2.1) = ps := by
    have := congrArg (List.map Prod.fst) h1
    rw [List.map_map, List.map_fst_zip (by omega)] at this
    exact this
  have hsnd : t.inorder.map (·.2.2) = es := by
    have := congrArg (List.map Prod.snd) h1
    rw [List.map_map, List.map_snd_zip (by omega)] at this
    exact this
  have hcnt : t.count = es.length := by
    rw [← length_inorder, ← hsnd, List.length_map]
  have hrep := buildTree_rep m0 a (t := t) (s := s) (by rw [ha]; exact hd) (by rw [ha]; exact hg)
    hs (by rw [ha]; exact hns)
  rw [hcnt] at hrep
  have he : entries (t.map Prod.snd) = es := by
    rw [← hsnd]; simp [entries, inorder_map]
  have ho : (t.map Prod.snd).Search fun a b => E.lt a.2.1 b.2.1 := by
    apply search_of_pairwise
    rw [inorder_map, List.pairwise_map]
    have := hinc
    rw [← hsnd, List.pairwise_map] at this
    exact this
  have hc2 : (t.map Prod.snd).count = es.length := by rw [count_map, hcnt]
  refine ⟨t, h1, h2, ?_, ?_, ?_⟩
  · intro q hq
    simp only [List.mem_cons, not_or] at hq
    simp only [buildTree, if_neg hq.1, builtNode_none (ha ▸ hq.2)]
  · intro ops f hf
    obtain ⟨m', _, e1, _⟩ := C73_tree_history hw hrep ho ops (f := f) (by omega)
    rw [he] at e1
    exact ⟨m', e1⟩
  · intro k f hf
    have hrb : (t.map Prod.snd).RedBlack fun x => nodeIsRed (buildTree s t m0) x.1 :=
      redBlack_map Prod.snd (fun x hx => buildTree_isRed m0 (by rw [ha]; exact hd)
        (by rw [ha]; exact hg) hs (by rw [ha]; exact hns) hx) h2
    obtain ⟨r, c, _, e2, e3, _⟩ := C98_tree_lookup_cost E hrep hrb k (f := f) hf
    exact ⟨r, c, e2, e3⟩

/-- C115.  Such a map, with its nodes in blocks of the default allocator, may be dropped by Rust:
exactly the blocks of the nodes are given back. -/
theorem C115_built_map_dropped {E : TEnv K V Unit} {P : Placer (TNode K V) (K ⊕ V)}
    {u : TNode K V} (hE : E.A = defaultNAlloc P u true) (hsz : 0 < E.size) {m0 : TMem K V} {s : Nat}
    {t : Spec.Tree (Color × Nat × K × V)} (hb : HeapNodes m0 E.size E.align (t.inorder.map (·.2.1)))
    (hl : ∀ p ∈ s :: t.inorder.map (·.2.1), m0.node p ≠ none)
    (hd : (t.inorder.map (·.2.1)).Nodup) (hg : ∀ p ∈ t.inorder.map (·.2.1), GoodAddr p)
    (hs : GoodAddr s) (hns : s ∉ t.inorder.map (·.2.1)) {f : Nat} (hf : t.inorder.length ≤ f) :
    ∃ m', RBTree.drop E f ⟨s, t.inorder.length, ()⟩ (buildTree s t m0) = .ok ((), m') ∧
      (∀ q, m'.reg q = if q ∈ t.inorder.map (·.2.1) then none else m0.reg q) := by
  have h := buildTree_rep m0 () hd hg hs hns
  rw [← length_inorder] at h
  have hin : nodeAddrs (t.map Prod.snd) = t.inorder.map (·.2.1) := by
    simp [nodeAddrs, inorder_map]
  obtain ⟨m', h1, h2, _⟩ := C62_drop_returns_memory hE hsz h (by
    rw [hin]; exact buildTree_heap hb hl hd) (f := f) (by rw [count_map, ← length_inorder]; exact hf)
  rw [hin] at h2
  exact ⟨m', h1, h2⟩

/-- Memory with `n` blocks of 40 bytes and an object of 48 bytes at 64, as in the theorem. -/
def manyBlocks (n : Nat) : TMem Nat Nat where
  node q := if q % 64 = 0 ∧ 0 < q / 64 ∧ q / 64 ≤ n + 1 then some .uninit else none
  link _ := none
  reg q := if q % 64 = 0 ∧ 0 < q / 64 ∧ q / 64 ≤ n + 1 then
    some (if q = 64 then ⟨48, 8, false⟩ else ⟨40, 8, true⟩) else none
  top := 64 * (n + 2)
  top_ok := by
    intro a r h
    split at h
    · obtain rfl := Option.some.inj h
      split <;> simp only <;> omega
    · cases h
  dropped := []

/-- The hypotheses of the theorems are met by maps of any number `n` of entries with
`64 (n + 2) ≤ 2 ^ 64`. -/
theorem manyBlocks_heap (n : Nat) (hn : 64 * (n + 2) ≤ 2 ^ 64) :
    let ps := (List.range n).map fun i => 64 * (i + 2)
    HeapNodes (manyBlocks n) 40 8 ps ∧ (∀ p ∈ 64 :: ps, (manyBlocks n).node p ≠ none) ∧
      ps.Nodup ∧ (∀ p ∈ ps, GoodAddr p) ∧ GoodAddr 64 ∧ 64 ∉ ps ∧ ps.length = n := by
  intro ps
  have hmem : ∀ p, p ∈ ps ↔ p % 64 = 0 ∧ 2 ≤ p / 64 ∧ p / 64 ≤ n + 1 := by
    intro p
    simp only [ps, List.mem_map, List.mem_range]
    constructor
    · rintro ⟨i, hi, rfl⟩; omega
    · intro h; exact ⟨p / 64 - 2, by omega, by omega⟩
  have hreg : ∀ a r, (manyBlocks n).reg a = some r → a % 64 = 0 ∧ 0 < a / 64 ∧ r.size ≤ 48 ∧
      0 < r.size := by
    intro a r h
    simp only [manyBlocks] at h
    split at h
    · rename_i h1
      obtain rfl := Option.some.inj h
      refine ⟨h1.1, h1.2.1, ?_⟩
      split <;> simp
    · cases h
  refine ⟨⟨⟨?_, ?_, ?_⟩, ?_, ?_, ?_⟩, ?_, ?_, ?_, ?_, ?_, by simp [ps]⟩
  · intro a b r r' h1 h2 hne
    have g1 := hreg a r h1
    have g2 := hreg b r' h2
    omega
  · intro q hq
    simp only [manyBlocks] at hq
    split at hq
    · rename_i h1
      refine ⟨q, _, if_pos h1, le_refl q, ?_⟩
      split <;> simp
    · exact absurd rfl hq
  · intro a r h
    have g := hreg a r h
    omega
  · intro p hp
    rw [hmem] at hp
    simp only [manyBlocks]
    rw [if_pos ⟨hp.1, by omega, hp.2.2⟩, if_neg (by omega)]
  · intro p hp q h1 h2
    rw [hmem] at hp
    simp only [manyBlocks]
    rw [if_neg (by omega)]
  · intro p hp _
    rw [hmem] at hp
    omega
  · intro p hp
    simp only [manyBlocks]
    rw [if_pos]
    · simp
    · rcases List.mem_cons.1 hp with rfl | hp
      · omega
      · rw [hmem] at hp; omega
  · exact List.nodup_range.map (fun a b h => by omega)
  · intro p hp
    rw [hmem] at hp
    refine ⟨by omega, by omega, ?_⟩
    omega
  · exact ⟨by decide, by decide, by norm_num⟩
  · rw [hmem]; omega

/-- A map of a thousand entries built and read. -/
example : ∃ t : Spec.Tree (Color × Nat × Nat × Nat), ∀ f, 1002 ≤ f → ∃ m',
    (⟨64, 1000, ()⟩ : RBTree Unit).run exampleTreeEnv f [.get 700, .get 1000, .len]
      (buildTree 64 t (manyBlocks 1000)) = .ok ([.val (some 1400), .val none, .nat 1000], m') := by
  obtain ⟨_, _, h3, h4, h5, h6, h7⟩ := manyBlocks_heap 1000 (by norm_num)
  obtain ⟨t, _, _, _, h, _⟩ := C115_every_content exampleTreeEnv exampleTree_order (manyBlocks 1000) ()
    ((List.range 1000).map fun i => (i, 2 * i)) (by
      rw [List.pairwise_map]
      exact List.pairwise_lt_range.imp (fun h => by simpa [exampleTreeEnv] using h))
    (by rw [h7]; simp) h3 h4 h5 h6
  refine ⟨t, fun f hf => ?_⟩
  have := h [.get 700, .get 1000, .len] f (by simpa using hf)
  rw [List.length_map, List.length_range] at this
  obtain ⟨m', h⟩ := this
  have e : (TreeOp.run exampleTreeEnv.lt [.get 700, .get 1000, .len]
      ((List.range 1000).map fun i => (i, 2 * i))).1 = [.val (some 1400), .val none, .nat 1000] := by
    decide +kernel
  rw [e] at h
  exact ⟨m', h⟩

end Verif
