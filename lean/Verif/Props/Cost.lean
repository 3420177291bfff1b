import Verif.VectorMap.Cost
import Verif.Tree.Cost
import Verif.HashTable.Cost
import Verif.Props.VectorMap
import Verif.Props.Tree

/-!
# Cost of operations (C97–C99)

The instrumented searches are in `VectorMap/Cost.lean` and `Tree/Cost.lean`, where they are shown
to be the searches of the model with a record of the comparisons.
-/

set_option autoImplicit false

namespace Verif
open Spec

variable {K V σ : Type}

/-! ## C97 -/

/-- C97.  After any history of calls on a new map that left `n` entries, whatever the comparator
and `==` do, and even if they change from call to call, looking up a key (which is how `get`,
`get_mut`, `contains_key`, `insert`, `remove`, `remove_entry` and `entry` start, and all they ask
of keys) calls the comparator exactly `⌈log₂ n⌉ + 1` times, not at all on an empty map, and `==`
at most once; every such call compares a stored key with the key looked up. -/
theorem C97_vector_map_comparisons (R : RawAlloc (K × V)) (nd : Bool) (m0 : Mem (K × V))
    (ops : List ((K → K → Bool) × (K → K → Bool) × MapOp K V)) (lt eq : K → K → Bool) (k : K) :
    ∃ o v m xs r q, VMap.runAny (defaultAllocator R) nd ops Vec.new m0 = .ok (o, v, m) ∧
      v.asSlice m = .ok xs ∧ VMap.find lt eq k v m = .ok r ∧
      VMap.findT lt eq k v m = .ok (r, q) ∧
      q.compares.length = (if xs.length = 0 then 0 else Nat.clog 2 xs.length + 1) ∧
      q.equals.length ≤ 1 ∧
      ∀ p ∈ q.compares ++ q.equals, p.1 ∈ xs.map Prod.fst ∧ p.2 = k := by
  obtain ⟨o, v, m, xs, d, e1, e2, _⟩ := MInv.run_any R nd ops
    (⟨0, VInv.new defaultFits m0⟩ : MInv m0.live m0 Vec.new ([] : List (K × V)))
  obtain ⟨r, q, h1, h2, h3, h4, h5⟩ := e2.findT lt eq k
  obtain ⟨cap, hi⟩ := e2
  exact ⟨o, v, m, xs, r, q, e1, hi.slice, h1, h2, h3, h4, h5⟩

/-- Five entries: four comparisons and one equality test. -/
example : (do
    let (_, v, m) ← VMap.run (defaultAllocator RawAlloc.bump) (fun a b : Nat => decide (a < b))
      (fun a b => a == b) true
      [.insert 5 50, .insert 2 20, .insert 9 90, .insert 7 70, .insert 3 30] Vec.new
      (Mem.empty : Mem (Nat × Nat))
    let (r, q) ← VMap.findT (fun a b : Nat => decide (a < b)) (fun a b => a == b) 7 v m
    .ok (r, q.compares, q.equals)) =
    (.ok ((some (7, 70), 3), [(5, 7), (7, 7), (7, 7), (5, 7)], [(7, 7)]) :
      Exec ((Option (Nat × Nat) × Nat) × List (Nat × Nat) × List (Nat × Nat))) := by
  decide +kernel

/-! ## C98 -/

/-- The node at `a` has the colour red. -/
def nodeIsRed (m : TMem K V) (a : Nat) : Bool :=
  match m.node a with
  | some n => decide (n.parent.color = some .red)
  | none => false

/-- C98.  In a red-black tree of `n` entries, whatever the comparator does, a lookup (which is all
that `get`, `get_mut` and `contains_key` do with keys) visits at most `2 log₂ (n + 1)` nodes, all
of them nodes of the tree, calls the comparator once or twice at each, always with a stored key
and the key looked up, and finds at most a node whose key is equivalent. -/
theorem C98_tree_lookup_cost (E : TEnv K V σ) {T : RBTree σ} {m : TMem K V}
    {t : Spec.Tree (Nat × K × V)} (h : TreeRep T m t) (hrb : t.RedBlack fun x => nodeIsRed m x.1)
    (k : K) {f : Nat} (hf : 2 * Nat.log 2 (T.len + 1) < f) :
    ∃ r s, T.find E f k m = .ok r ∧ T.findT E f k m = .ok (r, s) ∧
      s.visited.length ≤ 2 * Nat.log 2 (T.len + 1) ∧
      s.visited.length ≤ s.compares.length ∧ s.compares.length ≤ 2 * s.visited.length ∧
      (∀ a ∈ s.visited, a ∈ nodeAddrs t) ∧
      (∀ c ∈ s.compares, ∃ k' ∈ (entries t).map Prod.fst, c = (k, k') ∨ c = (k', k)) ∧
      ∀ a, r = some a → ∃ x ∈ t.inorder, x.1 = a ∧ equiv E.lt x.2.1 k = true := by
  obtain ⟨n, p, hn, h1, _, h3, _⟩ := h.anchor
  have hh := hrb.height
  rw [← h.size] at hh
  change t.height ≤ 2 * Nat.log 2 (T.len + 1) at hh
  obtain ⟨r, s, he, a1, a2, a3, a4, a5, a6⟩ := findLoopT_any E k h3 (f := f) (by omega)
  have hfst := findLoopT_fst E k m f p
  rw [he] at hfst
  refine ⟨r, s, ?_, ?_, by omega, a3, a2, a4, ?_, a6⟩
  · simp only [RBTree.find, RBTree.root, NMem.get_some hn, Exec.ok_bind, h1]
    exact hfst.symm
  · simp only [RBTree.findT, RBTree.root, NMem.get_some hn, Exec.ok_bind, h1]
    exact he
  · intro c hc
    obtain ⟨x, hx, hc⟩ := a5 c hc
    exact ⟨x.2.1, List.mem_map_of_mem (List.mem_map_of_mem hx), hc⟩

/-- C98.  The search for the place of a new key visits as few nodes and compares once at each. -/
theorem C98_tree_position_cost (E : TEnv K V σ) {T : RBTree σ} {m : TMem K V}
    {t : Spec.Tree (Nat × K × V)} (h : TreeRep T m t) (hrb : t.RedBlack fun x => nodeIsRed m x.1)
    (k : K) {f : Nat} (hf : 2 * Nat.log 2 (T.len + 1) < f) :
    ∃ r s, T.position E f k m = .ok r ∧ T.positionT E f k m = .ok (r, s) ∧
      s.visited.length ≤ 2 * Nat.log 2 (T.len + 1) ∧
      s.compares.length = s.visited.length ∧ ∀ a ∈ s.visited, a ∈ nodeAddrs t := by
  obtain ⟨n, p, hn, h1, _, h3, _⟩ := h.anchor
  have hh := hrb.height
  rw [← h.size] at hh
  change t.height ≤ 2 * Nat.log 2 (T.len + 1) at hh
  obtain ⟨r, s, he, a1, a2, a3, _⟩ := positionLoopT_any E k h3 (prev := 0) (f := f) (by omega)
  have hfst := positionLoopT_fst E k m f p 0
  rw [he] at hfst
  refine ⟨r, s, ?_, ?_, by omega, a2, a3⟩
  · simp only [RBTree.position, RBTree.root, NMem.get_some hn, Exec.ok_bind, h1]
    exact hfst.symm
  · simp only [RBTree.positionT, RBTree.root, NMem.get_some hn, Exec.ok_bind, h1]
    exact he

/-- The example tree is red-black. -/
theorem exampleTree_redBlack : exampleTree.RedBlack fun x => nodeIsRed exampleTreeMem x.1 where
  root := show nodeIsRed exampleTreeMem 128 = false by decide
  noRedRed := ⟨⟨trivial, ⟨trivial, trivial, fun _ => ⟨trivial, trivial⟩⟩,
      fun h => absurd h (by decide)⟩, ⟨trivial, trivial, fun _ => ⟨trivial, trivial⟩⟩,
    fun h => absurd h (by decide)⟩
  black := ⟨2, 1, by decide, ⟨0, by decide, rfl, 0, by decide, rfl, rfl⟩, 0, by decide, rfl, rfl⟩

/-- The search for 3 visits the three nodes 5, 2 and 3. -/
example : (do
    let (r, s) ← exampleTreeObj.findT exampleTreeEnv 5 3 exampleTreeMem
    .ok (r, s.visited, s.compares)) =
    (.ok (some 256, [128, 192, 256], [(3, 5), (3, 2), (2, 3), (3, 3), (3, 3)]) :
      Exec (Option Nat × List Nat × List (Nat × Nat))) := by decide +kernel

/-! ## C99 -/

/-- C99.  Over any history on a new hash map whose largest number of entries is `N ≥ 1`: the calls
that rehash number at most `log₂ N + 1`, they move at most `2 N` entries in total, and the bucket
arrays they replace (which are never released, see C55) are together no larger than the array
of the final map. -/
theorem C99_rehash_amortised {E : HEnv K V Unit} {m0 : HMem K V} (S : HSetting E m0)
    (ops : List (MapOp K V)) (hpos : 1 ≤ MapOp.peak E.eq ops [])
    (hpk : MapOp.peak E.eq ops [] ≤ 2557710464) :
    ∃ o t m l, HTable.history E ops m0 = .ok (o, t, m) ∧
      (HTable.newIn E ()).rehashes E ops m0 = .ok l ∧
      l.length ≤ Nat.log 2 (MapOp.peak E.eq ops []) + 1 ∧
      (l.map Prod.fst).sum ≤ 2 * MapOp.peak E.eq ops [] ∧
      ((l.filter fun x => x.2 ≠ 1).map fun x => x.2 + 1).sum ≤ t.bucketCount + 1 := by
  obtain ⟨l, o, t, m, e1, e2, e3, _, e4, e5, e6⟩ := S.init.rehashes S.law S.equiv S.hash ops hpk
  rw [Nat.zero_max] at e3 e4 e5
  change PolicyAt _ _ (MapOp.peak E.eq ops []) at e3
  change _ ≤ movedUpTo (MapOp.peak E.eq ops []) at e4
  change _ ≤ rehashesUpTo (MapOp.peak E.eq ops []) at e5
  obtain ⟨h1, h2, h3⟩ := e3.moved
  refine ⟨o, t, m, l, e1, e2, ?_, ?_, ?_⟩
  · have hle : 2 ^ l.length ≤ 2 * MapOp.peak E.eq ops [] := by
      refine Nat.le_trans (Nat.pow_le_pow_right (by omega) (by omega : l.length ≤ rehashesUpTo (MapOp.peak E.eq ops []))) ?_
      refine Nat.le_trans h2 ?_
      have : 1 ≤ 2 * MapOp.peak E.eq ops [] := by omega
      simp [this]
    have := (Nat.le_log_iff_pow_le (b := 2) (by omega) (by omega)).2 hle
    rw [Nat.mul_comm, Nat.log_mul_base (by omega) (by omega)] at this
    exact this
  · exact Nat.le_trans (by omega) h1
  · exact Nat.le_trans (by omega) h3

/-- Seven entries: three rehashes, moving 0, 2 and 5 entries. -/
example : (HTable.newIn (exampleHash (· % 100)) ()).rehashes (exampleHash (· % 100))
    [.insert 1 0, .insert 2 0, .insert 3 0, .insert 4 0, .remove 4, .insert 4 0, .insert 5 0,
      .insert 6 0, .insert 7 0] exampleHashMem = .ok [(0, 1), (2, 2), (5, 5)] := by
  decide +kernel

end Verif
