import Verif.Tree.FreeDepth
import Verif.Props.Cost

/-!
# C145: dropping a map or set needs little stack

`drop` frees the nodes by recursion.  `RBTree.dropT` is `drop` again, with the most calls active at
a time and the number of calls.
-/

set_option autoImplicit false

namespace Verif
open Spec

variable {K V σ : Type}

/-- C145, for a tree of any shape: dropping it calls the recursive function once for every entry,
and as many calls are active at a time as the tree is high. -/
theorem C145_drop_depth_is_height {T : RBTree σ} {E : TEnv K V σ}
    {Inv : σ → TMem K V → List Nat → Prop} (L : NFree E.A E.size E.align Inv)
    {m : TMem K V} {t : Spec.Tree (Nat × K × V)} {qs : List Nat} (h : TreeRep T m t)
    (hi : Inv T.al m (nodeAddrs t ++ qs)) {f : Nat} (hf : t.height ≤ f) :
    ∃ r, T.drop E f m = .ok r ∧ T.dropT E f m = .ok (r, t.height, T.len) := by
  obtain ⟨n, p, hn, h1, _, h3, _⟩ := h.anchor
  have hs := RBTree.dropT_fst E f T m
  suffices hd : ∃ r, T.dropT E f m = .ok (r, t.height, T.len) by
    obtain ⟨r, hd⟩ := hd
    rw [hd] at hs
    exact ⟨r, hs.symm, hd⟩
  simp only [RBTree.dropT, RBTree.root, NMem.get_some hn, Exec.ok_bind, h1, RBTree.len, h.size]
  by_cases hp : p = 0
  · have hnil := h3.nil_iff.1 hp
    subst hnil
    exact ⟨(T.al, m), by simp [hp, Spec.Tree.height, Spec.Tree.count]⟩
  · obtain ⟨a', m', e, _, _⟩ := freeTreeT_ok L h3 hp h.nodup hi hf
    exact ⟨(a', m'), by simp only [hp, ne_eq, not_false_eq_true, if_true, e]⟩

/-- C145.  Dropping a red-black tree of `n` entries has at most `2 log₂ (n + 1)` calls active at a
time. -/
theorem C145_drop_depth_logarithmic {T : RBTree σ} {E : TEnv K V σ}
    {Inv : σ → TMem K V → List Nat → Prop} (L : NFree E.A E.size E.align Inv)
    {m : TMem K V} {t : Spec.Tree (Nat × K × V)} {qs : List Nat} (h : TreeRep T m t)
    (hrb : t.RedBlack fun x => nodeIsRed m x.1)
    (hi : Inv T.al m (nodeAddrs t ++ qs)) {f : Nat} (hf : 2 * Nat.log 2 (T.len + 1) ≤ f) :
    ∃ r depth, T.drop E f m = .ok r ∧ T.dropT E f m = .ok (r, depth, T.len) ∧
      depth ≤ 2 * Nat.log 2 (T.len + 1) := by
  have hh := hrb.height
  rw [← h.size] at hh
  change t.height ≤ 2 * Nat.log 2 (T.len + 1) at hh
  obtain ⟨r, h1, h2⟩ := C145_drop_depth_is_height L h hi (f := f) (by omega)
  exact ⟨r, _, h1, h2, hh⟩

/-- C145 with the default allocator. -/
theorem C145_drop_depth_default {T : RBTree Unit} {E : TEnv K V Unit}
    {P : Placer (TNode K V) (K ⊕ V)} {u : TNode K V} (hE : E.A = defaultNAlloc P u true)
    (hsz : 0 < E.size) {m : TMem K V} {t : Spec.Tree (Nat × K × V)} (h : TreeRep T m t)
    (hrb : t.RedBlack fun x => nodeIsRed m x.1) (hb : HeapNodes m E.size E.align (nodeAddrs t))
    {f : Nat} (hf : 2 * Nat.log 2 (T.len + 1) ≤ f) :
    ∃ m' depth, T.drop E f m = .ok ((), m') ∧ T.dropT E f m = .ok (((), m'), depth, T.len) ∧
      depth ≤ 2 * Nat.log 2 (T.len + 1) := by
  obtain ⟨n, r, hn, _, _, ht, _⟩ := h.anchor
  have hi : DefInv (m.without (nodeAddrs t)) E.size E.align () m (nodeAddrs t) := by
    refine DefInv.of_blocks hb.wf h.nodup hb.reg ?_ hb.solid hb.aligned
    intro p hp he
    obtain ⟨n, hn⟩ := ht.live hp
    rw [hn] at he; cases he
  have L := defaultNAlloc_law P u true hsz (fun _ => ⟨rfl, rfl⟩) (m.without (nodeAddrs t))
    (dbytes := E.size) (dalign := E.align) (align := E.align)
  rw [← hE] at L
  obtain ⟨⟨⟨⟩, m'⟩, d, h1, h2, h3⟩ :=
    C145_drop_depth_logarithmic L.free h hrb (qs := []) (by simpa using hi) hf
  exact ⟨m', d, h1, h2, h3⟩

/-- The example tree of four entries: three calls at a time, four in all. -/
example : TreeRep exampleTreeObj exampleTreeMem exampleTree ∧
    (exampleTree.RedBlack fun x => nodeIsRed exampleTreeMem x.1) ∧
    HeapNodes exampleTreeMem exampleTreeEnv.size exampleTreeEnv.align (nodeAddrs exampleTree) ∧
    (do
      let (_, d, c) ← exampleTreeObj.dropT exampleTreeEnv 4 exampleTreeMem
      .ok (d, c)) = (.ok (3, 4) : Exec (Nat × Nat)) :=
  ⟨exampleTree_rep, exampleTree_redBlack, exampleTree_heap, by decide +kernel⟩

end Verif
