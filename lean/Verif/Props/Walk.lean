import Verif.HashTable.WalkCost
import Verif.Tree.WalkCost
import Verif.Props.HashOrder
import Verif.Props.Cost

/-! What a loop over a map costs (C142). -/

set_option autoImplicit false

namespace Verif
open Spec

variable {K V σ : Type}

/-- C142, maps and sets: a loop over all `n` entries of a tree of any shape follows at most `2 n`
links from node to node.  `hops` lists them entry by entry. -/
theorem C142_tree_walk {T : RBTree σ} {m : TMem K V} {t : Spec.Tree (Nat × K × V)}
    (h : TreeRep T m t) {f : Nat} (hf : T.len + 2 ≤ f) :
    ∃ hops : List Nat, T.toList f m = .ok (entries t) ∧
      T.walkT f m = .ok ((entries t).zip hops) ∧ hops.length = T.len ∧ hops.sum ≤ 2 * T.len := by
  have hl : T.len = t.count := h.size
  rw [hl] at hf ⊢
  obtain ⟨hs, e1, e2, e3, _⟩ := h.walkT hf
  exact ⟨hs, h.toList hf, e1, e2, e3⟩

/-- C142, maps and sets: in a red-black tree of `n` entries no single step of the loop follows more
than `2 log₂ (n + 1) + 2` links. -/
theorem C142_tree_step {T : RBTree σ} {m : TMem K V} {t : Spec.Tree (Nat × K × V)}
    (h : TreeRep T m t) (hrb : t.RedBlack fun x => nodeIsRed m x.1) {f : Nat}
    (hf : T.len + 2 ≤ f) :
    ∃ hops : List Nat, T.walkT f m = .ok ((entries t).zip hops) ∧ hops.length = T.len ∧
      ∀ x ∈ hops, x ≤ 2 * Nat.log 2 (T.len + 1) + 2 := by
  have hl : T.len = t.count := h.size
  rw [hl] at hf ⊢
  obtain ⟨hs, e1, e2, _, e4⟩ := h.walkT hf
  have hh := hrb.height
  exact ⟨hs, e1, e2, fun x hx => by have := e4 x hx; omega⟩

variable {E : HEnv K V Unit} {m0 : HMem K V}

/-- C142, hash maps and sets, as far as it holds: a loop over the entries looks at every bucket once
and no more, and there are at most 2.15 times as many buckets as there ever were entries (and one in
a map that never had one).  Missing: a bound by the entries there are, which is false; see
`C142_hash_empty_walk`. -/
theorem C142_hash_walk_partial (S : HSetting E m0) (ops : List (MapOp K V))
    (hpk : MapOp.peak E.eq ops [] ≤ 2557710464) {outs : List (MapOut K V)} {t : HTable Unit}
    {m : HMem K V} (h : HTable.history E ops m0 = .ok (outs, t, m)) :
    ∃ (xs : List (K × V)) (b : Nat), t.Yields m xs ∧ t.walkT (t.count + 1) m = .ok (xs, b) ∧
      b = t.bucketCount ∧ 100 * b ≤ 215 * MapOp.peak E.eq ops [] + 100 := by
  obtain ⟨bl, cs, A⟩ := S.after hpk h
  exact ⟨ents cs, t.bucketCount, A.rep.core.yields,
    A.rep.core.walkT (by rw [A.rep.count]; omega), rfl, A.rep.policy.buckets_le⟩

/-- C142 fails for hash maps: a map that is empty again still makes the loop look at as many buckets
as it ever had entries (195 fewer from 17961080 entries on). -/
theorem C142_hash_empty_walk (S : HSetting E m0) (ops : List (MapOp K V))
    (hpk : MapOp.peak E.eq ops [] ≤ 2557710464) (hnil : (MapOp.run E.eq ops []).2 = [])
    {outs : List (MapOut K V)} {t : HTable Unit} {m : HMem K V}
    (h : HTable.history E ops m0 = .ok (outs, t, m)) :
    ∃ b : Nat, t.count = 0 ∧ t.walkT 1 m = .ok ([], b) ∧ MapOp.peak E.eq ops [] ≤ b + 195 ∧
      (MapOp.peak E.eq ops [] < 17961080 → MapOp.peak E.eq ops [] ≤ b) := by
  obtain ⟨bl, cs, A⟩ := S.after hpk h
  have hc := A.count
  rw [hnil] at hc
  have hcs : cs.flatten = [] := by
    have := A.rep.count
    rw [hc] at this
    exact List.eq_nil_of_length_eq_zero this.symm
  have hw := A.rep.core.walkT (fuel := 1) (by rw [hcs]; exact Nat.one_pos)
  rw [hcs] at hw
  exact ⟨t.bucketCount, hc, hw, A.rep.policy.load⟩

theorem run_append_clear (eq : K → K → Bool) : ∀ (ops : List (MapOp K V)) (s : List (K × V)),
    (MapOp.run eq (ops ++ [.clear]) s).2 = [] ∧
      MapOp.peak eq (ops ++ [.clear]) s = MapOp.peak eq ops s := by
  intro ops
  induction ops with
  | nil => intro s; simp [MapOp.run, MapOp.peak, MapOp.step]
  | cons op ops ih =>
    intro s
    obtain ⟨h1, h2⟩ := ih (MapOp.step eq op s).2
    exact ⟨by simpa [MapOp.run] using h1, by simp only [List.cons_append, MapOp.peak, h2]⟩

/-- Such maps exist: insert the numbers below `n`, then `clear`. -/
theorem C142_hash_empty_walk_reached (n : Nat) (hn : n < 17961080) : ∃ outs t m b,
    HTable.history exampleNat (countTo n ++ [.clear]) exampleHashMem = .ok (outs, t, m) ∧
      t.count = 0 ∧ t.walkT 1 m = .ok ([], b) ∧ n ≤ b := by
  obtain ⟨_, h2, _⟩ := countTo_run n
  obtain ⟨a1, a2⟩ := run_append_clear exampleNat.eq (countTo n) []
  rw [h2] at a2
  obtain ⟨t, m, bl, cs, e1, _⟩ := exampleNat_ok.run (countTo n ++ [.clear]) (by rw [a2]; omega)
  obtain ⟨b, g1, g2, _, g4⟩ := C142_hash_empty_walk exampleNat_ok _ (by rw [a2]; omega) a1 e1
  rw [a2] at g4
  exact ⟨_, t, m, b, e1, g1, g2, g4 hn⟩

/-- Non-vacuity: the loop over the example tree of four entries follows 1, 2, 1, 2 links past them,
the one over a map that had seven entries looks at eleven buckets. -/
example : TreeRep exampleTreeObj exampleTreeMem exampleTree ∧
    (do let r ← exampleTreeObj.walkT 6 exampleTreeMem; .ok r) =
      (.ok [((2, 20), 1), ((3, 30), 2), ((5, 50), 1), ((9, 90), 2)] : Exec _) ∧
    (do
      let (_, t, m) ← HTable.history (exampleHash (· % 100)) (exampleHashOps ++ [.clear])
        exampleHashMem
      t.walkT 1 m) = (.ok ([], 11) : Exec (List (Nat × Nat) × Nat)) := by
  refine ⟨exampleTree_rep, ?_, ?_⟩ <;> decide +kernel

end Verif
