import Verif.HashTable.Iterated
import Verif.Props.HashTable

/-!
# C140: the order in which a hash map is iterated over

Looking up, overwriting and removing entries never reorders the others, nor does adding one unless
the number of buckets grows.
-/

set_option autoImplicit false

namespace Verif
open Spec

variable {K V : Type}

/-- Iterating over the map yields `xs`, then `None` for ever. -/
def HTable.Yields (t : HTable Unit) (m : HMem K V) (xs : List (K × V)) : Prop :=
  ∃ it, t.iter m = .ok it ∧ ∀ n, ∃ it', it.run m n = .ok ((List.range n).map fun i => xs[i]?, it')

theorem HCore.yields {ok : Prop} {E : HEnv K V Unit} {Inv : Unit → HNMem K V → List Nat → Prop}
    {w : World Nat} {wn : Nat → Option (Option (HCell K V))} {m : HMem K V} {t : HTable Unit}
    {bl : List Nat} {cs : List (List (Nat × K × V))} (h : HCore ok E Inv w wn m t bl cs) :
    t.Yields m (ents cs) := by
  obtain ⟨it, c, ds, e1, e2, e3⟩ := h.iter
  refine ⟨it, e1, fun n => ?_⟩
  obtain ⟨it', c', ds', f1, f2, f3⟩ := e2.run n
  rw [e3] at f1
  exact ⟨it', f1⟩

/-- Iteration yields one sequence only. -/
theorem HTable.Yields.unique {t : HTable Unit} {m : HMem K V} {xs ys : List (K × V)}
    (h : t.Yields m xs) (h' : t.Yields m ys) : xs = ys := by
  obtain ⟨it, e1, e2⟩ := h
  obtain ⟨it2, f1, f2⟩ := h'
  rw [e1] at f1
  obtain rfl : it = it2 := by simpa using f1
  refine List.ext_getElem? fun i => ?_
  obtain ⟨a, g1⟩ := e2 (i + 1)
  obtain ⟨b, g2⟩ := f2 (i + 1)
  rw [g1] at g2
  simp only [Except.ok.injEq, Prod.mk.injEq] at g2
  have := congrArg (fun l => l[i]?) g2.1
  simpa using this

variable {E : HEnv K V Unit} {m0 : HMem K V}

/-- C140.  After any history, iteration yields `xs`.  A call that adds no entry changes exactly what
it should in `xs` and moves nothing: overwriting replaces the value where the entry is, removing
closes the gap.  A call that adds an entry puts it somewhere among the others and moves none of
them, unless the number of buckets grows. -/
theorem C140_call_keeps_order (S : HSetting E m0) (ops : List (MapOp K V)) (op : MapOp K V)
    (hpk : MapOp.peak E.eq (ops ++ [op]) [] ≤ 2557710464) {outs : List (MapOut K V)}
    {t : HTable Unit} {m : HMem K V} {xs : List (K × V)}
    (h : HTable.history E ops m0 = .ok (outs, t, m)) (hxs : t.Yields m xs) :
    ∃ o t' m' ys, t.step E op m = .ok (o, t', m') ∧ t'.Yields m' ys ∧
      t.bucketCount ≤ t'.bucketCount ∧
      (op.fresh E.eq xs = none → t'.bucketCount = t.bucketCount ∧ ys = (op.step E.eq xs).2) ∧
      ∀ n, op.fresh E.eq xs = some n → t'.bucketCount = t.bucketCount →
        ∃ l1 l2, xs = l1 ++ l2 ∧ ys = l1 ++ n :: l2 := by
  have hsplit : ∀ (ops : List (MapOp K V)) (s : List (K × V)),
      MapOp.peak E.eq (ops ++ [op]) s = max (MapOp.peak E.eq ops s)
        (op.step E.eq (MapOp.run E.eq ops s).2).2.length := by
    intro ops
    induction ops with
    | nil => intro s; simp only [List.nil_append, MapOp.peak, MapOp.run]
    | cons a ops ih => intro s; simp only [List.cons_append, MapOp.peak, MapOp.run, ih]; omega
  rw [hsplit] at hpk
  obtain ⟨bl, cs, A⟩ := S.after (by omega) h
  obtain rfl := hxs.unique A.rep.core.yields
  have hst := step_perm S.equiv A.perm A.rep.core.distinct op
  obtain ⟨t2, m2, bl2, cs2, e1, e2⟩ := A.rep.step S.law S.equiv S.hash op (by
    rw [hst.2.length_eq]; unfold maxEntries; omega)
  refine ⟨_, t2, m2, _, e1, e2.rep.core.yields, A.rep.policy.mono e2.rep.policy (Nat.le_max_left _ _),
    fun hf => ?_, fun n hf hb => ?_⟩
  · obtain ⟨q1, q2⟩ := e2.shrink (fresh_none hf)
    exact ⟨by rw [← e2.rep.core.len, q1, A.rep.core.len], q2⟩
  · exact e2.grow n (fresh_some hf) (by rw [e2.rep.core.len, A.rep.core.len, hb])

/-- C140.  After any history, any number of further calls that add no entry act on the sequence of
entries, as iteration yields it, as they act on a list. -/
theorem C140_order_kept (S : HSetting E m0) (ops more : List (MapOp K V))
    (hpk : MapOp.peak E.eq ops [] ≤ 2557710464) {outs : List (MapOut K V)}
    {t : HTable Unit} {m : HMem K V} {xs : List (K × V)}
    (h : HTable.history E ops m0 = .ok (outs, t, m)) (hxs : t.Yields m xs)
    (hn : MapOp.AddsNone E.eq more xs) :
    ∃ os t' m', t.run E more m = .ok (os, t', m') ∧ t'.Yields m' (MapOp.run E.eq more xs).2 := by
  obtain ⟨bl, cs, A⟩ := S.after hpk h
  obtain rfl := hxs.unique A.rep.core.yields
  have hp : ∀ (more : List (MapOp K V)) (s : List (K × V)), MapOp.AddsNone E.eq more s →
      MapOp.peak E.eq more s = s.length := by
    intro more
    induction more with
    | nil => intro s _; rfl
    | cons op more ih =>
      intro s hs
      have := fresh_none hs.1
      simp only [MapOp.peak, ih _ hs.2]
      omega
  obtain ⟨t2, m2, _, bl2, cs2, e1, e2, e3, e4⟩ := A.rep.runKept S.law S.equiv S.hash more (by
    rw [hp _ _ hn, A.perm.length_eq]
    exact (run_le_peak E.eq ops []).trans hpk) hn
  exact ⟨_, t2, m2, e1, e4 ▸ e2.core.yields⟩

/-- C140.  Over any further calls whatsoever, as long as the number of buckets is the same in the
end, the keys that none of these calls removes come in the order they came in before. -/
theorem C140_survivors_in_order (S : HSetting E m0) (ops more : List (MapOp K V))
    (hpk : MapOp.peak E.eq ops [] ≤ 2557710464)
    (hpk' : MapOp.peak E.eq more (MapOp.run E.eq ops []).2 ≤ 2557710464)
    {outs : List (MapOut K V)} {t : HTable Unit} {m : HMem K V} {xs : List (K × V)}
    (h : HTable.history E ops m0 = .ok (outs, t, m)) (hxs : t.Yields m xs) :
    ∃ os t' m' ys, t.run E more m = .ok (os, t', m') ∧ t'.Yields m' ys ∧
      (t'.bucketCount = t.bucketCount →
        ((xs.map Prod.fst).filter fun k => more.all fun op => !op.removes E.eq k).Sublist
          (ys.map Prod.fst)) := by
  obtain ⟨bl, cs, A⟩ := S.after hpk h
  obtain rfl := hxs.unique A.rep.core.yields
  obtain ⟨t2, m2, _, bl2, cs2, e1, e2, e3, e4, e5⟩ := A.rep.runOrder S.law S.equiv S.hash
    (fun k => more.all fun op => !op.removes E.eq k) more
    (by rw [(allDrops_perm S.equiv more A.perm A.rep.core.distinct).2]; exact hpk') (by
      intro op hop k hk
      simpa using List.all_eq_true.1 hk op hop)
  exact ⟨_, t2, m2, _, e1, e2.core.yields, e5⟩

/-- Overwriting, removing and adding without growth keep the order; the growth from 5 to 11 buckets
in the end does not. -/
example : (do
      let E := exampleHash (· % 100)
      let (_, t, m) ← HTable.history E [.insert 6 60, .insert 2 20, .insert 11 110, .insert 3 30]
        exampleHashMem
      let it ← t.iter m
      let (a, _) ← it.run m 4
      let (_, t1, m1) ← t.run E [.insert 6 61, .remove 2, .get 3] m
      let it ← t1.iter m1
      let (b, _) ← it.run m1 4
      let (_, t2, m2) ← t1.step E (.insert 13 130) m1
      let it ← t2.iter m2
      let (c, _) ← it.run m2 4
      let (_, t3, m3) ← t2.run E [.insert 20 200, .insert 21 210] m2
      let it ← t3.iter m3
      let (d, _) ← it.run m3 6
      .ok ([a, b, c, d], [t.bucketCount, t1.bucketCount, t2.bucketCount, t3.bucketCount])) =
    (.ok ([[some (11, 110), some (6, 60), some (2, 20), some (3, 30)],
      [some (11, 110), some (6, 61), some (3, 30), none],
      [some (11, 110), some (6, 61), some (13, 130), some (3, 30)],
      [some (11, 110), some (13, 130), some (3, 30), some (6, 61), some (20, 200), some (21, 210)]],
      [5, 5, 5, 11]) : Exec (List (List (Option (Nat × Nat))) × List Nat)) := by
  decide +kernel

end Verif
