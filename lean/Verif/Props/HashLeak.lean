import Verif.Props.HashTable
import Verif.HashTable.Leaks

/-!
# Exactly what a dropped hash map leaves allocated (C55)
-/

set_option autoImplicit false

namespace Verif
open Spec

variable {K V : Type} {E : HEnv K V Unit} {m0 : HMem K V}

/-- The last call of a history. -/
theorem HTable.run_snoc {σ : Type} {E : HEnv K V σ} {op : MapOp K V} : ∀ {ops : List (MapOp K V)}
    {t t' : HTable σ} {m m' : HMem K V} {outs : List (MapOut K V)},
    t.run E (ops ++ [op]) m = .ok (outs, t', m') →
    ∃ os o t1 m1, t.run E ops m = .ok (os, t1, m1) ∧ t1.step E op m1 = .ok (o, t', m')
  | [], t, t', m, m', outs, h => by
    obtain ⟨⟨o, t1, m1⟩, h1, h⟩ := Exec.bind_ok h
    cases h
    exact ⟨[], o, t, m, rfl, h1⟩
  | a :: ops, t, t', m, m', outs, h => by
    obtain ⟨⟨o, t1, m1⟩, h1, h⟩ := Exec.bind_ok h
    obtain ⟨⟨os, t2, m2⟩, h2, h⟩ := Exec.bind_ok h
    cases h
    obtain ⟨os', o', t3, m3, e1, e2⟩ := HTable.run_snoc h2
    exact ⟨o :: os', o', t3, m3, by simp [HTable.run, h1, e1], e2⟩

theorem MapOp.peak_snoc (eq : K → K → Bool) (op : MapOp K V) : ∀ (ops : List (MapOp K V))
    (s : List (K × V)), MapOp.peak eq ops s ≤ MapOp.peak eq (ops ++ [op]) s
  | [], s => by simp only [List.nil_append, MapOp.peak]; omega
  | a :: ops, s => by
    have := MapOp.peak_snoc eq op ops (a.step eq s).2
    simp only [List.cons_append, MapOp.peak]; omega

/-- The numbers of buckets, other than the initial 1, that a map has had during a history. -/
def HadBuckets (E : HEnv K V Unit) (m0 : HMem K V) (ops : List (MapOp K V)) (n : Nat) : Prop :=
  n ≠ 1 ∧ ∃ pre outs t m, pre <+: ops ∧ HTable.history E pre m0 = .ok (outs, t, m) ∧
    t.bucketCount = n

/-- The arrays allocated during a history. -/
theorem HSetting.arrays (S : HSetting E m0) (ops : List (MapOp K V)) :
    MapOp.peak E.eq ops [] ≤ 2557710464 → ∀ {outs : List (MapOut K V)} {t : HTable Unit}
    {m : HMem K V}, HTable.history E ops m0 = .ok (outs, t, m) →
    ∃ bl counts : List Nat, bl.Nodup ∧
      (∀ b, b ∈ bl ↔ arrSize m0 b = none ∧ arrSize m b ≠ none) ∧
      bl.map (arrSize m) = counts.map (fun n => some (n + 1)) ∧
      counts.Pairwise (· < ·) ∧ (∀ n ∈ counts, n ≤ t.bucketCount) ∧
      ∀ n, n ∈ counts ↔ HadBuckets E m0 ops n := by
  induction ops using List.reverseRecOn with
  | nil =>
    intro _ outs t m h
    have hr : HTable.history E [] m0 = .ok (([] : List (MapOut K V)), HTable.newIn E (), m0) := rfl
    rw [hr] at h
    cases h
    refine ⟨[], [], by simp, fun b => ?_, rfl, by simp, by simp, fun n => ?_⟩
    · simp only [List.not_mem_nil, false_iff]; tauto
    · simp only [List.not_mem_nil, false_iff]
      rintro ⟨hn, pre, outs, t, m, hp, h, rfl⟩
      rw [List.prefix_nil.1 hp, hr] at h
      cases h
      exact hn rfl
  | append_singleton ops op ih =>
    intro hpk outs t m h
    have hpk1 : MapOp.peak E.eq ops [] ≤ 2557710464 := (MapOp.peak_snoc E.eq op ops []).trans hpk
    obtain ⟨os, o, t1, m1, h1, h2⟩ := HTable.run_snoc h
    obtain ⟨bl, counts, g1, g2, g3, g4, g5, g6⟩ := ih hpk1 h1
    obtain ⟨_, cs, A⟩ := S.after hpk1 h1
    have hpos : 0 < t1.bucketCount := A.rep.core.pos
    -- which bucket counts a longer history has had
    have hhad : ∀ n, HadBuckets E m0 (ops ++ [op]) n ↔
        HadBuckets E m0 ops n ∨ (n ≠ 1 ∧ n = t.bucketCount) := by
      intro n
      constructor
      · rintro ⟨hn, pre, outs', t', m', hp, hr, rfl⟩
        rcases List.prefix_concat_iff.1 hp with rfl | hp
        · rw [h] at hr
          cases hr
          exact .inr ⟨hn, rfl⟩
        · exact .inl ⟨hn, pre, _, _, _, hp, hr, rfl⟩
      · rintro (⟨hn, pre, outs', t', m', hp, hr, rfl⟩ | ⟨hn, rfl⟩)
        · exact ⟨hn, pre, _, _, _, hp.trans (List.prefix_append _ _), hr, rfl⟩
        · exact ⟨hn, _, _, _, _, List.prefix_rfl, h, rfl⟩
    rcases step_grew h2 with ⟨k1, k2⟩ | ⟨⟨nr, k1⟩, nb, k2, k3⟩
    · refine ⟨bl, counts, g1, fun b => by rw [k2]; exact g2 b, by rw [k2]; exact g3, g4,
        by rw [k1]; exact g5, fun n => ?_⟩
      rw [hhad, g6, k1]
      constructor
      · exact .inl
      · rintro (h' | ⟨hn, rfl⟩)
        · exact h'
        · exact ⟨hn, ops, _, _, _, List.prefix_rfl, h1, rfl⟩
    · have hlt : t1.bucketCount < t.bucketCount := by
        by_cases hc : t1.count < maxEntries
        · obtain ⟨r, n, e1, _, _, e4⟩ := A.rep.policy.step A.rep.peak hc
          rw [k1] at e1
          cases e1
          exact (e4 _ rfl).1
        · have hp := A.rep.peak
          have hc' : t1.count = maxEntries := by unfold maxEntries at *; omega
          obtain ⟨_, hf⟩ := A.rep.policy.full (by omega)
          rw [← hc', k1] at hf
          cases hf
      have hnb : nb ∉ bl := fun hm => ((g2 nb).1 hm).2 k2
      have hnb0 : arrSize m0 nb = none := by
        by_contra hne
        have hb : m0.b.live nb ≠ none := by simpa [arrSize] using hne
        have : m1.b.live nb = m0.b.live nb := by
          refine A.rep.core.out nb fun hm => ?_
          exact hb (A.rep.core.blNew nb hm).1
        exact hb (this ▸ by simpa [arrSize] using k2)
      refine ⟨bl ++ [nb], counts ++ [t.bucketCount], ?_, fun b => ?_, ?_, ?_, ?_, fun n => ?_⟩
      · rw [List.nodup_append]
        refine ⟨g1, by simp, fun a ha b hb e => hnb ?_⟩
        rw [← List.mem_singleton.1 hb, ← e]
        exact ha
      · rw [k3]
        by_cases hb : b = nb
        · subst hb; simp [hnb0]
        · simp [hb, g2 b]
      · rw [List.map_append, List.map_append, k3, ← g3]
        simp only [List.map_cons, List.map_nil, Function.update_self]
        congr 1
        refine List.map_congr_left fun b hb => ?_
        have hne : b ≠ nb := fun e => hnb (by rw [← e]; exact hb)
        rw [Function.update_of_ne hne]
      · rw [List.pairwise_append]
        refine ⟨g4, by simp, fun a ha b hb => ?_⟩
        simp only [List.mem_singleton] at hb
        subst hb
        exact Nat.lt_of_le_of_lt (g5 a ha) hlt
      · intro n hn
        rcases List.mem_append.1 hn with hn | hn
        · exact (g5 n hn).trans (Nat.le_of_lt hlt)
        · simp only [List.mem_singleton] at hn; omega
      · rw [hhad, List.mem_append, g6, List.mem_singleton]
        constructor
        · rintro (h' | rfl)
          · exact .inl h'
          · exact .inr ⟨by omega, rfl⟩
        · rintro (h' | ⟨_, h'⟩)
          · exact .inl h'
          · exact .inr h'

/-- C55, exactly what is left.  After any history and drop, the bucket arrays still allocated that
were not before are one for each number of buckets the map has had (the shared array of the empty
map apart), of one cell more than that: none was ever freed. -/
theorem C55_leak_exact (S : HSetting E m0) (ops : List (MapOp K V))
    (hpk : MapOp.peak E.eq ops [] ≤ 2557710464) {outs : List (MapOut K V)} {t : HTable Unit}
    {m : HMem K V} (h : HTable.history E ops m0 = .ok (outs, t, m)) :
    ∃ a m', t.drop E m = .ok (a, m') ∧ ∃ bl counts : List Nat, bl.Nodup ∧
      (∀ b, b ∈ bl ↔ m0.b.live b = none ∧ m'.b.live b ≠ none) ∧
      bl.map (fun b => (m'.b.live b).map Block.size) = counts.map (fun n => some (n + 1)) ∧
      counts.Pairwise (· < ·) ∧
      ∀ n, n ∈ counts ↔ n ≠ 1 ∧ ∃ pre outs t m, pre <+: ops ∧
        HTable.history E pre m0 = .ok (outs, t, m) ∧ t.bucketCount = n := by
  obtain ⟨_, cs, A⟩ := S.after hpk h
  obtain ⟨a, m', e1, _⟩ := A.drop S
  obtain ⟨⟨t1, m1⟩, h1, h2⟩ := Exec.bind_ok e1
  cases h2
  have hs := (freeBuckets_sizes h1).1
  obtain ⟨bl, counts, g1, g2, g3, g4, _, g6⟩ := S.arrays ops hpk h
  refine ⟨_, _, e1, bl, counts, g1, fun b => ?_, ?_, g4, g6⟩
  · rw [g2, ← hs]; simp [arrSize]
  · rw [← hs] at g3; exact g3

/-- Non-vacuity: eight insertions, of which three rehash, to 2, 5 and 11 buckets. -/
example : (do
      let (_, t, m) ← HTable.history (exampleHash (· % 100))
        ((List.range 8).map fun i => .insert i i) exampleHashMem
      let (_, m) ← t.drop (exampleHash (· % 100)) m
      .ok (t.bucketCount, (List.range 5).map fun b => (m.b.live b).map Block.size)) =
      (.ok (11, [some 2, some 3, some 6, some 12, none]) : Exec (Nat × List (Option Nat))) := by
  decide +kernel

end Verif
