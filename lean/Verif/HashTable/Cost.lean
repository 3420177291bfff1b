import Verif.Props.HashTable

/-!
# Which calls rehash a hash map
-/

set_option autoImplicit false

namespace Verif
open Spec

variable {K V σ : Type}

/-- An observer for stating properties: for every call of a history that changed the number of
buckets, how many entries and buckets there were before it.  The bucket count is assigned in
`rehash` only (src/internal/hash_table/mod.rs:388-418), which moves every entry once. -/
def HTable.rehashes (E : HEnv K V σ) :
    List (MapOp K V) → HTable σ → HMem K V → Exec (List (Nat × Nat))
  | [], _, _ => .ok []
  | op :: ops, t, m => do
    let (_, t', m') ← t.step E op m
    let l ← HTable.rehashes E ops t' m'
    .ok (if t'.bucketCount = t.bucketCount then l else (t.count, t.bucketCount) :: l)

/-- Entries moved by the rehashes up to the largest number of entries `peak`. -/
def movedUpTo (peak : Nat) : Nat :=
  ((stages.filter fun g => decide (g.lo ≤ peak)).map fun g => g.lo - 1).sum

/-- Rehashes up to `peak`. -/
def rehashesUpTo (peak : Nat) : Nat := (stages.filter fun g => decide (g.lo ≤ peak)).length

/-- Words of all arrays of fewer than `b` buckets. -/
def wordsBelow (b : Nat) : Nat :=
  ((stages.filter fun g => decide (g.buckets < b)).map fun g => g.buckets + 1).sum

theorem sum_filter_mono {α : Type} (f : α → Nat) (p q : α → Bool) (l : List α)
    (h : ∀ x ∈ l, p x = true → q x = true) :
    ((l.filter p).map f).sum ≤ ((l.filter q).map f).sum := by
  induction l with
  | nil => simp
  | cons x l ih =>
    have ih := ih fun y hy => h y (List.mem_cons_of_mem _ hy)
    have hx := h x List.mem_cons_self
    simp only [List.filter_cons]
    cases hp : p x with
    | true =>
      rw [hx hp]; simp only [if_true, List.map_cons, List.sum_cons]; omega
    | false =>
      cases q x with
      | true => simp only [if_true, Bool.false_eq_true, if_false, List.map_cons, List.sum_cons]; omega
      | false => simpa using ih

theorem sum_filter_lt {α : Type} (f : α → Nat) (p q : α → Bool) (l : List α)
    (h : ∀ x ∈ l, p x = true → q x = true) {x : α} (hx : x ∈ l) (hp : p x = false)
    (hq : q x = true) :
    ((l.filter p).map f).sum + f x ≤ ((l.filter q).map f).sum := by
  induction l with
  | nil => simp at hx
  | cons y l ih =>
    have h' : ∀ z ∈ l, p z = true → q z = true := fun z hz => h z (List.mem_cons_of_mem _ hz)
    rcases List.mem_cons.1 hx with rfl | hx
    · have := sum_filter_mono f p q l h'
      simp only [List.filter_cons, hp, hq, Bool.false_eq_true, if_false, if_true, List.map_cons,
        List.sum_cons]
      omega
    · have ih := ih h' hx
      have hy := h y List.mem_cons_self
      simp only [List.filter_cons]
      cases hp' : p y with
      | true => rw [hy hp']; simp only [if_true, List.map_cons, List.sum_cons]; omega
      | false =>
        cases q y with
        | true => simp only [if_true, Bool.false_eq_true, if_false, List.map_cons, List.sum_cons]; omega
        | false => simpa using ih

theorem length_filter_eq_sum {α : Type} (p : α → Bool) (l : List α) :
    (l.filter p).length = ((l.filter p).map fun _ => 1).sum := by simp

theorem movedUpTo_mono {a b : Nat} (h : a ≤ b) : movedUpTo a ≤ movedUpTo b :=
  sum_filter_mono _ _ _ _ fun g _ hg => by simp only [decide_eq_true_eq] at *; omega

theorem rehashesUpTo_mono {a b : Nat} (h : a ≤ b) : rehashesUpTo a ≤ rehashesUpTo b := by
  unfold rehashesUpTo
  rw [length_filter_eq_sum, length_filter_eq_sum]
  exact sum_filter_mono _ _ _ _ fun g _ hg => by simp only [decide_eq_true_eq] at *; omega

theorem wordsBelow_mono {a b : Nat} (h : a ≤ b) : wordsBelow a ≤ wordsBelow b :=
  sum_filter_mono _ _ _ _ fun g _ hg => by simp only [decide_eq_true_eq] at *; omega

/-- The bucket count changes only when the number of entries is larger than ever. -/
theorem PolicyAt.changed {b r b' r' peak c n : Nat} (h : PolicyAt b r peak)
    (h' : PolicyAt b' r' (max peak n)) (hc : c ≤ peak) (hn : n ≤ c + 1) (hb : b' ≠ b) :
    n = peak + 1 ∧ c = peak ∧ ∃ g ∈ stages, g.buckets = b' ∧ g.lo = peak + 1 := by
  have hnp : n = peak + 1 := by
    by_contra hcon
    rw [show max peak n = peak by omega] at h'
    exact hb (h'.unique h).1
  subst hnp
  refine ⟨rfl, by omega, ?_⟩
  rw [show max peak (peak + 1) = peak + 1 by omega] at h'
  rcases h' with ⟨h0, _⟩ | ⟨g, hg, rfl, rfl, h1, h2⟩
  · omega
  · refine ⟨g, hg, rfl, ?_⟩
    by_contra hcon
    exact hb (PolicyAt.unique (.inr ⟨g, hg, rfl, rfl, by omega, by omega⟩) h).1

theorem PolicyAt.moved {b r peak : Nat} (h : PolicyAt b r peak) :
    movedUpTo peak ≤ 2 * peak ∧ 2 ^ rehashesUpTo peak ≤ max 1 (2 * peak) ∧
      wordsBelow b ≤ b + 1 := by
  have hs : stages.all (fun g => decide (movedUpTo g.lo ≤ 2 * g.lo) &&
      decide (2 ^ rehashesUpTo g.lo ≤ 2 * g.lo) && decide (wordsBelow g.buckets ≤ g.buckets + 1) &&
      stages.all fun g' => decide (g'.lo ≤ g.lo) || decide (g.hi ≤ g'.lo)) = true := by
    decide +kernel
  rcases h with ⟨rfl, rfl, rfl⟩ | ⟨g, hg, rfl, rfl, h1, h2⟩
  · decide +kernel
  · have := List.all_eq_true.1 hs g hg
    simp only [Bool.and_eq_true, decide_eq_true_eq, List.all_eq_true, Bool.or_eq_true] at this
    obtain ⟨⟨⟨a1, a2⟩, a3⟩, a4⟩ := this
    have hf : (stages.filter fun g' => decide (g'.lo ≤ peak)) =
        stages.filter fun g' => decide (g'.lo ≤ g.lo) := by
      apply List.filter_congr
      intro g' hg'
      have := a4 g' hg'
      rw [decide_eq_decide]
      omega
    have e1 : movedUpTo peak = movedUpTo g.lo := by unfold movedUpTo; rw [hf]
    have e2 : rehashesUpTo peak = rehashesUpTo g.lo := by unfold rehashesUpTo; rw [hf]
    rw [e1, e2]
    exact ⟨by omega, by omega, a3⟩

theorem step_length_le {eq : K → K → Bool} (op : MapOp K V) (s : List (K × V)) :
    (op.step eq s).2.length ≤ s.length + 1 := by
  have he : ∀ k, (eraseKey eq k s).length ≤ s.length := fun k => List.length_filter_le _ _
  have hv : ∀ k v, (setVal eq k v s).length = s.length := fun k v => by simp [setVal]
  cases op with
  | insert k v => simp only [MapOp.step]; split <;> simp [hv]
  | remove k => have := he k; simp only [MapOp.step]; omega
  | removeEntry k => have := he k; simp only [MapOp.step]; omega
  | get k => simp [MapOp.step]
  | modify k f => simp only [MapOp.step]; split <;> simp [hv]
  | contains k => simp [MapOp.step]
  | entry k f v => simp only [MapOp.step]; split <;> simp [hv]
  | entryKey k => simp only [MapOp.step]; split <;> simp
  | len => simp [MapOp.step]
  | isEmpty => simp [MapOp.step]
  | clear => simp [MapOp.step]

variable {E : HEnv K V σ} {Inv : σ → HNMem K V → List Nat → Prop} {w : World Nat}
  {wn : Nat → Option (Option (HCell K V))}

theorem HRep.rehashes (L : HLaw E Inv) (he : PartialEquiv E.eq) (hh : HashOk E)
    (ops : List (MapOp K V)) :
    ∀ {m : HMem K V} {t : HTable σ} {peak : Nat} {bl : List Nat} {cs : List (List (Nat × K × V))},
    HRep True E Inv w wn m t peak bl cs → MapOp.peak E.eq ops (ents cs) ≤ maxEntries →
    ∃ l o t' m', t.run E ops m = .ok (o, t', m') ∧ t.rehashes E ops m = .ok l ∧
      PolicyAt t'.bucketCount t'.nextResize (max peak (MapOp.peak E.eq ops (ents cs))) ∧
      t.bucketCount ≤ t'.bucketCount ∧
      (l.map Prod.fst).sum + movedUpTo peak ≤
        movedUpTo (max peak (MapOp.peak E.eq ops (ents cs))) ∧
      l.length + rehashesUpTo peak ≤ rehashesUpTo (max peak (MapOp.peak E.eq ops (ents cs))) ∧
      ((l.filter fun x => x.2 ≠ 1).map fun x => x.2 + 1).sum + wordsBelow t.bucketCount ≤
        wordsBelow t'.bucketCount := by
  induction ops with
  | nil =>
    intro m t peak bl cs h _
    have hpk := h.peak
    rw [h.count, ← ents_length] at hpk
    have hm : max peak (MapOp.peak E.eq [] (ents cs)) = peak := by simp only [MapOp.peak]; omega
    exact ⟨[], [], t, m, rfl, rfl, by rw [hm]; exact h.policy, Nat.le_refl _, by rw [hm]; simp,
      by rw [hm]; simp, by simp⟩
  | cons op ops ih =>
    intro m t peak bl cs h hmax
    have hle := le_peak E.eq ops (op.step E.eq (ents cs)).2
    simp only [MapOp.peak] at hmax
    obtain ⟨t1, m1, bl1, cs1, e1, e2⟩ := h.step L he hh op (by omega)
    have hp := e2.perm
    obtain ⟨a1, a2⟩ := allDrops_perm he ops hp (e2.rep.core.distinct)
    obtain ⟨l, o, t2, m2, f1, f2, f3, f0, f4, f5, f6⟩ := ih e2.rep (by rw [a2]; omega)
    rw [a2] at f3 f4 f5
    have hpk := h.peak
    have hcnt : t.count = (ents cs).length := by rw [h.count, ents_length]
    have hmx : max (max peak (op.step E.eq (ents cs)).2.length)
        (MapOp.peak E.eq ops (op.step E.eq (ents cs)).2) =
        max peak (MapOp.peak E.eq (op :: ops) (ents cs)) := by
      simp only [MapOp.peak]; omega
    rw [hmx] at f3 f4 f5
    have hn := step_length_le (eq := E.eq) op (ents cs)
    have hmono := h.policy.mono e2.rep.policy (Nat.le_max_left _ _)
    refine ⟨if t1.bucketCount = t.bucketCount then l else (t.count, t.bucketCount) :: l,
      (op.step E.eq (ents cs)).1 :: o, t2, m2, ?_, ?_, f3, by omega, ?_⟩
    · simp only [HTable.run, e1, Exec.ok_bind, f1]
    · simp only [HTable.rehashes, e1, Exec.ok_bind, f2]
    by_cases hb : t1.bucketCount = t.bucketCount
    · have g1 := movedUpTo_mono (Nat.le_max_left peak (op.step E.eq (ents cs)).2.length)
      have g2 := rehashesUpTo_mono (Nat.le_max_left peak (op.step E.eq (ents cs)).2.length)
      rw [if_pos hb]
      rw [hb] at f6
      exact ⟨by omega, by omega, f6⟩
    · rw [if_neg hb]
      obtain ⟨c1, c2, g, hg, hgb, hgl⟩ := h.policy.changed (c := t.count) e2.rep.policy hpk
        (by omega) hb
      rw [show max peak (op.step E.eq (ents cs)).2.length = peak + 1 by omega] at f4 f5
      have g1 : movedUpTo peak + (g.lo - 1) ≤ movedUpTo (peak + 1) :=
        sum_filter_lt (fun g : Stage => g.lo - 1) _ _ stages
          (fun g _ hg => by simp only [decide_eq_true_eq] at *; omega) hg
          (by simp only [decide_eq_false_iff_not]; omega) (by simp only [decide_eq_true_eq]; omega)
      have g2 : rehashesUpTo peak + 1 ≤ rehashesUpTo (peak + 1) := by
        unfold rehashesUpTo
        rw [length_filter_eq_sum, length_filter_eq_sum]
        exact sum_filter_lt (fun _ : Stage => 1) _ _ stages
          (fun g _ hg => by simp only [decide_eq_true_eq] at *; omega) hg
          (by simp only [decide_eq_false_iff_not]; omega) (by simp only [decide_eq_true_eq]; omega)
      refine ⟨?_, ?_, ?_⟩
      · simp only [List.map_cons, List.sum_cons]; omega
      · simp only [List.length_cons]; omega
      · rw [List.filter_cons]
        by_cases h1 : t.bucketCount = 1
        · have := wordsBelow_mono hmono
          simp only [h1, ne_eq, not_true_eq_false, decide_false, Bool.false_eq_true, if_false]
          rw [h1] at this
          simp only [ne_eq] at f6
          omega
        · rcases h.policy with ⟨_, hx, _⟩ | ⟨g0, hg0, hb0, _⟩
          · exact absurd hx h1
          · have g3 : wordsBelow t.bucketCount + (g0.buckets + 1) ≤ wordsBelow t1.bucketCount :=
              sum_filter_lt (fun g : Stage => g.buckets + 1) _ _ stages
                (fun g _ hg => by simp only [decide_eq_true_eq] at *; omega) hg0
                (by simp only [decide_eq_false_iff_not]; omega)
                (by simp only [decide_eq_true_eq]; omega)
            simp only [ne_eq, h1, not_false_eq_true, decide_true, if_true, List.map_cons,
              List.sum_cons]
            simp only [ne_eq] at f6
            omega

end Verif
