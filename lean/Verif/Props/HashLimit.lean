import Verif.HashTable.Grants
import Verif.Props.HashTable

/-!
# Histories past the limit of the growth policy (C45, C53)

C45 speaks of the histories in which the map never holds more than 2557710464 entries.  Every
other history panics, so that no history of whatever length is undefined behaviour.
-/

set_option autoImplicit false

namespace Verif
open Spec

variable {K V : Type}

/-- The first call of a history that takes the map past `L` entries. -/
theorem Spec.peak_first (eq : K → K → Bool) (L : Nat) : ∀ (ops : List (MapOp K V))
    (s : List (K × V)), s.length ≤ L → L < MapOp.peak eq ops s →
    ∃ pre op post, ops = pre ++ op :: post ∧ MapOp.peak eq pre s ≤ L ∧
      L < (MapOp.step eq op (MapOp.run eq pre s).2).2.length := by
  intro ops
  induction ops with
  | nil => intro s h1 h2; simp only [MapOp.peak] at h2; omega
  | cons op ops ih =>
    intro s h1 h2
    simp only [MapOp.peak] at h2
    rcases Nat.lt_or_ge L (op.step eq s).2.length with h | h
    · exact ⟨[], op, ops, rfl, by simpa only [MapOp.peak] using h1, by simpa only [MapOp.run] using h⟩
    · obtain ⟨pre, op', post, e1, e2, e3⟩ := ih _ h (by omega)
      refine ⟨op :: pre, op', post, by rw [e1]; rfl, ?_, ?_⟩
      · simp only [MapOp.peak]; omega
      · simpa only [MapOp.run] using e3

/-- A history stops at the first call that fails. -/
theorem HTable.run_stop {σ : Type} {E : HEnv K V σ} (op : MapOp K V) (post : List (MapOp K V)) :
    ∀ (pre : List (MapOp K V)) {t t' : HTable σ} {m m' : HMem K V} {o : List (MapOut K V)}
      {e : Fault}, t.run E pre m = .ok (o, t', m') → t'.step E op m' = .error e →
      t.run E (pre ++ op :: post) m = .error e := by
  intro pre
  induction pre with
  | nil =>
    intro t t' m m' o e h he
    simp only [HTable.run, Except.ok.injEq, Prod.mk.injEq] at h
    obtain ⟨_, rfl, rfl⟩ := h
    simp only [List.nil_append, HTable.run, he, Exec.error_bind]
  | cons a pre ih =>
    intro t t' m m' o e h he
    simp only [HTable.run] at h
    cases hs : t.step E a m with
    | error f => rw [hs] at h; simp only [Exec.error_bind] at h; cases h
    | ok r =>
      obtain ⟨o1, t1, m1⟩ := r
      rw [hs] at h
      simp only [Exec.ok_bind] at h
      cases hr : t1.run E pre m1 with
      | error f => rw [hr] at h; simp only [Exec.error_bind] at h; cases h
      | ok r =>
        obtain ⟨o2, t2, m2⟩ := r
        rw [hr] at h
        simp only [Exec.ok_bind, Except.ok.injEq, Prod.mk.injEq] at h
        obtain ⟨_, rfl, rfl⟩ := h
        simp only [List.cons_append, HTable.run, hs, Exec.ok_bind, ih hr he, Exec.error_bind]

variable {E : HEnv K V Unit} {m0 : HMem K V}

/-- C53.  Every history that would take the map past 2557710464 entries panics. -/
theorem C53_past_limit_panics (S : HSetting E m0) (ops : List (MapOp K V))
    (h : 2557710464 < MapOp.peak E.eq ops []) : HTable.history E ops m0 = .error .panic := by
  obtain ⟨pre, op, post, rfl, hpk, hlt⟩ := peak_first E.eq 2557710464 ops [] (by simp) h
  obtain ⟨t, m, bl, cs, e1, A⟩ := S.run pre hpk
  refine HTable.run_stop op post pre e1 ?_
  have hle := length_step_le E.eq op (MapOp.run E.eq pre []).2
  have hcount := A.count
  have hp := A.rep.peak
  have hc : t.count = 2557710464 := by
    have h1 : (ents cs).length = (MapOp.run E.eq pre []).2.length := A.perm.length_eq
    omega
  obtain ⟨_, hf⟩ := A.rep.policy.full (by unfold maxEntries; omega)
  have hf2 : getRehashRequired t.nextResize t.bucketCount t.count 1 = .error .panic := by
    rw [hc]; exact hf
  have hfind : ∀ k : K, lookup E.eq (MapOp.run E.eq pre []).2 k = none →
      (∀ v, t.insert E k v m = .error .panic) ∧
      ∀ f v, t.step E (.entry k f v) m = .error .panic := by
    intro k hk
    rw [← A.look S.equiv] at hk
    obtain ⟨l1, c, l2, hcs, g1, g2, g3, hcase⟩ := A.rep.core.locate S.equiv S.hash k
    rcases hcase with ⟨c1, n, c2, rfl, hk', hc1, hlu, hf'⟩ | ⟨hc', hlu, hf'⟩
    · rw [hk] at hlu; cases hlu
    · refine ⟨fun v => ?_, fun f v => ?_⟩
      · simp only [HTable.insert, hf', Exec.ok_bind, HTable.insertImpl, hf2, Exec.error_bind]
      · simp only [HTable.step, HTable.entry, HEntry.andModify, HEntry.orInsert,
          HEntry.orInsertWith, hf', Exec.ok_bind, HTable.insertImpl, hf2, Exec.error_bind]
  cases op with
  | insert k v =>
    simp only [MapOp.step] at hlt
    cases hk : lookup E.eq (MapOp.run E.eq pre []).2 k with
    | some p => rw [hk] at hlt; simp only [setVal, List.length_map] at hlt; omega
    | none => simp only [HTable.step, (hfind k hk).1 v, Exec.error_bind]
  | entry k f v =>
    simp only [MapOp.step] at hlt
    cases hk : lookup E.eq (MapOp.run E.eq pre []).2 k with
    | some p => rw [hk] at hlt; simp only [setVal, List.length_map] at hlt; omega
    | none => exact (hfind k hk).2 f v
  | modify k f =>
    simp only [MapOp.step] at hlt
    cases hk : lookup E.eq (MapOp.run E.eq pre []).2 k with
    | some p => rw [hk] at hlt; simp only [setVal, List.length_map] at hlt; omega
    | none => rw [hk] at hlt; simp only at hlt; omega
  | entryKey k =>
    simp only [MapOp.step] at hlt
    cases hk : lookup E.eq (MapOp.run E.eq pre []).2 k <;> rw [hk] at hlt <;> simp only at hlt <;>
      omega
  | remove k =>
    have := List.length_filter_le (fun p => !E.eq p.1 k) (MapOp.run E.eq pre []).2
    simp only [MapOp.step, eraseKey] at hlt; omega
  | removeEntry k =>
    have := List.length_filter_le (fun p => !E.eq p.1 k) (MapOp.run E.eq pre []).2
    simp only [MapOp.step, eraseKey] at hlt; omega
  | clear => simp [MapOp.step] at hlt
  | get k => simp only [MapOp.step] at hlt; omega
  | contains k => simp only [MapOp.step] at hlt; omega
  | len => simp only [MapOp.step] at hlt; omega
  | isEmpty => simp only [MapOp.step] at hlt; omega

/-- C45, C53.  A history of any length either answers as the finite map does, or panics: the
latter exactly if it would take the map past 2557710464 entries. -/
theorem C45_any_history (S : HSetting E m0) (ops : List (MapOp K V)) :
    (MapOp.peak E.eq ops [] ≤ 2557710464 ∧
      ∃ t m, HTable.history E ops m0 = .ok ((MapOp.run E.eq ops []).1, t, m)) ∨
    (2557710464 < MapOp.peak E.eq ops [] ∧ HTable.history E ops m0 = .error .panic) := by
  rcases Nat.lt_or_ge 2557710464 (MapOp.peak E.eq ops []) with h | h
  · exact .inr ⟨h, C53_past_limit_panics S ops h⟩
  · obtain ⟨t, m, _, _, e, _⟩ := S.run ops h
    exact .inl ⟨h, t, m, e⟩

/-- Non-vacuity: one more than 2557710464 different keys, and anything after them. -/
example (ops : List (MapOp Nat Nat)) :
    HTable.history exampleNat (countTo 2557710465 ++ ops) exampleHashMem = .error .panic := by
  refine C53_past_limit_panics exampleNat_ok _ ?_
  have h := (countTo_run 2557710465).2.1
  have hmono : ∀ (a b : List (MapOp Nat Nat)) (s : List (Nat × Nat)),
      MapOp.peak exampleNat.eq a s ≤ MapOp.peak exampleNat.eq (a ++ b) s := by
    intro a b
    induction a with
    | nil => intro s; cases b <;> simp only [List.nil_append, MapOp.peak] <;> omega
    | cons x a ih =>
      intro s
      have := ih (x.step exampleNat.eq s).2
      simp only [List.cons_append, MapOp.peak]; omega
  have := hmono (countTo 2557710465) ops []
  omega

/-! ## Sets -/

/-- A call on a set changes the table as the call on the map under it does, and fails as it does. -/
theorem HTable.stepSet_state {σ : Type} (E : HEnv K Unit σ) (op : SetOp K) (t : HTable σ)
    (m : HMem K Unit) :
    (t.stepSet E op m).map Prod.snd = (t.step E (SetOp.toMap op) m).map Prod.snd := by
  cases op with
  | insert k =>
    simp only [HTable.stepSet, SetOp.toMap, HTable.step]; cases t.insert E k () m <;> rfl
  | remove k =>
    simp only [HTable.stepSet, SetOp.toMap, HTable.step]; cases t.removeEntry E k m <;> rfl
  | get k => simp only [HTable.stepSet, SetOp.toMap, HTable.step]; cases t.get E k m <;> rfl
  | contains k =>
    simp only [HTable.stepSet, SetOp.toMap, HTable.step]; cases t.containsKey E k m <;> rfl
  | len => rfl
  | isEmpty => rfl
  | clear => simp only [HTable.stepSet, SetOp.toMap, HTable.step]; cases t.clear E m <;> rfl

theorem HTable.runSet_state {σ : Type} (E : HEnv K Unit σ) : ∀ (ops : List (SetOp K))
    (t : HTable σ) (m : HMem K Unit),
    (t.runSet E ops m).map Prod.snd = (t.run E (ops.map SetOp.toMap) m).map Prod.snd := by
  intro ops
  induction ops with
  | nil => intro t m; rfl
  | cons op ops ih =>
    intro t m
    have h := HTable.stepSet_state E op t m
    simp only [HTable.runSet, List.map_cons, HTable.run]
    cases h1 : t.stepSet E op m with
    | error e =>
      cases h2 : t.step E (SetOp.toMap op) m with
      | error e' =>
        rw [h1, h2] at h
        cases h
        rfl
      | ok r => rw [h1, h2] at h; cases h
    | ok r =>
      cases h2 : t.step E (SetOp.toMap op) m with
      | error e' => rw [h1, h2] at h; cases h
      | ok r' =>
        rw [h1, h2] at h
        obtain ⟨o, t1, m1⟩ := r
        obtain ⟨o', t1', m1'⟩ := r'
        simp only [Except.map, Except.ok.injEq, Prod.mk.injEq] at h
        obtain ⟨rfl, rfl⟩ := h
        have h3 := ih t1 m1
        simp only [Exec.ok_bind]
        cases h4 : t1.runSet E ops m1 <;> cases h5 : t1.run E (ops.map SetOp.toMap) m1 <;>
          rw [h4, h5] at h3 <;> simpa only [Exec.ok_bind, Exec.error_bind, Except.map] using h3

/-- C53 for sets.  Every history that would take a `HashSet` past 2557710464 elements panics. -/
theorem C53_set_past_limit_panics {E : HEnv K Unit Unit} {m0 : HMem K Unit} (S : HSetting E m0)
    (ops : List (SetOp K)) (h : 2557710464 < SetOp.peak E.eq ops []) :
    HTable.historySet E ops m0 = .error .panic := by
  have h0 := set_peak E.eq ops []
  have h1 := C53_past_limit_panics S (ops.map SetOp.toMap) (by rw [← h0]; exact h)
  have h2 := HTable.runSet_state E ops (HTable.newIn E ()) m0
  unfold HTable.history at h1
  unfold HTable.historySet
  rw [h1] at h2
  cases h3 : (HTable.newIn E ()).runSet E ops m0 with
  | error e => rw [h3] at h2; cases h2; rfl
  | ok r => rw [h3] at h2; cases h2

/-- Inserting the numbers below `n` into a set. -/
theorem set_count_peak (n : Nat) :
    SetOp.peak (fun a b => a == b : Nat → Nat → Bool) ((List.range n).map .insert) [] = n := by
  have h0 := set_peak (fun a b => a == b : Nat → Nat → Bool) ((List.range n).map .insert) []
  have h1 := (run_inserts (eq := fun a b => a == b) () (List.range n) [] (by simp [lookup])
    (by
      refine List.Pairwise.imp ?_ List.pairwise_lt_range
      intro a b hab
      simp; omega)).2.1
  have h2 : ((List.range n).map SetOp.insert).map SetOp.toMap =
      (List.range n).map fun k => MapOp.insert k () := by
    rw [List.map_map]; rfl
  rw [h2, h1] at h0
  simpa only [keys, List.map_nil, List.length_nil, List.length_range, Nat.zero_add] using h0

/-- Non-vacuity: a set of numbers into which those up to 2557710464 are inserted. -/
example : 2557710464 <
    SetOp.peak (fun a b => a == b : Nat → Nat → Bool) ((List.range 2557710465).map .insert) [] := by
  have h := set_count_peak 2557710465
  omega

end Verif
