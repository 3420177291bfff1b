import Verif.Debug.Model
import Verif.Spec.Debug
import Verif.MemLemmas
import Mathlib.Tactic.Common

/-! Lemmas about the printed form of containers. -/

set_option autoImplicit false

namespace Verif
open Spec

variable {α K V σ ι : Type}

theorem separated_cons (sep p : List Char) (ps : List (List Char)) :
    separated sep (p :: ps) = p ++ ps.flatMap (sep ++ ·) := by
  induction ps generalizing p with
  | nil => simp [separated]
  | cons q ps ih => simp [separated, ih, List.append_assoc]

theorem joinStrings_eq (sep : List Char) (ps : List (List Char)) :
    joinStrings sep ps = separated sep ps := by
  cases ps with
  | nil => rfl
  | cons p ps => simp [joinStrings, separated_cons]

theorem formatRest_eq (dbg : α → List Char) (sep : List Char) (xs : List α) (out : List Char) :
    formatRest dbg sep xs out = out ++ (xs.map dbg).flatMap (sep ++ ·) := by
  induction xs generalizing out with
  | nil => simp [formatRest]
  | cons x xs ih => simp [formatRest, ih, List.append_assoc]

theorem formatSep_eq (dbg : α → List Char) (sep : List Char) (xs : List α) :
    formatSep dbg sep xs = separated sep (xs.map dbg) := by
  cases xs with
  | nil => rfl
  | cons x xs => simp [formatSep, formatRest_eq, separated_cons]

theorem debugEntries_true (dbg : α → List Char) (xs : List α) (out : List Char) :
    debugEntries dbg true xs out = out ++ (xs.map dbg).flatMap (", ".toList ++ ·) := by
  induction xs generalizing out with
  | nil => simp [debugEntries]
  | cons x xs ih => simp [debugEntries, ih, List.append_assoc]

theorem debugList_eq (dbg : α → List Char) (xs : List α) :
    debugList dbg xs = listed "[" ", " "]" (xs.map dbg) := by
  cases xs with
  | nil => rfl
  | cons x xs =>
    simp only [debugList, debugEntries, debugEntries_true, listed, List.map_cons, separated_cons]
    simp [List.append_assoc]

theorem braced_eq (ps : List (List Char)) : braced ps = listed "{" "," "}" ps := by
  simp [braced, listed, joinStrings_eq]

/-- If the iterator, asked often enough, yields the elements of `xs` and then `None`, the loop
collects `xs`. -/
theorem collectFrom_of_run {next : ι → Exec (Option α × ι)}
    {run : Nat → ι → Exec (List (Option α) × ι)}
    (hrun : ∀ n it, run (n + 1) it = (next it).bind fun r => (run n r.2).bind fun q =>
      .ok (r.1 :: q.1, q.2)) (xs : List α) :
    ∀ {it : ι}, (∃ it', run (xs.length + 1) it =
        .ok ((List.range (xs.length + 1)).map fun i => xs[i]?, it')) →
      ∀ fuel, xs.length < fuel → collectFrom next fuel it = .ok xs := by
  induction xs with
  | nil =>
    rintro it ⟨it', h⟩ fuel hf
    obtain ⟨fuel, rfl⟩ : ∃ f, fuel = f + 1 := ⟨fuel - 1, by simp at hf; omega⟩
    rw [hrun] at h
    cases hn : next it with
    | error e => rw [hn] at h; cases h
    | ok r =>
      rw [hn] at h
      simp only [Except.bind] at h
      cases hq : run ([] : List α).length r.2 with
      | error e => rw [hq] at h; cases h
      | ok q =>
        rw [hq] at h
        simp only [Except.ok.injEq, Prod.mk.injEq] at h
        have : r.1 = none := by
          have := congrArg List.head? h.1
          simpa [List.range_succ] using this
        obtain ⟨o, it2⟩ := r
        simp only at this
        subst this
        simp [collectFrom, hn]
  | cons x xs ih =>
    rintro it ⟨it', h⟩ fuel hf
    obtain ⟨fuel, rfl⟩ : ∃ f, fuel = f + 1 := ⟨fuel - 1, by simp at hf; omega⟩
    rw [hrun] at h
    cases hn : next it with
    | error e => rw [hn] at h; cases h
    | ok r =>
      rw [hn] at h
      simp only [Except.bind] at h
      cases hq : run (x :: xs).length r.2 with
      | error e => rw [hq] at h; cases h
      | ok q =>
        rw [hq] at h
        simp only [Except.ok.injEq, Prod.mk.injEq] at h
        have hl := h.1
        rw [List.range_succ_eq_map] at hl
        simp only [List.map_cons, List.cons.injEq, List.map_map] at hl
        obtain ⟨o, it2⟩ := r
        have ho : o = some x := by simpa using hl.1
        subst ho
        have := ih (it := it2) ⟨q.2, by
          rw [show xs.length + 1 = (x :: xs).length from rfl, hq]
          congr 1
          refine Prod.ext ?_ rfl
          rw [hl.2]
          refine List.map_congr_left fun i _ => ?_
          simp⟩ fuel (by simp at hf; omega)
        simp [collectFrom, hn, this]

theorem DIter.run_next (m : DMem α) (n : Nat) (it : DIter) :
    it.run (List.replicate (n + 1) .next) m = (it.step .next m).bind fun r =>
      (r.2.run (List.replicate n .next) m).bind fun q => .ok (r.1 :: q.1, q.2) := rfl

theorem LIter.run_next (m : LMem α) (n : Nat) (it : LIter) :
    it.run (n + 1) m = (it.nextVal m).bind fun r =>
      (r.2.run n m).bind fun q => .ok (r.1 :: q.1, q.2) := by
  simp only [LIter.run, LIter.nextVal]
  cases it.next m with
  | error e => rfl
  | ok r =>
    obtain ⟨p, it⟩ := r
    cases p with
    | none => rfl
    | some p =>
      simp only [Exec.ok_bind]
      cases m.val p <;> rfl

theorem HIter.run_next (m : HMem K V) (n : Nat) (it : HIter) :
    it.run m (n + 1) = (it.nextEntry m).bind fun r =>
      (r.2.run m n).bind fun q => .ok (r.1 :: q.1, q.2) := by
  simp only [HIter.run, HIter.nextEntry]
  cases it.next m with
  | error e => rfl
  | ok r =>
    obtain ⟨p, it⟩ := r
    cases p with
    | none => rfl
    | some p =>
      simp only [Exec.ok_bind]
      cases m.node p <;> rfl

/-- Asking a sequence for its front again and again. -/
theorem iterOp_next (n : Nat) (xs : List α) :
    (IterOp.run (List.replicate n .next) xs).1 = (List.range n).map fun i => xs[i]? := by
  induction n generalizing xs with
  | zero => rfl
  | succ n ih =>
    rw [List.replicate_succ, List.range_succ_eq_map]
    cases xs with
    | nil => simp [IterOp.run, IterOp.step, ih, Function.comp_def]
    | cons x xs => simp [IterOp.run, IterOp.step, ih, Function.comp_def]

/-- A text without commas is determined by what follows it, if that starts with a comma. -/
theorem comma_split {p q s t : List Char} (hp : ',' ∉ p) (hq : ',' ∉ q)
    (h : p ++ ',' :: s = q ++ ',' :: t) : p = q ∧ s = t := by
  induction p generalizing q with
  | nil =>
    cases q with
    | nil => simpa using h
    | cons c q => simp at h; exact absurd h.1.symm (by simp at hq; exact fun e => hq.1 e.symm)
  | cons c p ih =>
    cases q with
    | nil => simp at h; exact absurd h.1 (by simp at hp; exact fun e => hp.1 e.symm)
    | cons d q =>
      simp only [List.cons_append, List.cons.injEq] at h
      obtain ⟨e1, e2⟩ := ih (by simp at hp; exact hp.2) (by simp at hq; exact hq.2) h.2
      exact ⟨by rw [h.1, e1], e2⟩

/-- Pieces without commas can be read off the separated text. -/
theorem separated_inj {sep : List Char} {ps qs : List (List Char)}
    (hp : ∀ p ∈ ps, p ≠ [] ∧ ',' ∉ p) (hq : ∀ q ∈ qs, q ≠ [] ∧ ',' ∉ q)
    (h : separated (',' :: sep) ps = separated (',' :: sep) qs) : ps = qs := by
  induction ps generalizing qs with
  | nil =>
    cases qs with
    | nil => rfl
    | cons q qs =>
      rw [separated_cons] at h
      simp [separated] at h
      exact absurd h.1 (hq q (by simp)).1
  | cons p ps ih =>
    cases qs with
    | nil =>
      rw [separated_cons] at h
      simp [separated] at h
      exact absurd h.1 (hp p (by simp)).1
    | cons q qs =>
      have hp' := hp p (by simp)
      have hq' := hq q (by simp)
      cases ps with
      | nil =>
        cases qs with
        | nil => simpa [separated] using h
        | cons q2 qs =>
          simp only [separated] at h
          exact absurd (by rw [h]; simp) hp'.2
      | cons p2 ps =>
        cases qs with
        | nil =>
          simp only [separated] at h
          exact absurd (by rw [← h]; simp) hq'.2
        | cons q2 qs =>
          simp only [separated, List.append_assoc, List.cons_append] at h
          obtain ⟨e1, e2⟩ := comma_split hp'.2 hq'.2 h
          rw [e1, ih (fun r hr => hp r (by simp [List.mem_cons.1 hr]))
            (fun r hr => hq r (by simp [List.mem_cons.1 hr])) (List.append_cancel_left e2)]

end Verif
