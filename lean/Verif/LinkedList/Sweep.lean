import Verif.LinkedList.Inv
import Verif.Spec.Sweep

/-! Assigning to the elements of a list during `iter_mut`. -/

set_option autoImplicit false

namespace Verif
open Spec

variable {α σ : Type}

/-- As many calls of `next` of `IterMut` (src/list/iter.rs:64-73) as there are values given, each
followed by `*r = y` if it returned a reference `r`; the values that were there. -/
def LIter.sweep (E : LEnv α σ) : List α → LIter → LMem α → Exec (List (Option α) × LMem α)
  | [], _, m => .ok ([], m)
  | y :: ys, it, m => do
    let (p, it) ← it.next m
    match p with
    | none => do
      let (os, m) ← LIter.sweep E ys it m
      .ok (none :: os, m)
    | some p => do
      let x ← m.val p
      let m ← LList.assign E p y m
      let (os, m) ← LIter.sweep E ys it m
      .ok (some x :: os, m)

/-- A call, or a loop over `iter_mut` (src/list/mod.rs:128-130). -/
def LList.stepI (E : LEnv α σ) : ListItem α → LList σ → LMem α → Exec (Seen α × LList σ × LMem α)
  | .call op, l, m => do
    let (o, l, m) ← l.step E op m
    .ok (.out o, l, m)
  | .sweep ys, l, m => do
    let (os, m) ← l.iter.sweep E ys m
    .ok (.saw os, l, m)

/-- A history of calls and loops. -/
def LList.runI (E : LEnv α σ) : List (ListItem α) → LList σ → LMem α →
    Exec (List (Seen α) × LList σ × LMem α)
  | [], l, m => .ok ([], l, m)
  | i :: is, l, m => do
    let (o, l, m) ← l.stepI E i m
    let (os, l, m) ← LList.runI E is l m
    .ok (o :: os, l, m)

section
variable {E : LEnv α σ} {Inv : σ → LMem α → List Nat → Prop}

theorem LRep.sweep (L : LLaw E Inv) : ∀ (ys : List α) {a b : List α} {ps : List Nat} {m : LMem α}
    {l : LList σ}, LRep Inv m l ps (a ++ b) →
    ∃ m', (literAt l ps a.length).sweep E ys m =
        .ok ((List.range ys.length).map (fun j => b[j]?), m') ∧
      LRep Inv m' l ps (a ++ (ys.take b.length ++ b.drop ys.length)) ∧ LKeep l.head ps m ps m' ∧
      m'.dropped = m.dropped ++ if E.nd then b.take ys.length else [] := by
  intro ys
  induction ys with
  | nil => intro a b ps m l h; exact ⟨m, rfl, by simpa using h, LKeep.refl _ _ _, by simp⟩
  | cons y ys ih =>
    intro a b ps m l h
    have hl := h.length
    simp only [List.length_append] at hl
    have hn := h.iter_next (k := a.length) (by omega)
    cases b with
    | nil =>
      obtain ⟨m', e1, e2, e3, e4⟩ := ih h
      have hk : ¬ a.length < ps.length := by simp at hl; omega
      rw [if_neg hk, List.getElem?_eq_none (by omega)] at hn
      refine ⟨m', ?_, by simpa using e2, e3, by simpa using e4⟩
      simp only [LIter.sweep, hn, Exec.ok_bind, e1]
      simp [List.range_succ_eq_map, Function.comp_def]
    | cons x b =>
      have hk : a.length < ps.length := by simp at hl; omega
      rw [if_pos hk, List.getElem?_eq_getElem hk] at hn
      have hv : LMem.val m ps[a.length] = .ok x := by rw [h.val_at hk]; simp
      obtain ⟨qs, p, rs, rfl, hq, hp⟩ : ∃ qs p rs, ps = qs ++ p :: rs ∧ qs.length = a.length ∧
          ps[a.length] = p :=
        ⟨ps.take a.length, ps[a.length], ps.drop (a.length + 1), by simp, by simp; omega, rfl⟩
      rw [hp] at hn hv
      obtain ⟨m1, f1, f2, f3, f4⟩ := h.assign L y hq
      obtain ⟨m', e1, e2, e3, e4⟩ := ih (a := a ++ [y]) (b := b) (by simpa using f3)
      simp only [List.length_append, List.length_singleton] at e1
      refine ⟨m', ?_, by simpa using e2, f4.trans e3, ?_⟩
      · simp only [LIter.sweep, hn, Exec.ok_bind, hv, f1, e1]
        simp [List.range_succ_eq_map]
      · rw [e4, f2]
        cases E.nd <;> simp

/-- An item of a history does to the list what it does to a sequence. -/
theorem LRep.stepI (L : LLaw E Inv) {m : LMem α} {l : LList σ} {ps : List Nat} {xs : List α}
    (h : LRep Inv m l ps xs) (i : ListItem α) :
    ∃ l' m' ps', l.stepI E i m = .ok ((i.step xs).1, l', m') ∧ l'.head = l.head ∧
      LRep Inv m' l' ps' (i.step xs).2 ∧ LKeep l.head ps m ps' m' ∧
      m'.dropped = m.dropped ++ if E.nd then i.discarded xs else [] := by
  cases i with
  | call op =>
    obtain ⟨l', m', ps', e1, e2, e3, e4, e5, _⟩ := h.step L op
    exact ⟨l', m', ps', by simp [LList.stepI, e1, ListItem.step], e2, e4, e5, e3⟩
  | sweep ys =>
    obtain ⟨m', e1, e2, e3, e4⟩ := LRep.sweep L ys (a := []) (b := xs) h
    refine ⟨l, m', ps, ?_, rfl, by simpa [ListItem.step] using e2, e3, e4⟩
    have : l.iter = literAt l ps ([] : List α).length := by simp [LList.iter, literAt]
    rw [← this] at e1
    simp [LList.stepI, e1, ListItem.step]

theorem LRep.runI (L : LLaw E Inv) : ∀ (is : List (ListItem α)) {m : LMem α} {l : LList σ}
    {ps : List Nat} {xs : List α}, LRep Inv m l ps xs →
    ∃ l' m' ps', LList.runI E is l m = .ok ((ListItem.run is xs).1, l', m') ∧ l'.head = l.head ∧
      LRep Inv m' l' ps' (ListItem.run is xs).2 ∧ LKeep l.head ps m ps' m' ∧
      m'.dropped = m.dropped ++ if E.nd then ListItem.allDiscarded is xs else [] := by
  intro is
  induction is with
  | nil =>
    intro m l ps xs h
    exact ⟨l, m, ps, rfl, rfl, h, LKeep.refl _ _ _, by simp [ListItem.allDiscarded]⟩
  | cons i is ih =>
    intro m l ps xs h
    obtain ⟨l1, m1, p1, e1, e2, e3, e4, e5⟩ := h.stepI L i
    obtain ⟨l2, m2, p2, f1, f2, f3, f4, f5⟩ := ih e3
    rw [e2] at f4
    refine ⟨l2, m2, p2, by simp [LList.runI, e1, f1, ListItem.run], f2.trans e2, f3, e4.trans f4, ?_⟩
    rw [f5, e5]
    cases E.nd <;> simp [ListItem.allDiscarded]

end

end Verif
