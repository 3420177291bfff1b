import Verif.Deque.Ops
import Mathlib.Data.List.Induction

/-! Iteration, `remove` and `drop` on a represented deque. -/

set_option autoImplicit false

namespace Verif
open Spec

variable {α : Type}

/-- The iterator over positions `q1..q2`. -/
abbrev iterAt (S pb lo : Nat) (bl : List Nat) (q1 q2 : Nat) : DIter :=
  ⟨cellPtr S bl q1, .loc pb (lo + q1 / S), cellPtr S bl q2, .loc pb (lo + q2 / S), S⟩

section
variable {E : DEnv α} {wt : World α} {wp : World Ptr} {m : DMem α} {d : Deque}
  {pb lo bo : Nat} {bl : List Nat} {xs : List α}

theorem DRep.iter (h : DRep E wt wp m d pb lo bo bl xs) :
    d.iter = .ok (iterAt E.S pb lo bl bo (bo + xs.length)) := by
  unfold Deque.iter DIter.fromCompat
  rw [h.b, h.e]
  simp [itAt, iterAt, Ptr.offsetFrom]

theorem DRep.next (h : DRep E wt wp m d pb lo bo bl xs) {i j : Nat} (hij : i ≤ j)
    (hj : j ≤ xs.length) :
    (iterAt E.S pb lo bl (bo + i) (bo + j)).next m =
      if i = j then .ok (none, iterAt E.S pb lo bl (bo + i) (bo + j))
      else .ok (some (cellPtr E.S bl (bo + i)), iterAt E.S pb lo bl (bo + i + 1) (bo + j)) := by
  have hS := h.S_pos
  have hi := h.idx_lt (k := i) (by omega)
  have hinj := cellPtr_inj (S := E.S) h.t.nodup hi (h.idx_lt hj)
  unfold DIter.next
  by_cases he : i = j
  · subst he
    rw [if_pos (by simp), if_pos rfl]
  · have hne : ¬ cellPtr E.S bl (bo + i) = cellPtr E.S bl (bo + j) := by
      rw [hinj]; omega
    rw [if_neg (by simpa [iterAt] using hne), if_neg he]
    have hrd : m.p.read (.loc pb (lo + (bo + i) / E.S)) =
        .ok (.loc (bl.getD ((bo + i) / E.S) 0) 0) := h.p.cells _ hi
    have hla := h.t.ptrAdd hi (o := 0) (n := E.S - 1) (by omega)
    simp only [iterAt, hrd, Exec.ok_bind, hla, Nat.zero_add]
    rcases div_mod_step E.S (bo + i) hS with ⟨c1, c2, c3⟩ | ⟨c1, c2, c3⟩
    · rw [if_neg (by
        simp only [cellPtr, Ptr.loc.injEq, true_and]; omega)]
      have := h.t.ptrAdd hi (o := (bo + i) % E.S) (n := 1) (by omega)
      simp only [cellPtr, this, Exec.ok_bind, c2, c3]
    · rw [if_pos (by simp only [cellPtr, Ptr.loc.injEq, true_and]; omega)]
      have hi1 : (bo + i + 1) / E.S < bl.length := h.idx_lt (k := i + 1) (by omega)
      have hadd : m.p.ptrAdd (.loc pb (lo + (bo + i) / E.S)) 1 =
          .ok (.loc pb (lo + (bo + i + 1) / E.S)) := by
        rw [h.p.ptrAdd (by have := h.p.fits; rw [c2] at hi1; omega), c2]; rfl
      simp only [hadd, Exec.ok_bind, h.p.cells _ hi1]
      simp only [cellPtr, c3]

theorem DRep.nextBack (h : DRep E wt wp m d pb lo bo bl xs) {i j : Nat} (hij : i ≤ j)
    (hj : j ≤ xs.length) :
    (iterAt E.S pb lo bl (bo + i) (bo + j)).nextBack m =
      if i = j then .ok (none, iterAt E.S pb lo bl (bo + i) (bo + j))
      else .ok (some (cellPtr E.S bl (bo + (j - 1))),
        iterAt E.S pb lo bl (bo + i) (bo + (j - 1))) := by
  have hS := h.S_pos
  have hi := h.idx_lt (k := i) (by omega)
  have hjx := h.idx_lt hj
  have hinj := cellPtr_inj (S := E.S) h.t.nodup hjx hi
  unfold DIter.nextBack
  by_cases he : i = j
  · subst he
    rw [if_pos (by simp), if_pos rfl]
  · have hne : ¬ cellPtr E.S bl (bo + j) = cellPtr E.S bl (bo + i) := by
      rw [hinj]; omega
    rw [if_neg (by simpa [iterAt] using hne), if_neg he]
    obtain ⟨k, rfl⟩ : ∃ k, j = k + 1 := ⟨j - 1, by omega⟩
    have hk := h.idx_lt (k := k) (by omega)
    simp only [Nat.add_sub_cancel]
    have hrd : m.p.read (.loc pb (lo + (bo + (k + 1)) / E.S)) =
        .ok (.loc (bl.getD ((bo + (k + 1)) / E.S) 0) 0) := h.p.cells _ hjx
    simp only [iterAt, hrd, Exec.ok_bind]
    rw [← Nat.add_assoc] at *
    rcases div_mod_step E.S (bo + k) hS with ⟨c1, c2, c3⟩ | ⟨c1, c2, c3⟩
    · rw [if_neg (by
        simp only [cellPtr, Ptr.loc.injEq, true_and, c3]; omega)]
      have := h.t.ptrSub hk (o := (bo + k) % E.S + 1) (n := 1) (by omega)
      simp only [cellPtr, c2, c3, this, Exec.ok_bind, Nat.add_sub_cancel]
    · rw [if_pos (by simp only [cellPtr, Ptr.loc.injEq, true_and]; omega)]
      have hsub : m.p.ptrSub (.loc pb (lo + (bo + k + 1) / E.S)) 1 =
          .ok (.loc pb (lo + (bo + k) / E.S)) := by
        rw [c2, ← Nat.add_assoc, h.p.ptrSub (by exact Nat.le_add_left _ _), Nat.add_sub_cancel]
      have hla := h.t.ptrAdd hk (o := 0) (n := E.S - 1) (by omega)
      simp only [hsub, Exec.ok_bind, h.p.cells _ hk, hla, Nat.zero_add]
      simp only [cellPtr, show E.S - 1 = (bo + k) % E.S by omega]

theorem DRep.head? (h : DRep E wt wp m d pb lo bo bl xs) {i : Nat} (hi : i < xs.length) :
    m.t.read (cellPtr E.S bl (bo + i)) = .ok xs[i] :=
  h.vals i xs[i] (List.getElem?_eq_getElem hi)

theorem DRep.front (h : DRep E wt wp m d pb lo bo bl xs) : d.front m = .ok xs.head? := by
  have hn := h.next (Nat.zero_le xs.length) (Nat.le_refl _)
  simp only [Nat.add_zero] at hn
  simp only [Deque.front, h.iter, Exec.ok_bind, hn]
  cases xs with
  | nil => simp [readOpt]
  | cons x xs =>
    rw [if_neg (by simp)]
    have : m.t.read (cellPtr E.S bl bo) = .ok x := h.vals 0 x (by simp)
    simp [readOpt, this]

theorem DRep.back (h : DRep E wt wp m d pb lo bo bl xs) : d.back m = .ok xs.getLast? := by
  have hn := h.nextBack (Nat.zero_le xs.length) (Nat.le_refl _)
  simp only [Nat.add_zero] at hn
  simp only [Deque.back, h.iter, Exec.ok_bind, hn]
  rcases List.eq_nil_or_concat xs with rfl | ⟨ys, y, rfl⟩
  · simp [readOpt]
  · simp only [List.concat_eq_append] at *
    rw [if_neg (by simp)]
    have : m.t.read (cellPtr E.S bl (bo + ys.length)) = .ok y := h.vals ys.length y (by simp)
    simp [readOpt, this]

/-- Dropping an element in place and writing another. -/
theorem DRep.assign (h : DRep E wt wp m d pb lo bo bl xs) {k : Nat} (hk : k < xs.length) (x : α) :
    ∃ m', assignOpt E m x (some (cellPtr E.S bl (bo + k))) = .ok (true, m') ∧
      DRep E wt wp m' d pb lo bo bl (xs.set k x) ∧
      m'.t.dropped = m.t.dropped ++ if E.nd then [xs[k]] else [] := by
  have hr := h.head? hk
  cases hnd : E.nd with
  | false =>
    obtain ⟨t, h1, h2, h3⟩ := h.set hk x
    exact ⟨{ m with t := t }, by simp [assignOpt, hnd, h1], h2, by simpa using h3⟩
  | true =>
    have h' : DRep E wt wp { m with t := { m.t with dropped := m.t.dropped ++ [xs[k]] } } d pb lo bo
        bl xs := h.congr rfl rfl
    obtain ⟨t, h1, h2, h3⟩ := h'.set hk x
    simp only at h1 h3
    exact ⟨⟨t, m.p⟩, by simp [assignOpt, hnd, Mem.dropCell, hr, h1], h2, by simpa using h3⟩

theorem DRep.setFront (h : DRep E wt wp m d pb lo bo bl xs) (x : α) :
    ∃ m', d.setFront E x m = .ok (decide (xs ≠ []), m') ∧
      DRep E wt wp m' d pb lo bo bl (if xs = [] then [] else x :: xs.tail) ∧
      m'.t.dropped = m.t.dropped ++ if E.nd then xs.head?.toList else [] := by
  have hn := h.next (Nat.zero_le xs.length) (Nat.le_refl _)
  simp only [Nat.add_zero] at hn
  simp only [Deque.setFront, h.iter, Exec.ok_bind, hn]
  cases xs with
  | nil => exact ⟨m, by simp [assignOpt], by simpa using h, by simp⟩
  | cons y ys =>
    obtain ⟨m', h1, h2, h3⟩ := h.assign (k := 0) (by simp) x
    refine ⟨m', ?_, by simpa using h2, by simpa using h3⟩
    rw [if_neg (by simp)]
    simpa using h1

theorem DRep.setBack (h : DRep E wt wp m d pb lo bo bl xs) (x : α) :
    ∃ m', d.setBack E x m = .ok (decide (xs ≠ []), m') ∧
      DRep E wt wp m' d pb lo bo bl (if xs = [] then [] else xs.dropLast ++ [x]) ∧
      m'.t.dropped = m.t.dropped ++ if E.nd then xs.getLast?.toList else [] := by
  have hn := h.nextBack (Nat.zero_le xs.length) (Nat.le_refl _)
  simp only [Nat.add_zero] at hn
  simp only [Deque.setBack, h.iter, Exec.ok_bind, hn]
  rcases List.eq_nil_or_concat xs with rfl | ⟨ys, y, rfl⟩
  · exact ⟨m, by simp [assignOpt], by simpa using h, by simp⟩
  · simp only [List.concat_eq_append] at *
    obtain ⟨m', h1, h2, h3⟩ := h.assign (k := ys.length) (by simp) x
    refine ⟨m', ?_, by simpa using h2, by simpa using h3⟩
    rw [if_neg (by simp)]
    simpa using h1

/-- Any history of iterator calls. -/
theorem DRep.iterRun (h : DRep E wt wp m d pb lo bo bl xs) :
    ∀ (ops : List IterOp) (i j : Nat), i ≤ j → j ≤ xs.length →
      ∃ i' j', i' ≤ j' ∧ j' ≤ xs.length ∧
        DIter.run ops m (iterAt E.S pb lo bl (bo + i) (bo + j)) =
          .ok ((IterOp.run ops ((xs.take j).drop i)).1, iterAt E.S pb lo bl (bo + i') (bo + j')) ∧
        (IterOp.run ops ((xs.take j).drop i)).2 = (xs.take j').drop i' := by
  intro ops
  induction ops with
  | nil => intro i j h1 h2; exact ⟨i, j, h1, h2, rfl, rfl⟩
  | cons op ops ih =>
    intro i j hij hj
    by_cases he : i = j
    · subst he
      have hnil : (xs.take i).drop i = [] := by simp
      obtain ⟨i', j', h1, h2, h3, h4⟩ := ih i i (Nat.le_refl _) hj
      refine ⟨i', j', h1, h2, ?_, ?_⟩
      · rw [hnil] at h3 ⊢
        cases op <;>
          simp [DIter.run, DIter.step, h.next (Nat.le_refl i) hj, h.nextBack (Nat.le_refl i) hj, h3,
            IterOp.run, IterOp.step]
      · rw [hnil] at h4 ⊢
        cases op <;> simpa [IterOp.run, IterOp.step] using h4
    · have hlt : i < j := by omega
      have hil : i < xs.length := by omega
      have hjl : j - 1 < xs.length := by omega
      cases op with
      | next =>
        obtain ⟨i', j', h1, h2, h3, h4⟩ := ih (i + 1) j (by omega) hj
        have hc : (xs.take j).drop i = xs[i] :: (xs.take j).drop (i + 1) := by
          rw [← List.getElem_cons_drop (as := xs.take j) (i := i) (by simp; omega)]
          simp
        refine ⟨i', j', h1, h2, ?_, ?_⟩
        · rw [hc]
          rw [← Nat.add_assoc] at h3
          simp [DIter.run, DIter.step, h.next hij hj, he, h.head? hil, h3, IterOp.run,
            IterOp.step]
        · rw [hc]
          simpa [IterOp.run, IterOp.step] using h4
      | nextBack =>
        obtain ⟨i', j', h1, h2, h3, h4⟩ := ih i (j - 1) (by omega) (by omega)
        have hc : (xs.take j).drop i = (xs.take (j - 1)).drop i ++ [xs[j - 1]] := by
          have : xs.take j = xs.take (j - 1) ++ [xs[j - 1]] := by
            conv_lhs => rw [show j = j - 1 + 1 by omega, List.take_add_one,
              List.getElem?_eq_getElem hjl]
            simp
          rw [this, List.drop_append_of_le_length (by simp; omega)]
        refine ⟨i', j', h1, h2, ?_, ?_⟩
        · rw [hc]
          simp [DIter.run, DIter.step, h.nextBack hij hj, he, h.head? hjl, h3, IterOp.run,
            IterOp.step]
        · rw [hc]
          simpa [IterOp.run, IterOp.step] using h4

theorem DRep.nth_fwd (h : DRep E wt wp m d pb lo bo bl xs) :
    ∀ (n i : Nat), i + n ≤ xs.length →
      ∃ it', DIter.nth false m n (iterAt E.S pb lo bl (bo + i) (bo + xs.length)) =
        .ok (if i + n < xs.length then some (cellPtr E.S bl (bo + (i + n))) else none, it') ∧
      (i + n < xs.length → it' = iterAt E.S pb lo bl (bo + (i + n + 1)) (bo + xs.length)) := by
  intro n
  induction n with
  | zero =>
    intro i hi
    simp only [DIter.nth, DIter.move, Bool.false_eq_true, if_false,
      h.next (show i ≤ xs.length by omega) (Nat.le_refl _), Nat.add_zero]
    by_cases he : i = xs.length
    · exact ⟨_, by rw [if_pos he, if_neg (by omega)], fun hh => absurd hh (by omega)⟩
    · exact ⟨_, by rw [if_neg he, if_pos (by omega)], fun _ => by rw [Nat.add_assoc]⟩
  | succ n ih =>
    intro i hi
    obtain ⟨it', h1, h2⟩ := ih (i + 1) (by omega)
    refine ⟨it', ?_, ?_⟩
    · simp only [DIter.nth, DIter.move, Bool.false_eq_true, if_false,
        h.next (show i ≤ xs.length by omega) (Nat.le_refl _), if_neg (show i ≠ xs.length by omega),
        Exec.ok_bind]
      rw [Nat.add_assoc bo i 1, h1, show i + 1 + n = i + (n + 1) by omega]
    · intro hlt
      rw [h2 (by omega), show i + 1 + n = i + (n + 1) by omega]

theorem DRep.nth_bwd (h : DRep E wt wp m d pb lo bo bl xs) :
    ∀ (n j : Nat), j ≤ xs.length → n ≤ j →
      ∃ it', DIter.nth true m n (iterAt E.S pb lo bl bo (bo + j)) =
        .ok (if n < j then some (cellPtr E.S bl (bo + (j - n - 1))) else none, it') ∧
      (n < j → it' = iterAt E.S pb lo bl bo (bo + (j - n - 1))) := by
  intro n
  induction n with
  | zero =>
    intro j hj _
    have hn := h.nextBack (Nat.zero_le j) hj
    rw [Nat.add_zero] at hn
    simp only [DIter.nth, DIter.move, if_true, hn, Nat.sub_zero]
    by_cases he : 0 = j
    · exact ⟨_, by rw [if_pos he, if_neg (by omega)], fun hh => absurd hh (by omega)⟩
    · exact ⟨_, by rw [if_neg he, if_pos (by omega)], fun _ => rfl⟩
  | succ n ih =>
    intro j hj hnj
    obtain ⟨it', h1, h2⟩ := ih (j - 1) (by omega) (by omega)
    have hn := h.nextBack (Nat.zero_le j) hj
    rw [Nat.add_zero] at hn
    refine ⟨it', ?_, ?_⟩
    · simp only [DIter.nth, DIter.move, if_true, hn, if_neg (show 0 ≠ j by omega), Exec.ok_bind]
      rw [h1, show j - 1 - n - 1 = j - (n + 1) - 1 by omega]
      by_cases hc : n < j - 1
      · rw [if_pos hc, if_pos (by omega)]
      · rw [if_neg hc, if_neg (by omega)]
    · intro hlt
      rw [h2 (by omega), show j - 1 - n - 1 = j - (n + 1) - 1 by omega]

theorem DRep.swap (h : DRep E wt wp m d pb lo bo bl xs) {i j : Nat} (hi : i < xs.length)
    (hj : j < xs.length) :
    ∃ t, m.t.swapCells (cellPtr E.S bl (bo + i)) (cellPtr E.S bl (bo + j)) = .ok t ∧
      DRep E wt wp { m with t := t } d pb lo bo bl ((xs.set i xs[j]).set j xs[i]) ∧
      t.dropped = m.t.dropped := by
  obtain ⟨t1, h1, h2, h3⟩ := h.set hi xs[j]
  obtain ⟨t2, h4, h5, h6⟩ := h2.set (k := j) (by simpa using hj) xs[i]
  refine ⟨t2, ?_, h5, by rw [h6]; exact h3⟩
  simp only [Mem.swapCells, h.head? hi, h.head? hj, Exec.ok_bind, h1]
  exact h4

theorem swap_adjacent (pre post : List α) (u v : α) :
    ((pre ++ u :: v :: post).set pre.length v).set (pre.length + 1) u =
      pre ++ v :: u :: post := by
  rw [List.set_append_right _ _ (Nat.le_refl _), Nat.sub_self,
    List.set_append_right _ _ (Nat.le_succ _)]
  simp

theorem swap_adjacent' (pre post : List α) (u v : α) :
    ((pre ++ v :: u :: post).set (pre.length + 1) v).set pre.length u =
      pre ++ u :: v :: post := by
  rw [List.set_append_right _ _ (Nat.le_succ _), List.set_append_right _ _ (Nat.le_refl _)]
  simp

/-- Rotating towards the back. -/
theorem rotate_fwd (u : α) :
    ∀ (post pre : List α) (fuel a i a' i' : Nat) (m : DMem α),
      DRep E wt wp m d pb lo bo bl (pre ++ u :: post) → post.length < fuel →
      i + a = pre.length → i' + a' = pre.length + 1 →
      ∃ t, rotate false fuel
          ⟨a, iterAt E.S pb lo bl (bo + i) (bo + (pre ++ u :: post).length)⟩
          ⟨a', iterAt E.S pb lo bl (bo + i') (bo + (pre ++ u :: post).length)⟩ m =
          .ok { m with t := t } ∧
        DRep E wt wp { m with t := t } d pb lo bo bl (pre ++ post ++ [u]) ∧
        t.dropped = m.t.dropped := by
  intro post
  induction post with
  | nil =>
    intro pre fuel a i a' i' m h hf h1 h2
    obtain ⟨fuel, rfl⟩ : ∃ f, fuel = f + 1 := ⟨fuel - 1, by simp at hf; omega⟩
    obtain ⟨it1, n1, _⟩ := h.nth_fwd a i (by simp; omega)
    obtain ⟨it2, n2, _⟩ := h.nth_fwd a' i' (by simp; omega)
    refine ⟨m.t, ?_, by simpa using h, rfl⟩
    rw [if_pos (by simp; omega)] at n1
    rw [if_neg (by simp; omega)] at n2
    simp only [rotate, rotateWith, DSkip.next, n1, n2, Exec.ok_bind]
  | cons v post ih =>
    intro pre fuel a i a' i' m h hf h1 h2
    obtain ⟨fuel, rfl⟩ : ∃ f, fuel = f + 1 := ⟨fuel - 1, by simp at hf; omega⟩
    obtain ⟨it1, n1, e1⟩ := h.nth_fwd a i (by simp; omega)
    obtain ⟨it2, n2, e2⟩ := h.nth_fwd a' i' (by simp; omega)
    rw [if_pos (by simp; omega)] at n1
    rw [if_pos (by simp; omega)] at n2
    have e1 := e1 (by simp; omega)
    have e2 := e2 (by simp; omega)
    obtain ⟨t, s1, s2, s3⟩ := h.swap (i := pre.length) (j := pre.length + 1) (by simp) (by simp)
    have hset : ((pre ++ u :: v :: post).set pre.length
        ((pre ++ u :: v :: post)[pre.length + 1]'(by simp))).set (pre.length + 1)
        ((pre ++ u :: v :: post)[pre.length]'(by simp)) = (pre ++ [v]) ++ u :: post := by
      have x1 : (pre ++ u :: v :: post)[pre.length + 1]'(by simp) = v := by
        rw [List.getElem_append_right (by omega)]; simp
      have x2 : (pre ++ u :: v :: post)[pre.length]'(by simp) = u := by
        rw [List.getElem_append_right (by omega)]; simp
      rw [x1, x2, swap_adjacent]; simp
    rw [hset] at s2
    obtain ⟨t', r1, r2, r3⟩ := ih (pre ++ [v]) fuel 0 (i + a + 1) 0 (i' + a' + 1) _ s2
      (by simp at hf; omega) (by simp; omega) (by simp; omega)
    refine ⟨t', ?_, by simpa using r2, by rw [r3]; exact s3⟩
    have hl : ((pre ++ [v]) ++ u :: post).length = (pre ++ u :: v :: post).length := by simp
    rw [hl] at r1
    rw [e1] at n1
    rw [e2] at n2
    simp only [h1, h2] at n1 n2 r1
    unfold rotate at r1 ⊢
    simp only [rotateWith, DSkip.next, n1, n2, Exec.ok_bind, s1]
    exact r1

/-- Rotating towards the front. -/
theorem rotate_bwd (u : α) :
    ∀ (pre post : List α) (fuel a j a' j' : Nat) (m : DMem α),
      DRep E wt wp m d pb lo bo bl (pre ++ u :: post) → pre.length < fuel →
      j ≤ (pre ++ u :: post).length → j' ≤ (pre ++ u :: post).length →
      j = pre.length + 1 + a → j' = pre.length + a' →
      ∃ t, rotate true fuel ⟨a, iterAt E.S pb lo bl bo (bo + j)⟩
          ⟨a', iterAt E.S pb lo bl bo (bo + j')⟩ m = .ok { m with t := t } ∧
        DRep E wt wp { m with t := t } d pb lo bo bl (u :: (pre ++ post)) ∧
        t.dropped = m.t.dropped := by
  intro pre
  induction pre using List.reverseRecOn with
  | nil =>
    intro post fuel a j a' j' m h hf hj hj' h1 h2
    obtain ⟨fuel, rfl⟩ : ∃ f, fuel = f + 1 := ⟨fuel - 1, by simp at hf; omega⟩
    obtain ⟨it1, n1, _⟩ := h.nth_bwd a j hj (by omega)
    obtain ⟨it2, n2, _⟩ := h.nth_bwd a' j' hj' (by omega)
    refine ⟨m.t, ?_, by simpa using h, rfl⟩
    rw [if_pos (by omega)] at n1
    simp only [List.length_nil] at h2
    rw [if_neg (by omega)] at n2
    simp only [rotate, rotateWith, DSkip.next, n1, n2, Exec.ok_bind]
  | append_singleton pre v ih =>
    intro post fuel a j a' j' m h hf hj hj' h1 h2
    obtain ⟨fuel, rfl⟩ : ∃ f, fuel = f + 1 := ⟨fuel - 1, by omega⟩
    simp only [List.length_append, List.length_singleton] at h1 h2 hf
    obtain ⟨it1, n1, e1⟩ := h.nth_bwd a j hj (by omega)
    obtain ⟨it2, n2, e2⟩ := h.nth_bwd a' j' hj' (by omega)
    rw [if_pos (by omega)] at n1
    rw [if_pos (by omega)] at n2
    have e1 := e1 (by omega)
    have e2 := e2 (by omega)
    have hx : (pre ++ [v]) ++ u :: post = pre ++ v :: u :: post := by simp
    rw [hx] at h hj hj'
    obtain ⟨t, s1, s2, s3⟩ := h.swap (i := pre.length + 1) (j := pre.length) (by simp) (by simp)
    have hset : ((pre ++ v :: u :: post).set (pre.length + 1)
        ((pre ++ v :: u :: post)[pre.length]'(by simp))).set pre.length
        ((pre ++ v :: u :: post)[pre.length + 1]'(by simp)) = pre ++ u :: v :: post := by
      have x1 : (pre ++ v :: u :: post)[pre.length + 1]'(by simp) = u := by
        rw [List.getElem_append_right (by omega)]; simp
      have x2 : (pre ++ v :: u :: post)[pre.length]'(by simp) = v := by
        rw [List.getElem_append_right (by omega)]; simp
      rw [x1, x2, swap_adjacent']
    rw [hset] at s2
    have hjj : j - a - 1 = pre.length + 1 := by omega
    have hjj' : j' - a' - 1 = pre.length := by omega
    obtain ⟨t', r1, r2, r3⟩ := ih (v :: post) fuel 0 (pre.length + 1) 0 pre.length _ s2
      (by omega) (by simp) (by simp) (by omega) (by omega)
    refine ⟨t', ?_, by simpa using r2, by rw [r3]; exact s3⟩
    rw [e1] at n1
    rw [e2] at n2
    simp only [hjj, hjj'] at n1 n2
    unfold rotate at r1 ⊢
    simp only [rotateWith, DSkip.next, n1, n2, Exec.ok_bind, s1]
    exact r1

theorem DRep.remove (h : DRep E wt wp m d pb lo bo bl xs) (i : Nat) :
    ∃ d' m' lo' bo' bl', d.remove E i m = .ok (xs[i]?, d', m') ∧
      DRep E wt wp m' d' pb lo' bo' bl' (xs.take i ++ xs.drop (i + 1)) ∧
      m'.t.dropped = m.t.dropped := by
  unfold Deque.remove
  simp only [h.length, Exec.ok_bind]
  by_cases hi : i ≥ xs.length
  · rw [if_pos hi]
    refine ⟨d, m, lo, bo, bl, ?_, ?_, rfl⟩
    · rw [List.getElem?_eq_none hi]
    · rw [List.take_of_length_le hi, List.drop_eq_nil_of_le (by omega), List.append_nil]
      exact h
  · rw [if_neg hi]
    have hil : i < xs.length := by omega
    obtain ⟨u, hu⟩ : ∃ u, xs[i]? = some u := ⟨xs[i], List.getElem?_eq_getElem hil⟩
    have hx : xs = xs.take i ++ u :: xs.drop (i + 1) := by
      have hu' := (List.getElem?_eq_some_iff.1 hu).2
      rw [← hu', List.getElem_cons_drop, List.take_append_drop]
    rw [hu]
    generalize hpre : xs.take i = pre at hx ⊢
    generalize hpost : xs.drop (i + 1) = post at hx ⊢
    have hpl : pre.length = i := by rw [← hpre]; simp; omega
    clear hpre hpost hu
    subst hx
    simp only [h.iter, Exec.ok_bind]
    by_cases hc : i < (pre ++ u :: post).length / 2
    · rw [if_pos hc]
      obtain ⟨t, r1, r2, r3⟩ := rotate_bwd (E := E) u pre post ((pre ++ u :: post).length + 1)
        ((pre ++ u :: post).length - i - 1) (pre ++ u :: post).length
        ((pre ++ u :: post).length - i) (pre ++ u :: post).length m h (by simp; omega)
        (Nat.le_refl _) (Nat.le_refl _) (by omega) (by omega)
      obtain ⟨d', m', lo', bo', bl', p1, p2, p3, _⟩ := r2.popFront
      refine ⟨d', m', lo', bo', bl', ?_, by simpa using p2, by rw [p3]; exact r3⟩
      rw [r1]
      simpa using p1
    · rw [if_neg hc]
      obtain ⟨t, r1, r2, r3⟩ := rotate_fwd (E := E) u post pre ((pre ++ u :: post).length + 1)
        i 0 (i + 1) 0 m h (by simp; omega) (by omega) (by omega)
      simp only [Nat.add_zero] at r1
      obtain ⟨d', m', bl', p1, p2, p3, _⟩ := r2.popBack
      refine ⟨d', m', lo, bo, bl', ?_, by simpa using p2, by rw [p3]; exact r3⟩
      rw [r1]
      simpa using p1

/-- The loop that drops all elements. -/
theorem dropElems_ok : ∀ (n i fuel : Nat) (m : DMem α), DRep E wt wp m d pb lo bo bl xs →
    i + n = xs.length → n < fuel →
    ∃ t, dropElems E fuel (iterAt E.S pb lo bl (bo + i) (bo + xs.length)) m =
        .ok { m with t := t } ∧ t.live = m.t.live ∧
      t.dropped = m.t.dropped ++ if E.nd then xs.drop i else [] := by
  intro n
  induction n with
  | zero =>
    intro i fuel m h hi hf
    obtain ⟨fuel, rfl⟩ : ∃ f, fuel = f + 1 := ⟨fuel - 1, by omega⟩
    refine ⟨m.t, ?_, rfl, ?_⟩
    · have hn := h.next (show i ≤ xs.length by omega) (Nat.le_refl _)
      rw [if_pos (by omega)] at hn
      simp only [dropElems, hn, Exec.ok_bind]
    · simp [show i = xs.length by omega]
  | succ n ih =>
    intro i fuel m h hi hf
    obtain ⟨fuel, rfl⟩ : ∃ f, fuel = f + 1 := ⟨fuel - 1, by omega⟩
    have hil : i < xs.length := by omega
    have hc : xs.drop i = xs[i] :: xs.drop (i + 1) := by
      rw [List.getElem_cons_drop]
    have hr := h.head? hil
    have hn := h.next (show i ≤ xs.length by omega) (Nat.le_refl _)
    rw [if_neg (by omega), Nat.add_assoc] at hn
    cases hnd : E.nd with
    | false =>
      obtain ⟨t, h1, h2, h3⟩ := ih (i + 1) fuel m h (by omega) (by omega)
      refine ⟨t, ?_, h2, by simpa [hnd] using h3⟩
      simpa [dropElems, hn, hnd] using h1
    | true =>
      have h' : DRep E wt wp { m with t := { m.t with dropped := m.t.dropped ++ [xs[i]] } } d pb lo
          bo bl xs := h.congr rfl rfl
      obtain ⟨t, h1, h2, h3⟩ := ih (i + 1) fuel _ h' (by omega) (by omega)
      refine ⟨t, ?_, h2, by rw [hc]; simpa [hnd] using h3⟩
      simp only [dropElems, hn, Exec.ok_bind, hnd, Mem.dropCell, hr, if_true]
      exact h1

/-- Freeing the first `n` subarrays. -/
theorem freeSubs_ok {size : Nat} : ∀ (n lo : Nat) (bl : List Nat) (m : DMem α),
    TRep E.S wt m.t bl → PtRep wp m.p pb size lo bl → n ≤ bl.length →
    ∃ t, freeSubs E n (.loc pb lo) m = .ok { m with t := t } ∧ TRep E.S wt t (bl.drop n) ∧
      t.dropped = m.t.dropped := by
  intro n
  induction n with
  | zero => intro lo bl m h _ _; exact ⟨m.t, rfl, by simpa using h, rfl⟩
  | succ n ih =>
    intro lo bl m h hp hn
    cases bl with
    | nil => simp at hn
    | cons b bl =>
      obtain ⟨t', hf1, hf2, hf3, _⟩ := TRep.free (l1 := []) h E.Rt
      have hr := hp.cells 0 (by simp)
      simp only [Nat.add_zero, List.getD_cons_zero] at hr
      have hp' : PtRep wp m.p pb size (lo + 1) bl := by
        refine ⟨hp.fresh, hp.out, hp.ins, ?_, ?_⟩
        · have := hp.fits; simp at this; omega
        · intro i hi
          rw [show lo + 1 + i = lo + (i + 1) by omega, hp.cells (i + 1) (by simpa using hi)]
          simp
      obtain ⟨t, h1, h2, h3⟩ := ih (lo + 1) bl { m with t := t' } (by simpa using hf2) hp'
        (by simpa using hn)
      refine ⟨t, ?_, by simpa using h2, by rw [h3]; exact hf3⟩
      simp only [freeSubs, hr, Exec.ok_bind, DMem.freeSub, hf1, Ptr.next]
      exact h1

/-- Dropping a deque: the elements are dropped and everything but the last subarray is
freed. -/
theorem DRep.drop (h : DRep E wt wp m d pb lo bo bl xs) :
    ∃ m' B, d.drop E m = .ok m' ∧ TRep E.S wt m'.t [B] ∧ m'.p.live = wp ∧
      m'.t.dropped = m.t.dropped ++ if E.nd then xs else [] := by
  have hS := h.S_pos
  have hlen := h.len
  have hfuel : xs.length < d.size * E.S + 1 := by
    have h1 := Nat.div_add_mod (bo + xs.length) E.S
    have h2 := Nat.mod_lt (bo + xs.length) hS
    have h3 : bl.length * E.S ≤ d.size * E.S :=
      Nat.mul_le_mul_right _ (by have := h.p.fits; omega)
    rw [hlen, Nat.add_mul, Nat.one_mul, Nat.mul_comm] at h3
    omega
  obtain ⟨t, e1, e2, e3⟩ := dropElems_ok xs.length 0 (d.size * E.S + 1) m h (by omega) hfuel
  have ht : TRep E.S wt t bl := h.t.congr e2
  have harr : d.b.arr = .loc pb lo := by rw [h.b]; simp [itAt, h.bo_div]
  have hn : d.e.arr.offsetFrom d.b.arr = .ok (bl.length - 1) := by
    rw [harr, h.e]
    simp [itAt, Ptr.offsetFrom, hlen]
  obtain ⟨t', f1, f2, f3⟩ := freeSubs_ok (E := E) (bl.length - 1) lo bl { m with t := t } ht h.p
    (by omega)
  have hB : ∃ B, bl.drop (bl.length - 1) = [B] := by
    have : (bl.drop (bl.length - 1)).length = 1 := by
      rw [List.length_drop]; have := h.bl_pos; omega
    exact List.length_eq_one_iff.1 this
  obtain ⟨B, hB⟩ := hB
  rw [hB] at f2
  obtain ⟨blk, hb, hs, hr⟩ := h.p.ins
  have hdl : (defaultAllocator E.Rp).dealloc d.ptrs d.size m.p = .ok (m.p.setBlock pb none) := by
    rw [h.ptrs]
    simp [defaultAllocator, rawDealloc, hb, hs, hr]
  refine ⟨⟨t', m.p.setBlock pb none⟩, B, ?_, f2, ?_, ?_⟩
  · unfold Deque.drop
    simp only [h.iter, Exec.ok_bind]
    simp only [Nat.add_zero] at e1
    rw [e1]
    simp only [Exec.ok_bind, hn]
    rw [if_neg (by rw [harr]; simp), harr]
    simp only [f1, Exec.ok_bind, Deque.freePtrs, hdl]
  · funext b
    by_cases hbp : b = pb
    · subst hbp; simp [h.p.fresh]
    · simp only [Mem.setBlock_live, Function.update_of_ne hbp]
      exact h.p.out b hbp
  · show t'.dropped = _
    rw [f3]
    simpa using e3

end

end Verif
