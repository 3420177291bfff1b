import Verif.Deque.Iter

/-!
# What `remove` costs

`rotate` and `remove` of `Deque/Model.lean` again, returning also how many pairs of elements were
swapped and how many steps the iterators made; `Deque.removeT_fst` says that it is the same otherwise.
-/

set_option autoImplicit false

namespace Verif
open Spec

variable {α : Type}

/-- `nth(n)` of the (possibly reversed) iterator, as called by `Skip` (standard library), with the
number of steps made. -/
def DIter.nthT (rev : Bool) (m : DMem α) : Nat → DIter → Exec ((Option Ptr × DIter) × Nat)
  | 0, it => do
    let r ← it.move rev m
    .ok (r, 1)
  | n + 1, it => do
    let (p, it) ← it.move rev m
    match p with
    | none => .ok ((none, it), 1)
    | some _ => do
      let (r, k) ← DIter.nthT rev m n it
      .ok (r, k + 1)

/-- `Skip::next` (standard library), likewise. -/
def DSkip.nextT (rev : Bool) (m : DMem α) (s : DSkip) : Exec ((Option Ptr × DSkip) × Nat) := do
  let ((p, it), k) ← DIter.nthT rev m s.n s.it
  .ok ((p, ⟨0, it⟩), k)

/-- `rotate` (src/util.rs:4-11), with the number of swaps and of steps. -/
def rotateT (rev : Bool) : Nat → DSkip → DSkip → DMem α → Exec (DMem α × Nat × Nat)
  | 0, _, _, _ => .error .ub
  | fuel + 1, c, n, m => do
    let ((cp, c), k1) ← DSkip.nextT rev m c
    let ((np, n), k2) ← DSkip.nextT rev m n
    match cp, np with
    | some cp, some np => do
      let t ← m.t.swapCells cp np
      let (m, s, k) ← rotateT rev fuel c n { m with t := t }
      .ok (m, s + 1, k1 + k2 + k)
    | _, _ => .ok (m, 0, k1 + k2)

/-- `remove` (src/deque/mod.rs:234-255), likewise. -/
def Deque.removeT (E : DEnv α) (d : Deque) (index : Nat) (m : DMem α) :
    Exec ((Option α × Deque × DMem α) × Nat × Nat) := do
  let len ← d.len E
  if index ≥ len then .ok ((none, d, m), 0, 0)
  else if index < len / 2 then do
    let it ← d.iter
    let (m, s, k) ← rotateT true (len + 1) ⟨len - index - 1, it⟩ ⟨len - index, it⟩ m
    let r ← d.popFront E m
    .ok (r, s, k)
  else do
    let it ← d.iter
    let (m, s, k) ← rotateT false (len + 1) ⟨index, it⟩ ⟨index + 1, it⟩ m
    let r ← d.popBack E m
    .ok (r, s, k)

theorem DIter.nthT_fst (rev : Bool) (m : DMem α) : ∀ (n : Nat) (it : DIter),
    (DIter.nthT rev m n it).map Prod.fst = DIter.nth rev m n it := by
  intro n
  induction n with
  | zero =>
    intro it
    unfold DIter.nthT DIter.nth
    cases it.move rev m <;> rfl
  | succ n ih =>
    intro it
    unfold DIter.nthT DIter.nth
    cases it.move rev m with
    | error e => rfl
    | ok r =>
      obtain ⟨p, it⟩ := r
      cases p with
      | none => rfl
      | some p =>
        simp only [Exec.ok_bind]
        rw [← ih]
        cases DIter.nthT rev m n it <;> rfl

theorem DSkip.nextT_fst (rev : Bool) (m : DMem α) (s : DSkip) :
    (DSkip.nextT rev m s).map Prod.fst = DSkip.next rev m s := by
  unfold DSkip.nextT DSkip.next
  rw [← DIter.nthT_fst]
  cases DIter.nthT rev m s.n s.it <;> rfl

theorem rotateT_fst (rev : Bool) : ∀ (fuel : Nat) (c n : DSkip) (m : DMem α),
    (rotateT rev fuel c n m).map Prod.fst = rotate rev fuel c n m := by
  intro fuel
  induction fuel with
  | zero => intro c n m; rfl
  | succ fuel ih =>
    intro c n m
    unfold rotateT rotate rotateWith
    rw [← DSkip.nextT_fst]
    cases DSkip.nextT rev m c with
    | error e => rfl
    | ok r =>
      obtain ⟨⟨cp, c⟩, k1⟩ := r
      simp only [Exec.ok_bind, Except.map]
      rw [← DSkip.nextT_fst]
      cases DSkip.nextT rev m n with
      | error e => rfl
      | ok r =>
        obtain ⟨⟨np, n⟩, k2⟩ := r
        simp only [Exec.ok_bind, Except.map]
        cases cp with
        | none => rfl
        | some cp =>
          cases np with
          | none => rfl
          | some np =>
            dsimp only
            cases m.t.swapCells cp np with
            | error e => rfl
            | ok t =>
              have := ih c n { m with t := t }
              unfold rotate at this
              simp only [Exec.ok_bind]
              rw [← this]
              cases rotateT rev fuel c n { m with t := t } <;> rfl

theorem Deque.removeT_fst (E : DEnv α) (d : Deque) (i : Nat) (m : DMem α) :
    (d.removeT E i m).map Prod.fst = d.remove E i m := by
  unfold Deque.removeT Deque.remove
  cases d.len E with
  | error e => rfl
  | ok len =>
    simp only [Exec.ok_bind]
    by_cases h1 : i ≥ len
    · rw [if_pos h1, if_pos h1]; rfl
    · rw [if_neg h1, if_neg h1]
      cases d.iter with
      | error e => by_cases h2 : i < len / 2 <;> simp only [h2, if_true, if_false] <;> rfl
      | ok it =>
        by_cases h2 : i < len / 2
        · rw [if_pos h2, if_pos h2]
          simp only [Exec.ok_bind]
          rw [← rotateT_fst]
          cases rotateT true (len + 1) ⟨len - i - 1, it⟩ ⟨len - i, it⟩ m with
          | error e => rfl
          | ok r =>
            simp only [Exec.ok_bind, Except.map]
            cases d.popFront E r.1 <;> rfl
        · rw [if_neg h2, if_neg h2]
          simp only [Exec.ok_bind]
          rw [← rotateT_fst]
          cases rotateT false (len + 1) ⟨i, it⟩ ⟨i + 1, it⟩ m with
          | error e => rfl
          | ok r =>
            simp only [Exec.ok_bind, Except.map]
            cases d.popBack E r.1 <;> rfl

section
variable {E : DEnv α} {wt : World α} {wp : World Ptr} {m : DMem α} {d : Deque}
  {pb lo bo : Nat} {bl : List Nat} {xs : List α}

theorem DRep.nthT_fwd (h : DRep E wt wp m d pb lo bo bl xs) :
    ∀ (n i : Nat), i + n ≤ xs.length →
      ∃ it', DIter.nthT false m n (iterAt E.S pb lo bl (bo + i) (bo + xs.length)) =
        .ok ((if i + n < xs.length then some (cellPtr E.S bl (bo + (i + n))) else none, it'),
          n + 1) ∧
      (i + n < xs.length → it' = iterAt E.S pb lo bl (bo + (i + n + 1)) (bo + xs.length)) := by
  intro n
  induction n with
  | zero =>
    intro i hi
    simp only [DIter.nthT, DIter.move, Bool.false_eq_true, if_false,
      h.next (show i ≤ xs.length by omega) (Nat.le_refl _), Nat.add_zero]
    by_cases he : i = xs.length
    · exact ⟨_, by rw [if_pos he, if_neg (by omega)]; rfl, fun hh => absurd hh (by omega)⟩
    · exact ⟨_, by rw [if_neg he, if_pos (by omega)]; rfl, fun _ => by rw [Nat.add_assoc]⟩
  | succ n ih =>
    intro i hi
    obtain ⟨it', h1, h2⟩ := ih (i + 1) (by omega)
    refine ⟨it', ?_, ?_⟩
    · simp only [DIter.nthT, DIter.move, Bool.false_eq_true, if_false,
        h.next (show i ≤ xs.length by omega) (Nat.le_refl _), if_neg (show i ≠ xs.length by omega),
        Exec.ok_bind]
      rw [Nat.add_assoc bo i 1, h1, show i + 1 + n = i + (n + 1) by omega]
      rfl
    · intro hlt
      rw [h2 (by omega), show i + 1 + n = i + (n + 1) by omega]

theorem DRep.nthT_bwd (h : DRep E wt wp m d pb lo bo bl xs) :
    ∀ (n j : Nat), j ≤ xs.length → n ≤ j →
      ∃ it', DIter.nthT true m n (iterAt E.S pb lo bl bo (bo + j)) =
        .ok ((if n < j then some (cellPtr E.S bl (bo + (j - n - 1))) else none, it'), n + 1) ∧
      (n < j → it' = iterAt E.S pb lo bl bo (bo + (j - n - 1))) := by
  intro n
  induction n with
  | zero =>
    intro j hj _
    have hn := h.nextBack (Nat.zero_le j) hj
    rw [Nat.add_zero] at hn
    simp only [DIter.nthT, DIter.move, if_true, hn, Nat.sub_zero]
    by_cases he : 0 = j
    · exact ⟨_, by rw [if_pos he, if_neg (by omega)]; rfl, fun hh => absurd hh (by omega)⟩
    · exact ⟨_, by rw [if_neg he, if_pos (by omega)]; rfl, fun _ => rfl⟩
  | succ n ih =>
    intro j hj hnj
    obtain ⟨it', h1, h2⟩ := ih (j - 1) (by omega) (by omega)
    have hn := h.nextBack (Nat.zero_le j) hj
    rw [Nat.add_zero] at hn
    refine ⟨it', ?_, ?_⟩
    · simp only [DIter.nthT, DIter.move, if_true, hn, if_neg (show 0 ≠ j by omega), Exec.ok_bind]
      rw [h1, show j - 1 - n - 1 = j - (n + 1) - 1 by omega]
      by_cases hc : n < j - 1
      · rw [if_pos hc, if_pos (by omega)]; rfl
      · rw [if_neg hc, if_neg (by omega)]; rfl
    · intro hlt
      rw [h2 (by omega), show j - 1 - n - 1 = j - (n + 1) - 1 by omega]

/-- Rotating towards the back. -/
theorem rotateT_fwd (u : α) :
    ∀ (post pre : List α) (fuel a i a' i' : Nat) (m : DMem α),
      DRep E wt wp m d pb lo bo bl (pre ++ u :: post) → post.length < fuel →
      i + a = pre.length → i' + a' = pre.length + 1 →
      ∃ t, rotateT false fuel
          ⟨a, iterAt E.S pb lo bl (bo + i) (bo + (pre ++ u :: post).length)⟩
          ⟨a', iterAt E.S pb lo bl (bo + i') (bo + (pre ++ u :: post).length)⟩ m =
          .ok ({ m with t := t }, post.length, a + a' + 2 + 2 * post.length) ∧
        DRep E wt wp { m with t := t } d pb lo bo bl (pre ++ post ++ [u]) ∧
        t.dropped = m.t.dropped := by
  intro post
  induction post with
  | nil =>
    intro pre fuel a i a' i' m h hf h1 h2
    obtain ⟨fuel, rfl⟩ : ∃ f, fuel = f + 1 := ⟨fuel - 1, by simp at hf; omega⟩
    obtain ⟨it1, n1, _⟩ := h.nthT_fwd a i (by simp; omega)
    obtain ⟨it2, n2, _⟩ := h.nthT_fwd a' i' (by simp; omega)
    refine ⟨m.t, ?_, by simpa using h, rfl⟩
    rw [if_pos (by simp; omega)] at n1
    rw [if_neg (by simp; omega)] at n2
    simp only [rotateT, DSkip.nextT, n1, n2, Exec.ok_bind]
    simp only [List.length_nil, Except.ok.injEq, Prod.mk.injEq, true_and]
    omega
  | cons v post ih =>
    intro pre fuel a i a' i' m h hf h1 h2
    obtain ⟨fuel, rfl⟩ : ∃ f, fuel = f + 1 := ⟨fuel - 1, by simp at hf; omega⟩
    obtain ⟨it1, n1, e1⟩ := h.nthT_fwd a i (by simp; omega)
    obtain ⟨it2, n2, e2⟩ := h.nthT_fwd a' i' (by simp; omega)
    rw [if_pos (by simp; omega)] at n1
    rw [if_pos (by simp; omega)] at n2
    have e1 := e1 (by simp; omega)
    have e2 := e2 (by simp; omega)
    obtain ⟨t, s1, s2, s3⟩ := h.swap (i := pre.length) (j := pre.length + 1) (by simp) (by simp)
    have hset : ((pre ++ u :: v :: post).set pre.length
        ((pre ++ u :: v :: post)[pre.length + 1]'(by simp))).set (pre.length + 1)
        ((pre ++ u :: v :: post)[pre.length]'(by simp)) = (pre ++ [v]) ++ u :: post := by
      have x1 : (pre ++ u :: v :: post)[pre.length + 1]'(by simp) = v := by
        rw [List.getElem_append_right (by omega)]; simp
      have x2 : (pre ++ u :: v :: post)[pre.length]'(by simp) = u := by
        rw [List.getElem_append_right (by omega)]; simp
      rw [x1, x2, swap_adjacent]; simp
    rw [hset] at s2
    obtain ⟨t', r1, r2, r3⟩ := ih (pre ++ [v]) fuel 0 (i + a + 1) 0 (i' + a' + 1) _ s2
      (by simp at hf; omega) (by simp; omega) (by simp; omega)
    refine ⟨t', ?_, by simpa using r2, by rw [r3]; exact s3⟩
    have hl : ((pre ++ [v]) ++ u :: post).length = (pre ++ u :: v :: post).length := by simp
    rw [hl] at r1
    rw [e1] at n1
    rw [e2] at n2
    simp only [h1, h2] at n1 n2 r1
    simp only [rotateT, DSkip.nextT, n1, n2, Exec.ok_bind, s1, r1]
    simp only [List.length_cons, Except.ok.injEq, Prod.mk.injEq, true_and]
    omega

/-- Rotating towards the front. -/
theorem rotateT_bwd (u : α) :
    ∀ (pre post : List α) (fuel a j a' j' : Nat) (m : DMem α),
      DRep E wt wp m d pb lo bo bl (pre ++ u :: post) → pre.length < fuel →
      j ≤ (pre ++ u :: post).length → j' ≤ (pre ++ u :: post).length →
      j = pre.length + 1 + a → j' = pre.length + a' →
      ∃ t, rotateT true fuel ⟨a, iterAt E.S pb lo bl bo (bo + j)⟩
          ⟨a', iterAt E.S pb lo bl bo (bo + j')⟩ m =
          .ok ({ m with t := t }, pre.length, a + a' + 2 + 2 * pre.length) ∧
        DRep E wt wp { m with t := t } d pb lo bo bl (u :: (pre ++ post)) ∧
        t.dropped = m.t.dropped := by
  intro pre
  induction pre using List.reverseRecOn with
  | nil =>
    intro post fuel a j a' j' m h hf hj hj' h1 h2
    obtain ⟨fuel, rfl⟩ : ∃ f, fuel = f + 1 := ⟨fuel - 1, by simp at hf; omega⟩
    obtain ⟨it1, n1, _⟩ := h.nthT_bwd a j hj (by omega)
    obtain ⟨it2, n2, _⟩ := h.nthT_bwd a' j' hj' (by omega)
    refine ⟨m.t, ?_, by simpa using h, rfl⟩
    rw [if_pos (by omega)] at n1
    simp only [List.length_nil] at h2
    rw [if_neg (by omega)] at n2
    simp only [rotateT, DSkip.nextT, n1, n2, Exec.ok_bind]
    simp only [List.length_nil, Except.ok.injEq, Prod.mk.injEq, true_and]
    omega
  | append_singleton pre v ih =>
    intro post fuel a j a' j' m h hf hj hj' h1 h2
    obtain ⟨fuel, rfl⟩ : ∃ f, fuel = f + 1 := ⟨fuel - 1, by omega⟩
    simp only [List.length_append, List.length_singleton] at h1 h2 hf
    obtain ⟨it1, n1, e1⟩ := h.nthT_bwd a j hj (by omega)
    obtain ⟨it2, n2, e2⟩ := h.nthT_bwd a' j' hj' (by omega)
    rw [if_pos (by omega)] at n1
    rw [if_pos (by omega)] at n2
    have e1 := e1 (by omega)
    have e2 := e2 (by omega)
    have hx : (pre ++ [v]) ++ u :: post = pre ++ v :: u :: post := by simp
    rw [hx] at h hj hj'
    obtain ⟨t, s1, s2, s3⟩ := h.swap (i := pre.length + 1) (j := pre.length) (by simp) (by simp)
    have hset : ((pre ++ v :: u :: post).set (pre.length + 1)
        ((pre ++ v :: u :: post)[pre.length]'(by simp))).set pre.length
        ((pre ++ v :: u :: post)[pre.length + 1]'(by simp)) = pre ++ u :: v :: post := by
      have x1 : (pre ++ v :: u :: post)[pre.length + 1]'(by simp) = u := by
        rw [List.getElem_append_right (by omega)]; simp
      have x2 : (pre ++ v :: u :: post)[pre.length]'(by simp) = v := by
        rw [List.getElem_append_right (by omega)]; simp
      rw [x1, x2, swap_adjacent']
    rw [hset] at s2
    have hjj : j - a - 1 = pre.length + 1 := by omega
    have hjj' : j' - a' - 1 = pre.length := by omega
    obtain ⟨t', r1, r2, r3⟩ := ih (v :: post) fuel 0 (pre.length + 1) 0 pre.length _ s2
      (by omega) (by simp) (by simp) (by omega) (by omega)
    refine ⟨t', ?_, by simpa using r2, by rw [r3]; exact s3⟩
    rw [e1] at n1
    rw [e2] at n2
    simp only [hjj, hjj'] at n1 n2
    simp only [rotateT, DSkip.nextT, n1, n2, Exec.ok_bind, s1, r1]
    simp only [List.length_cons, List.length_append, List.length_nil, Except.ok.injEq,
      Prod.mk.injEq, true_and]
    omega

/-- Removing an element swaps one pair for each element between it and the nearer end, and always
makes `2 n + 1` steps. -/
theorem DRep.removeT (h : DRep E wt wp m d pb lo bo bl xs) {i : Nat} (hi : i < xs.length) :
    ∃ r, d.removeT E i m = .ok (r, min i (xs.length - 1 - i), 2 * xs.length + 1) := by
  unfold Deque.removeT
  simp only [h.length, Exec.ok_bind]
  rw [if_neg (by omega)]
  obtain ⟨u, hu⟩ : ∃ u, xs[i]? = some u := ⟨xs[i], List.getElem?_eq_getElem hi⟩
  have hx : xs = xs.take i ++ u :: xs.drop (i + 1) := by
    have hu' := (List.getElem?_eq_some_iff.1 hu).2
    rw [← hu', List.getElem_cons_drop, List.take_append_drop]
  generalize hpre : xs.take i = pre at hx
  generalize hpost : xs.drop (i + 1) = post at hx
  have hpl : pre.length = i := by rw [← hpre]; simp; omega
  clear hpre hpost hu
  subst hx
  have hlen : (pre ++ u :: post).length = pre.length + post.length + 1 := by simp; omega
  simp only [h.iter, Exec.ok_bind]
  by_cases hc : i < (pre ++ u :: post).length / 2
  · rw [if_pos hc]
    obtain ⟨t, r1, r2, r3⟩ := rotateT_bwd (E := E) u pre post ((pre ++ u :: post).length + 1)
      ((pre ++ u :: post).length - i - 1) (pre ++ u :: post).length
      ((pre ++ u :: post).length - i) (pre ++ u :: post).length m h (by simp; omega)
      (Nat.le_refl _) (Nat.le_refl _) (by omega) (by omega)
    obtain ⟨d', m', lo', bo', bl', p1, p2, p3, _⟩ := r2.popFront
    refine ⟨((u :: (pre ++ post)).head?, d', m'), ?_⟩
    rw [r1]
    simp only [Exec.ok_bind, p1, Except.ok.injEq, Prod.mk.injEq]
    exact ⟨trivial, by omega, by omega⟩
  · rw [if_neg hc]
    obtain ⟨t, r1, r2, r3⟩ := rotateT_fwd (E := E) u post pre ((pre ++ u :: post).length + 1)
      i 0 (i + 1) 0 m h (by simp; omega) (by omega) (by omega)
    simp only [Nat.add_zero] at r1
    obtain ⟨d', m', bl', p1, p2, p3, _⟩ := r2.popBack
    refine ⟨((pre ++ post ++ [u]).getLast?, d', m'), ?_⟩
    rw [r1]
    simp only [Exec.ok_bind, p1, Except.ok.injEq, Prod.mk.injEq]
    exact ⟨trivial, by omega, by omega⟩

end

end Verif
