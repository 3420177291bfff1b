import Verif.Deque.Iter

/-! Histories of calls on a deque. -/

set_option autoImplicit false

namespace Verif
open Spec

variable {α : Type}

/-- `d` is a deque created over memory `m0`, now in memory `m`, holding `xs`. -/
def DInv (E : DEnv α) (m0 m : DMem α) (d : Deque) (xs : List α) : Prop :=
  ∃ pb lo bo bl, DRep E m0.t.live m0.p.live m d pb lo bo bl xs

theorem DInv.step {E : DEnv α} {m0 m : DMem α} {d : Deque} {xs : List α} (h : DInv E m0 m d xs)
    (op : DeqOp α) :
    ∃ d' m', d.step E op m = .ok ((op.step xs).1, d', m') ∧ DInv E m0 m' d' (op.step xs).2 ∧
      m'.t.dropped = m.t.dropped ++ if E.nd then op.overwritten xs else [] := by
  obtain ⟨pb, lo, bo, bl, h⟩ := h
  cases op with
  | pushBack x =>
    obtain ⟨d', m', pb', lo', bl', h1, h2, h3, _⟩ := h.pushBack x
    exact ⟨d', m', by simp [Deque.step, h1, DeqOp.step], ⟨_, _, _, _, h2⟩,
      by simp [h3, DeqOp.overwritten]⟩
  | pushFront x =>
    obtain ⟨d', m', pb', lo', bo', bl', h1, h2, h3, _⟩ := h.pushFront x
    exact ⟨d', m', by simp [Deque.step, h1, DeqOp.step], ⟨_, _, _, _, h2⟩,
      by simp [h3, DeqOp.overwritten]⟩
  | popBack =>
    obtain ⟨d', m', bl', h1, h2, h3, _⟩ := h.popBack
    exact ⟨d', m', by simp [Deque.step, h1, DeqOp.step], ⟨_, _, _, _, h2⟩,
      by simp [h3, DeqOp.overwritten]⟩
  | popFront =>
    obtain ⟨d', m', lo', bo', bl', h1, h2, h3, _⟩ := h.popFront
    exact ⟨d', m', by simp [Deque.step, h1, DeqOp.step], ⟨_, _, _, _, h2⟩,
      by simp [h3, DeqOp.overwritten]⟩
  | front =>
    exact ⟨d, m, by simp [Deque.step, h.front, DeqOp.step], ⟨_, _, _, _, h⟩,
      by simp [DeqOp.overwritten]⟩
  | back =>
    exact ⟨d, m, by simp [Deque.step, h.back, DeqOp.step], ⟨_, _, _, _, h⟩,
      by simp [DeqOp.overwritten]⟩
  | setFront x =>
    obtain ⟨m', h1, h2, h3⟩ := h.setFront x
    exact ⟨d, m', by simp [Deque.step, h1, DeqOp.step], ⟨_, _, _, _, h2⟩, h3⟩
  | setBack x =>
    obtain ⟨m', h1, h2, h3⟩ := h.setBack x
    exact ⟨d, m', by simp [Deque.step, h1, DeqOp.step], ⟨_, _, _, _, h2⟩, h3⟩
  | remove i =>
    obtain ⟨d', m', lo', bo', bl', h1, h2, h3⟩ := h.remove i
    exact ⟨d', m', by simp [Deque.step, h1, DeqOp.step], ⟨_, _, _, _, h2⟩,
      by simp [h3, DeqOp.overwritten]⟩
  | len =>
    exact ⟨d, m, by simp [Deque.step, h.length, DeqOp.step], ⟨_, _, _, _, h⟩,
      by simp [DeqOp.overwritten]⟩
  | isEmpty =>
    exact ⟨d, m, by simp [Deque.step, h.isEmpty, DeqOp.step], ⟨_, _, _, _, h⟩,
      by simp [DeqOp.overwritten]⟩

/-- What is in the sequence, moved out or overwritten is what was there or moved in. -/
theorem Spec.DeqOp.accounts (op : DeqOp α) (xs : List α) :
    (op.movedIn xs ++ xs).Perm (op.movedOut xs ++ (op.overwritten xs ++ (op.step xs).2)) := by
  cases op with
  | pushBack x =>
    simpa [DeqOp.movedIn, DeqOp.movedOut, DeqOp.overwritten, DeqOp.step] using (List.perm_append_singleton x xs).symm
  | pushFront x => simp [DeqOp.movedIn, DeqOp.movedOut, DeqOp.overwritten, DeqOp.step]
  | popBack =>
    rcases List.eq_nil_or_concat xs with rfl | ⟨ys, y, rfl⟩
    · simp [DeqOp.movedIn, DeqOp.movedOut, DeqOp.overwritten, DeqOp.step]
    · simp [DeqOp.movedIn, DeqOp.movedOut, DeqOp.overwritten, DeqOp.step]
  | popFront => cases xs <;> simp [DeqOp.movedIn, DeqOp.movedOut, DeqOp.overwritten, DeqOp.step]
  | front => simp [DeqOp.movedIn, DeqOp.movedOut, DeqOp.overwritten, DeqOp.step]
  | back => simp [DeqOp.movedIn, DeqOp.movedOut, DeqOp.overwritten, DeqOp.step]
  | setFront x =>
    cases xs with
    | nil => simp [DeqOp.movedIn, DeqOp.movedOut, DeqOp.overwritten, DeqOp.step]
    | cons y ys => simpa [DeqOp.movedIn, DeqOp.movedOut, DeqOp.overwritten, DeqOp.step] using List.Perm.swap y x ys
  | setBack x =>
    rcases List.eq_nil_or_concat xs with rfl | ⟨ys, y, rfl⟩
    · simp [DeqOp.movedIn, DeqOp.movedOut, DeqOp.overwritten, DeqOp.step]
    · simp only [List.concat_eq_append, DeqOp.movedIn, DeqOp.movedOut, DeqOp.overwritten, DeqOp.step]
      rw [if_neg (by simp), if_neg (by simp)]
      simp only [List.getLast?_append, List.getLast?_singleton, Option.some_or,
        Option.toList_some, List.dropLast_concat, List.nil_append, List.singleton_append]
      refine List.Perm.trans (List.Perm.cons x (List.perm_append_singleton y ys)) ?_
      exact (List.Perm.swap y x ys).trans
        (List.Perm.cons y (List.perm_append_singleton x ys).symm)
  | remove i =>
    simp only [DeqOp.movedIn, DeqOp.movedOut, DeqOp.overwritten, DeqOp.step, List.nil_append]
    by_cases hi : i < xs.length
    · rw [List.getElem?_eq_getElem hi, Option.toList_some]
      conv_lhs => rw [← List.take_append_drop i xs, ← List.getElem_cons_drop hi]
      exact List.perm_middle
    · rw [List.getElem?_eq_none (by omega), List.take_of_length_le (by omega),
        List.drop_eq_nil_of_le (by omega)]
      simp
  | len => simp [DeqOp.movedIn, DeqOp.movedOut, DeqOp.overwritten, DeqOp.step]
  | isEmpty => simp [DeqOp.movedIn, DeqOp.movedOut, DeqOp.overwritten, DeqOp.step]

theorem DInv.run {E : DEnv α} {m0 : DMem α} : ∀ (ops : List (DeqOp α)) {m : DMem α} {d : Deque}
    {xs : List α}, DInv E m0 m d xs →
    ∃ d' m' drops, Deque.run E ops d m = .ok ((DeqOp.run ops xs).1, d', m') ∧
      DInv E m0 m' d' (DeqOp.run ops xs).2 ∧
      m'.t.dropped = m.t.dropped ++ (if E.nd then drops else []) ∧
      (DeqOp.allIn ops xs ++ xs).Perm
        (DeqOp.allOut ops xs ++ (drops ++ (DeqOp.run ops xs).2)) := by
  intro ops
  induction ops with
  | nil =>
    intro m d xs h
    exact ⟨d, m, [], rfl, h, by simp, by simp [DeqOp.allIn, DeqOp.allOut, DeqOp.run]⟩
  | cons op ops ih =>
    intro m d xs h
    obtain ⟨d1, m1, h1, h2, h3⟩ := h.step op
    obtain ⟨d2, m2, drops, h4, h5, h6, h7⟩ := ih h2
    refine ⟨d2, m2, op.overwritten xs ++ drops, ?_, by simpa [DeqOp.run] using h5, ?_, ?_⟩
    · simp [Deque.run, h1, h4, DeqOp.run]
    · rw [h6, h3]; cases E.nd <;> simp
    · simp only [DeqOp.allIn, DeqOp.allOut, DeqOp.run]
      have a := DeqOp.accounts op xs
      -- move the pieces around
      have s1 : (op.movedIn xs ++ DeqOp.allIn ops (op.step xs).2 ++ xs).Perm
          (DeqOp.allIn ops (op.step xs).2 ++ (op.movedIn xs ++ xs)) := by
        rw [List.append_assoc]
        refine (List.perm_append_comm_assoc _ _ _)
      refine s1.trans ((a.append_left _).trans ?_)
      have s2 : (DeqOp.allIn ops (op.step xs).2 ++
          (op.movedOut xs ++ (op.overwritten xs ++ (op.step xs).2))).Perm
          (op.movedOut xs ++ (op.overwritten xs ++
            (DeqOp.allIn ops (op.step xs).2 ++ (op.step xs).2))) := by
        refine (List.perm_append_comm_assoc _ _ _).trans (List.Perm.append_left _ ?_)
        exact List.perm_append_comm_assoc _ _ _
      refine s2.trans ?_
      rw [List.append_assoc, List.append_assoc]
      refine List.Perm.append_left _ ?_
      refine ((h7.append_left _)).trans ?_
      exact List.perm_append_comm_assoc _ _ _

theorem DInv.newIn (E : DEnv α) (hS : 0 < E.S) (m : DMem α) :
    ∃ d m', Deque.newIn E m = .ok (d, m') ∧ DInv E m m' d [] ∧ m'.t.dropped = m.t.dropped := by
  obtain ⟨d, m', pb, lo, bo, bl, h1, h2, h3, _⟩ := DRep.newIn E hS m
  exact ⟨d, m', h1, ⟨_, _, _, _, h2⟩, h3⟩

theorem DRep.addrs_aux {E : DEnv α} {wt : World α} {wp : World Ptr} {m : DMem α} {d : Deque}
    {pb lo bo : Nat} {bl : List Nat} {xs : List α} (h : DRep E wt wp m d pb lo bo bl xs) :
    ∀ (n i fuel : Nat), i + n = xs.length → n < fuel →
      (iterAt E.S pb lo bl (bo + i) (bo + xs.length)).addrs m fuel =
        .ok ((List.range' i n).map fun k => cellPtr E.S bl (bo + k)) := by
  intro n
  induction n with
  | zero =>
    intro i fuel hi hf
    obtain ⟨fuel, rfl⟩ : ∃ f, fuel = f + 1 := ⟨fuel - 1, by omega⟩
    have hn := h.next (show i ≤ xs.length by omega) (Nat.le_refl _)
    rw [if_pos (by omega)] at hn
    simp only [DIter.addrs, hn, Exec.ok_bind]
    rfl
  | succ n ih =>
    intro i fuel hi hf
    obtain ⟨fuel, rfl⟩ : ∃ f, fuel = f + 1 := ⟨fuel - 1, by omega⟩
    have hn := h.next (show i ≤ xs.length by omega) (Nat.le_refl _)
    rw [if_neg (by omega), Nat.add_assoc] at hn
    simp only [DIter.addrs, hn, Exec.ok_bind, ih (i + 1) fuel (by omega) (by omega)]
    rfl

theorem DRep.fuel {E : DEnv α} {wt : World α} {wp : World Ptr} {m : DMem α} {d : Deque}
    {pb lo bo : Nat} {bl : List Nat} {xs : List α} (h : DRep E wt wp m d pb lo bo bl xs) :
    xs.length < d.size * E.S + 1 := by
  have h1 := Nat.div_add_mod (bo + xs.length) E.S
  have h2 := Nat.mod_lt (bo + xs.length) h.S_pos
  have h3 : bl.length * E.S ≤ d.size * E.S :=
    Nat.mul_le_mul_right _ (by have := h.p.fits; omega)
  rw [h.len, Nat.add_mul, Nat.one_mul, Nat.mul_comm] at h3
  omega

theorem DRep.addrs {E : DEnv α} {wt : World α} {wp : World Ptr} {m : DMem α} {d : Deque}
    {pb lo bo : Nat} {bl : List Nat} {xs : List α} (h : DRep E wt wp m d pb lo bo bl xs) :
    d.addrs E m = .ok ((List.range xs.length).map fun k => cellPtr E.S bl (bo + k)) := by
  have := h.addrs_aux xs.length 0 _ (by omega) h.fuel
  simp only [Nat.add_zero] at this
  simp only [Deque.addrs, h.iter, Exec.ok_bind, this, List.range_eq_range']

end Verif
