import Verif.Borrow.Tree

/-! Pointers into the object itself under Tree Borrows. -/

set_option autoImplicit false

namespace Verif
open Spec

theorem tree_access_error {S : Lineage} {t n : Nat} {a : Access} {p : Ptr} {e : Fault}
    (h : S.access t a p n = .error e) : e = .ub := by
  unfold Lineage.access at h
  split_ifs at h
  cases p with
  | null => cases h; rfl
  | loc b o =>
    dsimp only at h
    split_ifs at h
    cases h
    rfl

theorem tree_make_error {S : Lineage} {t n : Nat} {q : Perm} {p : Ptr} {e : Fault}
    (h : Lineage.reborrow.make t p n S q = .error e) : e = .ub := by
  unfold Lineage.reborrow.make at h
  cases p with
  | null =>
    dsimp only at h
    split_ifs at h
    cases h
    rfl
  | loc b o =>
    dsimp only at h
    cases hs : (S.child t b q).access S.next .read (.loc b o) n with
    | error e' => rw [hs] at h; cases h; exact tree_access_error hs
    | ok S' => rw [hs] at h; cases h

theorem tree_reborrow_error {S : Lineage} {k : Reborrow} {t n : Nat} {p : Ptr} {e : Fault}
    (h : S.reborrow k t p n = .error e) : e = .ub := by
  cases k with
  | raw => cases h
  | mutable => exact tree_make_error h
  | shared => exact tree_make_error h

/-! ## Pointers that have ended -/

/-- The pointer has ended for this cell. -/
def Ended (S : Lineage) (b j u : Nat) : Prop := u < S.next ∧ u ∈ S.line u ∧ S.perm b j u = .disabled

theorem Ended.after {S S' : Lineage} {b j u t n : Nat} {a : Access} {p : Ptr} (h : Ended S b j u)
    (e : S.access t a p n = .ok S') : Ended S' b j u := by
  unfold Lineage.access at e
  split_ifs at e
  · cases e; exact h
  · cases p with
    | null => cases e
    | loc c o =>
      dsimp only at e
      split_ifs at e with hc
      cases e
      refine ⟨h.1, h.2.1, ?_⟩
      dsimp only
      by_cases hr : b = c ∧ o ≤ j ∧ j < o + n
      · rw [if_pos hr]
        obtain ⟨rfl, h1, h2⟩ := hr
        by_cases hu : u ∈ S.line t
        · have := hc (j - o) (by omega) u hu
          rw [show o + (j - o) = j by omega, h.2.2] at this
          cases a <;> simp [Perm.allows] at this
        · rw [if_neg hu, h.2.2]
          cases a <;> rfl
      · rw [if_neg hr]
        exact h.2.2

theorem Ended.child {S : Lineage} {b j u : Nat} (h : Ended S b j u) (t c : Nat) (q : Perm) :
    Ended (S.child t c q) b j u := by
  have hu : u ≠ S.next := Nat.ne_of_lt h.1
  exact ⟨Nat.lt_succ_of_lt h.1, by simp [Lineage.child, hu, h.2.1], by simp [Lineage.child, hu, h.2.2]⟩

theorem Ended.make {S S' : Lineage} {b j u t n r : Nat} {q : Perm} {p : Ptr} (h : Ended S b j u)
    (e : Lineage.reborrow.make t p n S q = .ok (r, S')) : Ended S' b j u := by
  unfold Lineage.reborrow.make at e
  cases p with
  | null =>
    dsimp only at e
    split_ifs at e
    cases e
    exact ⟨Nat.lt_succ_of_lt h.1, h.2⟩
  | loc c o =>
    dsimp only at e
    cases hs : (S.child t c q).access S.next .read (.loc c o) n with
    | error e' => rw [hs] at e; cases e
    | ok S1 =>
      rw [hs] at e
      cases e
      exact (h.child t c q).after hs

theorem Ended.reborrow {S S' : Lineage} {k : Reborrow} {b j u t n r : Nat} {p : Ptr} (h : Ended S b j u)
    (e : S.reborrow k t p n = .ok (r, S')) : Ended S' b j u := by
  cases k with
  | raw => cases e; exact h
  | mutable => exact h.make e
  | shared => exact h.make e

theorem Ended.access_ub {S : Lineage} {b j u : Nat} (h : Ended S b j u) (a : Access) :
    S.access u a (.loc b j) 1 = .error .ub := by
  unfold Lineage.access
  rw [if_neg (by omega)]
  dsimp only
  rw [if_neg]
  intro hc
  have := hc 0 Nat.one_pos u h.2.1
  rw [Nat.add_zero, h.2.2] at this
  cases a <;> simp [Perm.allows] at this

theorem Ended.make_ub {S : Lineage} {b j u : Nat} (h : Ended S b j u) (q : Perm) :
    Lineage.reborrow.make u (.loc b j) 1 S q = .error .ub := by
  have hc := h.child u b q
  have : (S.child u b q).access S.next .read (.loc b j) 1 = .error .ub := by
    unfold Lineage.access
    rw [if_neg (by omega)]
    dsimp only
    rw [if_neg]
    intro hall
    have := hall 0 Nat.one_pos u (by simp [Lineage.child, h.2.1])
    rw [Nat.add_zero, hc.2.2] at this
    simp [Perm.allows] at this
  simp only [Lineage.reborrow.make, this]
  rfl

/-- Once the pointer has ended, a write to its cell after any access. -/
theorem Ended.bind_access {β : Type} {S : Lineage} {b j u t n : Nat} {a : Access} {p : Ptr}
    (h : Ended S b j u) {f : Lineage → Exec β} (hf : ∀ S' : Lineage, Ended S' b j u → f S' = .error .ub) :
    (S.access t a p n >>= f) = .error .ub := by
  cases e : S.access t a p n with
  | error x => rw [tree_access_error e]; rfl
  | ok S' => exact hf S' (h.after e)

theorem Ended.bind_reborrow {β : Type} {S : Lineage} {k : Reborrow} {b j u t n : Nat} {p : Ptr}
    (h : Ended S b j u) {f : Nat × Lineage → Exec β}
    (hf : ∀ (r : Nat) (S' : Lineage), Ended S' b j u → f (r, S') = .error .ub) :
    (S.reborrow k t p n >>= f) = .error .ub := by
  cases e : S.reborrow k t p n with
  | error x => rw [tree_reborrow_error e]; rfl
  | ok r => exact hf r.1 r.2 (h.reborrow e)

/-! ## Pointers that are made one after the other -/

/-- Making something of a pointer leaves it, and what it was made of, as it was. -/
theorem _root_.Verif.Spec.Lineage.Can.made {S S' : Lineage} {t s b n : Nat} {c : Access} (h : S.Can t c b n)
    {q : Perm} {o k : Nat} (m : Made S S' s b q o k) (hs : ∀ u ∈ S.line t, u ∈ S.line s) :
    S'.Can t c b n := by
  have ht : t ≠ S.next := Nat.ne_of_lt h.1
  refine ⟨by rw [m.next]; exact Nat.lt_succ_of_lt h.1, ?_, ?_⟩
  · intro u hu
    rw [m.line, Function.update_of_ne ht] at hu
    rw [m.next]
    exact Nat.lt_succ_of_lt (h.2.1 u hu)
  · intro j hj u hu
    rw [m.line, Function.update_of_ne ht] at hu
    rw [m.old j u (Nat.ne_of_lt (h.2.1 u hu)), if_neg (by simp [hs u hu])]
    exact h.2.2 j hj u hu

theorem Made.line_old {S S' : Lineage} {t b o k u : Nat} {q : Perm} (m : Made S S' t b q o k)
    (hu : u < S.next) : S'.line u = S.line u := by
  rw [m.line, Function.update_of_ne (Nat.ne_of_lt hu)]

theorem Made.line_new {S S' : Lineage} {t b o k : Nat} {q : Perm} (m : Made S S' t b q o k) :
    S'.line S.next = S.next :: S.line t := by
  rw [m.line, Function.update_self]

/-- What was not written yet stays so. -/
theorem Made.reserved {S S' : Lineage} {t b o k u j : Nat} {q : Perm} (m : Made S S' t b q o k)
    (hu : u < S.next) (h : S.perm b j u = .reserved) : S'.perm b j u = .reserved := by
  rw [m.old j u (Nat.ne_of_lt hu), h]
  split_ifs <;> rfl

/-- A reference `t` was made of `o`, and a pointer `e` of `t`; neither was written yet. -/
structure Lend (S : Lineage) (o t e b n : Nat) : Prop where
  can : S.Can o .write b n
  t_lt : t < S.next
  e_lt : e < S.next
  o_old : ∀ u ∈ S.line o, u < t
  t_old : t < e
  t_line : S.line t = t :: S.line o
  e_line : S.line e = e :: t :: S.line o
  t_perm : ∀ j, S.perm b j t = .reserved
  e_perm : ∀ j, S.perm b j e = .reserved

theorem Lend.e_can {S : Lineage} {o t e b n : Nat} (h : Lend S o t e b n) : S.Can e .write b n := by
  refine ⟨h.e_lt, ?_, ?_⟩
  · intro u hu
    rw [h.e_line] at hu
    simp only [List.mem_cons] at hu
    rcases hu with rfl | rfl | hu
    · exact h.e_lt
    · exact h.t_lt
    · exact h.can.2.1 u hu
  · intro j hj u hu
    rw [h.e_line] at hu
    simp only [List.mem_cons] at hu
    rcases hu with rfl | rfl | hu
    · rw [h.e_perm]; rfl
    · rw [h.t_perm]; rfl
    · exact h.can.2.2 j hj u hu

theorem Lend.t_can {S : Lineage} {o t e b n : Nat} (h : Lend S o t e b n) : S.Can t .write b n := by
  refine ⟨h.t_lt, ?_, ?_⟩
  · intro u hu
    rw [h.t_line] at hu
    simp only [List.mem_cons] at hu
    rcases hu with rfl | hu
    · exact h.t_lt
    · exact h.can.2.1 u hu
  · intro j hj u hu
    rw [h.t_line] at hu
    simp only [List.mem_cons] at hu
    rcases hu with rfl | hu
    · rw [h.t_perm]; rfl
    · exact h.can.2.2 j hj u hu

theorem Lend.made {S S' : Lineage} {o t e s b n i k : Nat} {q : Perm} (h : Lend S o t e b n)
    (m : Made S S' s b q i k) (hs : ∀ u ∈ S.line o, u ∈ S.line s) : Lend S' o t e b n where
  can := h.can.made m hs
  t_lt := by rw [m.next]; exact Nat.lt_succ_of_lt h.t_lt
  e_lt := by rw [m.next]; exact Nat.lt_succ_of_lt h.e_lt
  o_old := by rw [m.line_old h.can.1]; exact h.o_old
  t_old := h.t_old
  t_line := by rw [m.line_old h.t_lt, m.line_old h.can.1, h.t_line]
  e_line := by rw [m.line_old h.e_lt, m.line_old h.can.1, h.e_line]
  t_perm j := m.reserved h.t_lt (h.t_perm j)
  e_perm j := m.reserved h.e_lt (h.e_perm j)

/-- A pointer of `t` is made. -/
theorem Lend.next {S : Lineage} {o t e b n k : Nat} (h : Lend S o t e b n) (hk : k ≤ n) :
    ∃ S' : Lineage, treeBorrows.pointerTo S t (.loc b 0) k = .ok (S.next, S') ∧
      S'.next = S.next + 1 ∧ Lend S' o t e b n ∧ Lend S' o t S.next b n := by
  obtain ⟨S', e1, c1, m⟩ := reborrow_mut h.t_can (o := 0) (k := k) (by omega)
  have h1 := h.made m (by rw [h.t_line]; intro u hu; simp [hu])
  refine ⟨S', by simp only [Rules.pointerTo, tree_reborrow, e1, Exec.ok_bind, tree_raw], m.next, h1,
    ⟨h1.can, h1.t_lt, by rw [m.next]; exact Nat.lt_succ_self _, h1.o_old, h.t_lt, h1.t_line, ?_, h1.t_perm, m.own⟩⟩
  rw [m.line_new, h.t_line, m.line_old h.can.1]

/-- The first one. -/
theorem lend_first {S : Lineage} {o b n k : Nat} (h : S.Can o .write b n) (hk : k ≤ n) :
    ∃ S1 S' : Lineage, S.reborrow .mutable o (.loc b 0) n = .ok (S.next, S1) ∧ S1.next = S.next + 1 ∧
      treeBorrows.pointerTo S1 S.next (.loc b 0) k = .ok (S1.next, S') ∧ S'.next = S1.next + 1 ∧
      Lend S' o S.next S1.next b n := by
  obtain ⟨S1, e1, c1, m1⟩ := reborrow_mut h (o := 0) (k := n) (by omega)
  obtain ⟨S2, e2, c2, m2⟩ := reborrow_mut c1 (o := 0) (k := k) (by omega)
  have o_lt : o < S1.next := by rw [m1.next]; exact Nat.lt_succ_of_lt h.1
  have t_lt : S.next < S1.next := by rw [m1.next]; exact Nat.lt_succ_self _
  have hl : S1.line S.next = S.next :: S.line o := m1.line_new
  have ho : S1.line o = S.line o := m1.line_old h.1
  refine ⟨S1, S2, e1, m1.next, by simp only [Rules.pointerTo, tree_reborrow, e2, Exec.ok_bind, tree_raw],
    m2.next, ⟨(h.made m1 fun _ hu => hu).made m2 ?_, by rw [m2.next]; omega, by rw [m2.next]; omega, ?_, t_lt,
      ?_, ?_, ?_, m2.own⟩⟩
  · intro u hu
    rw [hl]
    rw [ho] at hu
    simp [hu]
  · rw [m2.line_old o_lt, ho]
    exact h.2.1
  · rw [m2.line_old t_lt, m2.line_old o_lt, hl, ho]
  · rw [m2.line_new, hl, m2.line_old o_lt, ho]
  · intro j
    exact m2.reserved t_lt (m1.own j)

end Verif
