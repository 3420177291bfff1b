import Verif.Borrow.Law
import Verif.Borrow.Others
import Verif.Spec.TreeBorrow
import Verif.MemLemmas

/-! Tree Borrows has what the proofs about vectors need. -/

set_option autoImplicit false

namespace Verif
open Spec

theorem allows_read {q : Perm} {a : Access} (h : q.allows a = true) : q.allows .read = true := by
  cases q <;> cases a <;> simp_all [Perm.allows]

theorem own_allows {q : Perm} {a c : Access} (h : q.allows a = true) (hc : q.allows c = true) :
    (q.own a).allows c = true := by
  cases q <;> cases a <;> cases c <;> simp_all [Perm.allows, Perm.own]

/-- Access to a part of what may be used. -/
theorem _root_.Verif.Spec.Lineage.Can.access {S : Lineage} {t b n : Nat} {a c : Access} (h : S.Can t c b n)
    (hr : a = .read ∨ a = c) {o k : Nat} (hk : o + k ≤ n) :
    ∃ S' : Lineage, S.access t a (.loc b o) k = .ok S' ∧ S'.line = S.line ∧ S'.next = S.next ∧
      (∀ b', b' ≠ b → S'.perm b' = S.perm b') ∧
      ∀ j u, S'.perm b j u = if o ≤ j ∧ j < o + k then
        (if u ∈ S.line t then (S.perm b j u).own a else (S.perm b j u).foreign a) else S.perm b j u := by
  unfold Lineage.access
  by_cases h0 : k = 0
  · subst h0
    refine ⟨S, if_pos rfl, rfl, rfl, fun _ _ => rfl, fun j u => ?_⟩
    rw [if_neg (by omega)]
  · rw [if_neg h0]
    dsimp only
    have hall : ∀ j, j < k → ∀ u ∈ S.line t, (S.perm b (o + j) u).allows a = true := by
      intro j hj u hu
      have := h.2.2 (o + j) (by omega) u hu
      rcases hr with rfl | rfl
      · exact allows_read this
      · exact this
    rw [if_pos hall]
    refine ⟨_, rfl, rfl, rfl, fun b' hb => ?_, fun j u => ?_⟩
    · funext j u
      simp [hb]
    · simp

theorem _root_.Verif.Spec.Lineage.Can.after {S S' : Lineage} {t b n : Nat} {a c : Access} (h : S.Can t c b n)
    (hr : a = .read ∨ a = c) {o k : Nat} (hk : o + k ≤ n)
    (e : S.access t a (.loc b o) k = .ok S') : S'.Can t c b n := by
  obtain ⟨S1, e1, h1, h2, _, h4⟩ := h.access hr hk
  rw [e] at e1
  cases e1
  refine ⟨by rw [h2]; exact h.1, by rw [h1, h2]; exact h.2.1, fun j hj u hu => ?_⟩
  rw [h1] at hu
  have ha := h.2.2 j hj u hu
  rw [h4, if_pos hu]
  split_ifs
  · refine own_allows ?_ ha
    rcases hr with rfl | rfl
    · exact allows_read ha
    · exact ha
  · exact ha

theorem _root_.Verif.Spec.Lineage.Can.child {S : Lineage} {t b n : Nat} {c c' : Access} (h : S.Can t c b n)
    {q : Perm} (hq : q.allows c' = true) (hc : c' = .read ∨ c' = c) :
    (S.child t b q).Can S.next c' b n ∧ (S.child t b q).Can t c b n := by
  have ht : t ≠ S.next := Nat.ne_of_lt h.1
  refine ⟨⟨Nat.lt_succ_self _, ?_, ?_⟩, ⟨Nat.lt_succ_of_lt h.1, ?_, ?_⟩⟩
  · intro u hu
    simp only [Lineage.child, Function.update_self, List.mem_cons] at hu ⊢
    rcases hu with rfl | hu
    · exact Nat.lt_succ_self _
    · exact Nat.lt_succ_of_lt (h.2.1 u hu)
  · intro o ho u hu
    simp only [Lineage.child, Function.update_self, List.mem_cons] at hu ⊢
    rcases hu with rfl | hu
    · simpa using hq
    · have := h.2.1 u hu
      rw [if_neg (by omega)]
      have := h.2.2 o ho u hu
      rcases hc with rfl | rfl
      · exact allows_read this
      · exact this
  · intro u hu
    simp only [Lineage.child, Function.update_of_ne ht] at hu ⊢
    exact Nat.lt_succ_of_lt (h.2.1 u hu)
  · intro o ho u hu
    simp only [Lineage.child, Function.update_of_ne ht] at hu ⊢
    have := h.2.1 u hu
    rw [if_neg (by omega)]
    exact h.2.2 o ho u hu

/-- What a reference that was just made, and everything else, looks like. -/
structure Made (S S' : Lineage) (t b : Nat) (q : Perm) (o k : Nat) : Prop where
  line : S'.line = Function.update S.line S.next (S.next :: S.line t)
  next : S'.next = S.next + 1
  blocks : ∀ c u, c ≠ b → u ≠ S.next → ∀ j, S'.perm c j u = S.perm c j u
  own : ∀ j, S'.perm b j S.next = q
  old : ∀ j u, u ≠ S.next → S'.perm b j u =
    if o ≤ j ∧ j < o + k ∧ u ∉ S.line t then (S.perm b j u).foreign .read else S.perm b j u

theorem own_read (q : Perm) : q.own .read = q := by cases q <;> rfl

theorem reborrow_make {S : Lineage} {t b n o k : Nat} {c c' : Access} (h : S.Can t c b n)
    {q : Perm} (hq : q.allows c' = true) (hc : c' = .read ∨ c' = c) (hk : o + k ≤ n) :
    ∃ S' : Lineage, Lineage.reborrow.make t (.loc b o) k S q = .ok (S.next, S') ∧ S'.Can S.next c' b n ∧
      Made S S' t b q o k := by
  have hch := (h.child hq hc).1
  obtain ⟨S', e, h1, h2, h3, h4⟩ := hch.access (.inl rfl) hk
  refine ⟨S', by simp [Lineage.reborrow.make, e], hch.after (.inl rfl) hk e, h1, h2, ?_, ?_, ?_⟩
  · intro d u hd hu j
    rw [h3 d hd]
    simp [Lineage.child, hu]
  · intro j
    rw [h4]
    simp [Lineage.child, own_read]
  · intro j u hu
    rw [h4]
    simp only [Lineage.child, if_neg hu, Function.update_self, List.mem_cons, own_read]
    by_cases hm : u ∈ S.line t
    · simp [hm]
    · simp [hm, hu]

theorem reborrow_mut {S : Lineage} {t b n o k : Nat} {c : Access} (h : S.Can t c b n) (hk : o + k ≤ n) :
    ∃ S' : Lineage, S.reborrow .mutable t (.loc b o) k = .ok (S.next, S') ∧ S'.Can S.next c b n ∧
      Made S S' t b .reserved o k :=
  reborrow_make h (c' := c) (by cases c <;> rfl) (.inr rfl) hk

theorem reborrow_shared {S : Lineage} {t b n o k : Nat} {c : Access} (h : S.Can t c b n) (hk : o + k ≤ n) :
    ∃ S' : Lineage, S.reborrow .shared t (.loc b o) k = .ok (S.next, S') ∧ S'.Can S.next .read b n ∧
      Made S S' t b .frozen o k :=
  reborrow_make h (c' := .read) rfl (.inl rfl) hk

theorem tree_access : treeBorrows.access = Lineage.access := rfl

theorem tree_reborrow : treeBorrows.reborrow = Lineage.reborrow := rfl

theorem tree_raw (S : Lineage) (t : Nat) (p : Ptr) (n : Nat) : S.reborrow .raw t p n = .ok (t, S) := rfl

/-- A mutable slice made of a reference to its first element. -/
theorem sliceMut_tree {S : Lineage} {t b n o k : Nat} {c : Access} (h : S.Can t c b n) (ho : o < n)
    (hk : o + k ≤ n) : ∃ S1 S' : Lineage,
      treeBorrows.sliceMut S t (.loc b o) k = .ok (S.next + 1, S') ∧ S'.Can (S.next + 1) c b n ∧
      Made S S1 t b .reserved o 1 ∧ Made S1 S' S.next b .reserved o k := by
  obtain ⟨S1, e1, c1, m1⟩ := reborrow_mut h (o := o) (k := 1) (by omega)
  obtain ⟨S2, e2, c2, m2⟩ := reborrow_mut c1 hk
  rw [m1.next] at e2 c2
  exact ⟨S1, S2, by simp only [Rules.sliceMut, tree_reborrow, e1, Exec.ok_bind, tree_raw, e2], c2, m1, m2⟩

/-- A shared one. -/
theorem slice_tree {S : Lineage} {t b n o k : Nat} {c : Access} (h : S.Can t c b n) (ho : o < n)
    (hk : o + k ≤ n) : ∃ S1 S2 S' : Lineage,
      treeBorrows.slice S t (.loc b o) k = .ok (S.next + 2, S') ∧ S'.Can (S.next + 2) .read b n ∧
      Made S S1 t b .frozen o 1 ∧ Made S1 S2 S.next b .frozen o 1 ∧
      Made S2 S' (S.next + 1) b .frozen o k := by
  obtain ⟨S1, e1, c1, m1⟩ := reborrow_shared h (o := o) (k := 1) (by omega)
  obtain ⟨S2, e2, c2, m2⟩ := reborrow_shared c1 (o := o) (k := 1) (by omega)
  rw [m1.next] at e2 c2
  obtain ⟨S3, e3, c3, m3⟩ := reborrow_shared c2 hk
  rw [m2.next, m1.next] at e3 c3
  exact ⟨S1, S2, S3, by simp only [Rules.slice, tree_reborrow, e1, Exec.ok_bind, e2, e3], c3, m1, m2, m3⟩

/-! ## The owner of a block -/

/-- The tag may do everything with the cells of the block, of which there are `n`. -/
def THas (t b n : Nat) (S : Lineage) : Prop :=
  t < S.next ∧ S.line t = [t] ∧ (∀ o, o < n → S.perm b o t = .active) ∧
    ∀ o, n ≤ o → S.perm b o t = .disabled

theorem THas.can {t b n : Nat} {S : Lineage} (h : THas t b n S) (a : Access) : S.Can t a b n := by
  refine ⟨h.1, ?_, ?_⟩
  · rw [h.2.1]
    simpa using h.1
  · intro o ho u hu
    rw [h.2.1, List.mem_singleton] at hu
    subst hu
    rw [h.2.2.1 o ho]
    cases a <;> rfl

theorem THas.made {t s b n : Nat} {S S' : Lineage} (h : THas t b n S) {q : Perm} {o k : Nat}
    (m : Made S S' s b q o k) (hs : t ∈ S.line s) : THas t b n S' := by
  have ht : t ≠ S.next := Nat.ne_of_lt h.1
  refine ⟨by rw [m.next]; exact Nat.lt_succ_of_lt h.1, by rw [m.line, Function.update_of_ne ht]; exact h.2.1,
    ?_, ?_⟩
  · intro j hj
    rw [m.old j t ht, if_neg (by simp [hs])]
    exact h.2.2.1 j hj
  · intro j hj
    rw [m.old j t ht, if_neg (by simp [hs])]
    exact h.2.2.2 j hj

/-- Through what was made of it the owner loses nothing. -/
theorem THas.through {t s b n : Nat} {S : Lineage} (h : THas t b n S) {a c : Access} (hc : S.Can s c b n)
    (hr : a = .read ∨ a = c) (hs : t ∈ S.line s) {o k : Nat} (hk : o + k ≤ n) :
    ∃ S' : Lineage, S.access s a (.loc b o) k = .ok S' ∧ THas t b n S' ∧ S'.line = S.line ∧
      S'.next = S.next ∧ ∀ b', b' ≠ b → S'.perm b' = S.perm b' := by
  obtain ⟨S', e, h1, h2, h3, h4⟩ := hc.access hr hk
  refine ⟨S', e, ⟨by rw [h2]; exact h.1, by rw [h1]; exact h.2.1, ?_, ?_⟩, h1, h2, h3⟩
  · intro j hj
    rw [h4, if_pos hs, h.2.2.1 j hj]
    split_ifs
    · cases a <;> rfl
    · rfl
  · intro j hj
    rw [h4, if_neg (by omega)]
    exact h.2.2.2 j hj

theorem THas.sliceMut_end {t b n : Nat} {S : Lineage} (h : THas t b n S) (k : Nat) :
    treeBorrows.sliceMut S t (.loc b n) k = .error .ub := by
  have ht : t ≠ S.next := Nat.ne_of_lt h.1
  have : ¬ ∀ j, j < 1 → ∀ u ∈ (S.child t b .reserved).line S.next,
      ((S.child t b .reserved).perm b (n + j) u).allows .read = true := by
    intro hc
    have := hc 0 Nat.one_pos t (by simp [Lineage.child, h.2.1])
    simp [Lineage.child, ht, h.2.2.2 n (Nat.le_refl n), Perm.allows] at this
  have e : S.reborrow .mutable t (.loc b n) 1 = .error .ub := by
    unfold Lineage.reborrow
    simp only [Lineage.reborrow.make, Lineage.access]
    rw [if_neg (by omega), if_neg this]
    rfl
  simp only [Rules.sliceMut, tree_reborrow, e]
  rfl

/-- Tree Borrows: slices of any length may be used. -/
def treeLaw : treeBorrows.Law fun _ => true where
  Good _ := True
  Has := THas
  Same b S S' := (∀ c, c ≠ b → ∀ u, u < S.next → ∀ j, S'.perm c j u = S.perm c j u) ∧
    (∀ u, u < S.next → S'.line u = S.line u) ∧ S.next ≤ S'.next
  good _ := trivial
  frame {t b n b' S S'} h _ hs hb := by
    obtain ⟨h1, h2, h3⟩ := hs
    exact ⟨Nat.lt_of_lt_of_le h.1 h3, by rw [h2 t h.1]; exact h.2.1,
      fun o ho => by rw [h1 b hb t h.1]; exact h.2.2.1 o ho,
      fun o ho => by rw [h1 b hb t h.1]; exact h.2.2.2 o ho⟩
  access {t b n S} h a o k hk := by
    obtain ⟨S', e, H, h1, h2, h3⟩ := h.through (h.can a) (.inr rfl) (by rw [h.2.1]; simp) hk
    exact ⟨S', e, H, fun c hc u _ j => by rw [h3 c hc], fun u _ => by rw [h1], by rw [h2]; exact Nat.le_refl _⟩
  allocate {S} _ b n := by
    refine ⟨⟨Nat.lt_succ_self _, by simp [treeBorrows, Lineage.allocate], ?_, ?_⟩, ?_, ?_, Nat.le_succ _⟩
    · intro o ho
      simp [treeBorrows, Lineage.allocate, ho]
    · intro o ho
      simp [treeBorrows, Lineage.allocate, Nat.not_lt.2 ho]
    · intro c hc u _ j
      simp [treeBorrows, Lineage.allocate, hc]
    · intro u hu
      simp [treeBorrows, Lineage.allocate, Nat.ne_of_lt hu]
  free {t b n S} h := by
    obtain ⟨S', e, H, h1, h2, h3⟩ :=
      h.through (h.can .write) (.inr rfl) (by rw [h.2.1]; simp) (o := 0) (k := n) (by omega)
    refine ⟨{ S' with perm := Function.update S'.perm b fun _ _ => .disabled },
      by simp [treeBorrows, Lineage.free, e], trivial, ?_, ?_, ?_⟩
    · intro c hc u _ j
      simp [hc, h3 c hc]
    · intro u _
      rw [h1]
    · exact Nat.le_of_eq h2.symm
  sliceMut {t b n f S} h hf k _ hk := by
    obtain ⟨S1, S', e, hc, m1, m2⟩ := sliceMut_tree (h.can .write) hf hk
    have l1 : t ∈ S1.line S.next := by rw [m1.line]; simp [h.2.1]
    have l2 : t ∈ S'.line (S.next + 1) := by
      rw [m2.line, ← m1.next]
      simp [l1]
    have H := (h.made m1 (by rw [h.2.1]; simp)).made m2 l1
    refine ⟨_, S', e, H, fun o j ho hj => ?_⟩
    obtain ⟨S'', e', H', _⟩ := H.through hc (.inr rfl) l2 (o := o) (k := j) (by omega)
    exact ⟨S'', e', H'⟩
  slice {t b n f S} h hf k _ hk := by
    obtain ⟨S1, S2, S', e, hc, m1, m2, m3⟩ := slice_tree (h.can .write) hf hk
    have l1 : t ∈ S1.line S.next := by rw [m1.line]; simp [h.2.1]
    have l2 : t ∈ S2.line (S.next + 1) := by
      rw [m2.line, ← m1.next]
      simp [l1]
    have l3 : t ∈ S'.line (S.next + 2) := by
      have : S.next + 2 = S2.next := by rw [m2.next, m1.next]
      rw [m3.line, this]
      simp [l2]
    have H := ((h.made m1 (by rw [h.2.1]; simp)).made m2 l1).made m3 l2
    refine ⟨_, S', e, H, fun o j ho hj => ?_⟩
    obtain ⟨S'', e', H', _⟩ := H.through hc (.inl rfl) l3 (o := o) (k := j) (by omega)
    exact ⟨S'', e', H'⟩
  sliceMut_wide _ _ _ _ h := by cases h
  slice_wide _ _ _ _ h := by cases h
  sliceMut_end h k := h.sliceMut_end k
  none := rfl

theorem runViews_all {α : Type} (ops : List (SeqOp α)) : ∀ xs : List α,
    SeqOp.runViews (fun _ => true) ops xs = SeqOp.run ops xs := by
  induction ops with
  | nil => intro xs; rfl
  | cons op ops ih =>
    intro xs
    simp only [SeqOp.runViews, SeqOp.run, ih, Bool.true_eq_false, if_false]
    cases op.step xs with
    | error e => rfl
    | ok r => cases hr : SeqOp.run ops r.2 <;> simp [hr]

end Verif
