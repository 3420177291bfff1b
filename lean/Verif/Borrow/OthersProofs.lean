import Verif.Borrow.Others
import Verif.Borrow.Cells

/-! Lemmas about the permissions of pointers into the object itself. -/

set_option autoImplicit false

namespace Verif
open Spec

theorem stacked_access : stackedBorrows.access = Borrows.access := rfl

theorem stacked_reborrow : stackedBorrows.reborrow = Borrows.reborrow := rfl

/-- Making a reference or pointer, in terms of the cells. -/
theorem reborrow_cells {k : Reborrow} {t b o n : Nat} {S : Borrows}
    (h : ∀ j, o ≤ j → j < o + n → (derive k t S.next (S.items b j)).isSome) :
    ∃ S' : Borrows, S.reborrow k t (.loc b o) n = .ok (S.next, S') ∧ S'.next = S.next + 1 ∧
      ∀ j, S'.items b j =
        if o ≤ j ∧ j < o + n then (derive k t S.next (S.items b j)).getD [] else S.items b j := by
  obtain ⟨S1, e, hn, hi⟩ := each_ok _ b n o S h
  refine ⟨{ S1 with next := S1.next + 1 }, by simp [Borrows.reborrow, e], by simp [hn], fun j => ?_⟩
  simp only [hi, true_and]

theorem access_cells {a : Access} {t b o n : Nat} {S : Borrows}
    (h : ∀ j, o ≤ j → j < o + n → (touch t a (S.items b j)).isSome) :
    ∃ S' : Borrows, S.access t a (.loc b o) n = .ok S' ∧ S'.next = S.next ∧
      ∀ j, S'.items b j =
        if o ≤ j ∧ j < o + n then (touch t a (S.items b j)).getD [] else S.items b j := by
  obtain ⟨S1, e, hn, hi⟩ := each_ok _ b n o S h
  exact ⟨S1, e, hn, fun j => by simp only [hi, true_and]⟩

theorem access_none {a : Access} {t b o : Nat} {S : Borrows} (h : ∀ i ∈ S.items b o, i.tag ≠ t) :
    S.access t a (.loc b o) 1 = .error .ub := by
  simp [Borrows.access, Borrows.each, Borrows.at', touch, splitAt_none _ h]

theorem reborrow_none {k : Reborrow} {t b o c n : Nat} {S : Borrows} (hn : c < n)
    (h : ∀ i ∈ S.items b (o + c), i.tag ≠ t) : S.reborrow k t (.loc b o) n = .error .ub := by
  unfold Borrows.reborrow
  cases hs : S.each (derive k t S.next) (.loc b o) n with
  | error e => rw [each_error hs]; rfl
  | ok S1 =>
    exfalso
    have := each_some hs (o + c) (by omega) (by omega)
    cases k <;> simp [derive, touch, splitAt_none _ h] at this

/-- What belongs to `o` alone. -/
def Sole (S : Borrows) (o b n : Nat) : Prop :=
  o < S.next ∧ ∀ j, j < n → S.items b j = [⟨.unique, o⟩]

theorem Sole.access {S : Borrows} {o b n : Nat} (h : Sole S o b n) (a : Access) :
    ∃ S' : Borrows, S.access o a (.loc b 0) n = .ok S' ∧ Sole S' o b n := by
  obtain ⟨S', e, hn, hi⟩ := access_cells (a := a) (t := o) (b := b) (o := 0) (n := n) (S := S) (by
    intro j _ hj
    rw [h.2 j (by omega)]
    cases a <;> simp [touch, splitAt, Item.allows])
  refine ⟨S', e, by rw [hn]; exact h.1, fun j hj => ?_⟩
  rw [hi, if_pos (by omega), h.2 j hj]
  cases a <;> simp [touch, splitAt, Item.allows, sharing]

/-- The owner lends the object out: stacks of two. -/
def Lent (S : Borrows) (o t b n : Nat) : Prop :=
  o < t ∧ t < S.next ∧ ∀ j, j < n → ∃ up : List Item, S.items b j = up ++ [⟨.unique, t⟩, ⟨.unique, o⟩] ∧
    ∀ i ∈ up, i.tag ≠ t ∧ i.tag ≠ o

theorem touch_mid {t o : Nat} {up : List Item} (h : ∀ i ∈ up, i.tag ≠ t ∧ i.tag ≠ o) :
    touch t .write (up ++ [⟨.unique, t⟩, ⟨.unique, o⟩]) = some [⟨.unique, t⟩, ⟨.unique, o⟩] := by
  have : splitAt t .write (up ++ [⟨.unique, t⟩, ⟨.unique, o⟩]) =
      some (up, [⟨.unique, t⟩, ⟨.unique, o⟩]) := by
    induction up with
    | nil => simp [splitAt, Item.allows]
    | cons i up ih =>
      have hi : i.allows t .write = false := by
        cases hb : i.allows t .write
        · rfl
        · exact absurd (allows_tag hb) (h i (by simp)).1
      rw [List.cons_append, splitAt, hi, if_neg (by simp), ih fun j hj => h j (by simp [hj])]
      rfl
  simp [touch, this, sharing]

theorem touch_owner {t o : Nat} (ht : o < t) {up : List Item} (h : ∀ i ∈ up, i.tag ≠ t ∧ i.tag ≠ o) :
    touch o .write (up ++ [⟨.unique, t⟩, ⟨.unique, o⟩]) = some [⟨.unique, o⟩] := by
  have := splitAt_base (t := o) (a := .write) (up ++ [⟨.unique, t⟩]) (by
    intro i hi
    rcases List.mem_append.1 hi with hi | hi
    · exact (h i hi).2
    · simp only [List.mem_singleton] at hi
      subst hi
      exact Nat.ne_of_gt ht)
  rw [List.append_assoc] at this
  simp only [List.cons_append, List.nil_append] at this
  simp [touch, this, sharing]

theorem Sole.lend {S : Borrows} {o b n : Nat} (h : Sole S o b n) :
    ∃ S' : Borrows, S.reborrow .mutable o (.loc b 0) n = .ok (S.next, S') ∧ S'.next = S.next + 1 ∧
      Lent S' o S.next b n := by
  obtain ⟨S', e, hn, hi⟩ := reborrow_cells (k := .mutable) (t := o) (b := b) (o := 0) (n := n) (S := S)
    (by
      intro j _ hj
      rw [h.2 j (by omega)]
      simp [derive, touch, splitAt, Item.allows])
  refine ⟨S', e, hn, h.1, by omega, fun j hj => ⟨[], ?_, by simp⟩⟩
  rw [hi, if_pos (by omega), h.2 j hj]
  simp [derive, touch, splitAt, Item.allows, sharing]

/-- Lending it again ends everything derived before. -/
theorem Lent.again {S : Borrows} {o t b n : Nat} (h : Lent S o t b n) :
    ∃ S' : Borrows, S.reborrow .mutable o (.loc b 0) n = .ok (S.next, S') ∧ S'.next = S.next + 1 ∧
      ∀ j, j < n → S'.items b j = [⟨.unique, S.next⟩, ⟨.unique, o⟩] := by
  have key : ∀ j, j < n → derive .mutable o S.next (S.items b j) =
      some [⟨.unique, S.next⟩, ⟨.unique, o⟩] := by
    intro j hj
    obtain ⟨up, e, hu⟩ := h.2.2 j hj
    simp [derive, e, touch_owner h.1 hu]
  obtain ⟨S', e, hn, hi⟩ := reborrow_cells (k := .mutable) (t := o) (b := b) (o := 0) (n := n) (S := S)
    (by intro j _ hj; rw [key j (by omega)]; rfl)
  exact ⟨S', e, hn, fun j hj => by rw [hi, if_pos (by omega), key j hj]; rfl⟩

/-- A write through the reference ends what was derived from it for that cell. -/
theorem Lent.write {S : Borrows} {o t b n c : Nat} (h : Lent S o t b n) (hc : c < n) :
    ∃ S' : Borrows, S.access t .write (.loc b c) 1 = .ok S' ∧ S'.next = S.next ∧ Lent S' o t b n ∧
      S'.items b c = [⟨.unique, t⟩, ⟨.unique, o⟩] ∧ ∀ j, j ≠ c → S'.items b j = S.items b j := by
  obtain ⟨up, eu, hu⟩ := h.2.2 c hc
  have key : touch t .write (S.items b c) = some [⟨.unique, t⟩, ⟨.unique, o⟩] := by
    rw [eu, touch_mid hu]
  obtain ⟨S', e, hn, hi⟩ := access_cells (a := .write) (t := t) (b := b) (o := c) (n := 1) (S := S) (by
    intro j h1 h2
    rw [show j = c by omega, key]
    rfl)
  have hc' : S'.items b c = [⟨.unique, t⟩, ⟨.unique, o⟩] := by
    rw [hi, if_pos (by omega), key]
    rfl
  have hj' : ∀ j, j ≠ c → S'.items b j = S.items b j := fun j hj => by rw [hi, if_neg (by omega)]
  refine ⟨S', e, hn, ⟨h.1, by rw [hn]; exact h.2.1, fun j hj => ?_⟩, hc', hj'⟩
  by_cases hjc : j = c
  · subst hjc
    exact ⟨[], by simpa using hc', by simp⟩
  · rw [hj' j hjc]
    exact h.2.2 j hj

/-- A pointer to the first `c` cells is made of the reference: it ends all earlier ones. -/
theorem Lent.pointerTo {S : Borrows} {o t b n c : Nat} (h : Lent S o t b n) (hc : c ≤ n) :
    ∃ S' : Borrows, stackedBorrows.pointerTo S t (.loc b 0) c = .ok (S.next + 1, S') ∧ S'.next = S.next + 2 ∧
      Lent S' o t b n ∧ (∀ j, j < c → S'.items b j =
        [⟨.sharedRW, S.next + 1⟩, ⟨.unique, S.next⟩, ⟨.unique, t⟩, ⟨.unique, o⟩]) ∧
      ∀ j, c ≤ j → S'.items b j = S.items b j := by
  obtain ⟨g1, g2, g3⟩ := h
  have key : ∀ j, j < c → derive .mutable t S.next (S.items b j) =
      some [⟨.unique, S.next⟩, ⟨.unique, t⟩, ⟨.unique, o⟩] := by
    intro j hj
    obtain ⟨up, e, hu⟩ := g3 j (by omega)
    simp [derive, e, touch_mid hu]
  obtain ⟨S1, e1, hn1, hi1⟩ := reborrow_cells (k := .mutable) (t := t) (b := b) (o := 0) (n := c)
    (S := S) (by intro j _ hj; rw [key j (by omega)]; rfl)
  have hs1 : ∀ j, j < c → S1.items b j = [⟨.unique, S.next⟩, ⟨.unique, t⟩, ⟨.unique, o⟩] :=
    fun j hj => by rw [hi1, if_pos (by omega), key j hj]; rfl
  have key2 : ∀ j, j < c → derive .raw S.next S1.next (S1.items b j) =
      some [⟨.sharedRW, S1.next⟩, ⟨.unique, S.next⟩, ⟨.unique, t⟩, ⟨.unique, o⟩] := by
    intro j hj
    rw [hs1 j hj]
    simp [derive, splitAt, Item.allows, sharing]
  obtain ⟨S2, e2, hn2, hi2⟩ := reborrow_cells (k := .raw) (t := S.next) (b := b) (o := 0) (n := c)
    (S := S1) (by intro j _ hj; rw [key2 j (by omega)]; rfl)
  have hs2 : ∀ j, j < c → S2.items b j =
      [⟨.sharedRW, S.next + 1⟩, ⟨.unique, S.next⟩, ⟨.unique, t⟩, ⟨.unique, o⟩] :=
    fun j hj => by rw [hi2, if_pos (by omega), key2 j hj, hn1]; rfl
  have hs3 : ∀ j, c ≤ j → S2.items b j = S.items b j :=
    fun j hj => by rw [hi2, if_neg (by omega), hi1, if_neg (by omega)]
  refine ⟨S2, ?_, by omega, ⟨g1, by omega, fun j hj => ?_⟩, hs2, hs3⟩
  · simp only [Rules.pointerTo, stackedBorrows, e1, Exec.ok_bind, e2, hn1]
  · by_cases hjc : j < c
    · refine ⟨[⟨.sharedRW, S.next + 1⟩, ⟨.unique, S.next⟩], by simpa using hs2 j hjc, ?_⟩
      intro i hi
      simp only [List.mem_cons, List.not_mem_nil, or_false] at hi
      rcases hi with rfl | rfl
      · exact ⟨by dsimp only; omega, by dsimp only; omega⟩
      · exact ⟨by dsimp only; omega, by dsimp only; omega⟩
    · rw [hs3 j (by omega)]
      exact g3 j hj

/-- A pointer that was made for `c` cells does not reach the next. -/
theorem pointerTo_wide {S : Borrows} (hS : Fresh S) {k : Reborrow} {t c n : Nat} {p : Ptr}
    (hn : c < n) : (do
      let (w, S) ← stackedBorrows.pointerTo S t p c
      S.reborrow k w p n : Exec (Nat × Borrows)) = .error .ub := by
  simp only [Rules.pointerTo, stackedBorrows]
  cases p with
  | null =>
    cases c with
    | zero => simp [Borrows.reborrow, Borrows.each, each_null hn]
    | succ c => simp [Borrows.reborrow, each_null (Nat.succ_pos c)]
  | loc b o =>
    cases h1 : S.reborrow .mutable t (.loc b o) c with
    | error e => rw [reborrow_error h1]; rfl
    | ok u1 =>
      obtain ⟨r, S1⟩ := u1
      simp only [Exec.ok_bind]
      cases h2 : S1.reborrow .raw r (.loc b o) c with
      | error e => rw [reborrow_error h2]; rfl
      | ok u2 =>
        obtain ⟨w, S2⟩ := u2
        simp only [Exec.ok_bind]
        obtain ⟨rfl, U1, e1, rfl⟩ := reborrow_ok h1
        obtain ⟨rfl, U2, e2, rfl⟩ := reborrow_ok h2
        obtain ⟨V1, d1, n1, i1⟩ := each_ok _ b c o S (each_some e1)
        rw [e1] at d1
        cases d1
        obtain ⟨V2, d2, n2, i2⟩ := each_ok _ b c o _ (each_some e2)
        rw [e2] at d2
        cases d2
        refine reborrow_none hn fun i hi => ?_
        simp only [i2, i1] at hi
        rw [if_neg (by omega), if_neg (by omega)] at hi
        have := hS b (o + c) i hi
        simp only [n1]
        omega

/-- No mutable reference can be made of what may only be read. -/
theorem sliceMut_readonly {S : Borrows} {t b o n : Nat}
    (h : ∀ i ∈ S.items b o, i.grant = .sharedRO ∨ i.grant = .disabled) :
    stackedBorrows.sliceMut S t (.loc b o) n = .error .ub := by
  have hs : ∀ s : List Item, (∀ i ∈ s, i.grant = .sharedRO ∨ i.grant = .disabled) →
      splitAt t .write s = none := by
    intro s hs
    induction s with
    | nil => rfl
    | cons i s ih =>
      have hi : i.allows t .write = false := by
        rcases hs i (by simp) with hg | hg <;> simp [Item.allows, hg]
      simp [splitAt, hi, ih fun j hj => hs j (by simp [hj])]
  simp [Rules.sliceMut, stackedBorrows, Borrows.reborrow, Borrows.each, Borrows.at', derive, touch, hs _ h]

end Verif
