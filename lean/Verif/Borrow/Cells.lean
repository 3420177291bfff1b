import Verif.Borrow.Model
import Verif.MemLemmas

/-! Lemmas about permissions. -/

set_option autoImplicit false

namespace Verif
open Spec

theorem bind_inv {β γ : Type} {e : Exec β} {f : β → Exec γ} {c : γ} (h : (e >>= f) = .ok c) :
    ∃ a, e = .ok a ∧ f a = .ok c := by
  cases e with
  | error x => cases h
  | ok a => exact ⟨a, rfl, h⟩

/-- The bottom item makes everything of the tag, and no other item has it. -/
def Base (t : Nat) (s : List Item) : Prop :=
  ∃ pre : List Item, s = pre ++ [⟨.unique, t⟩] ∧ ∀ i ∈ pre, i.tag ≠ t

theorem allows_tag {i : Item} {t : Nat} {a : Access} (h : i.allows t a = true) : i.tag = t := by
  cases a <;> simp only [Item.allows, Bool.and_eq_true, beq_iff_eq] at h <;> exact h.1

theorem splitAt_append {t : Nat} {a : Access} (s : List Item) : ∀ {u : List Item × List Item},
    splitAt t a s = some u → s = u.1 ++ u.2 := by
  induction s with
  | nil => intro u h; cases h
  | cons i s ih =>
    intro u h
    simp only [splitAt] at h
    split_ifs at h with hi
    · cases h; rfl
    · cases hs : splitAt t a s with
      | none => rw [hs] at h; cases h
      | some u' =>
        rw [hs] at h
        cases h
        simp [← ih hs]

theorem splitAt_none {t : Nat} {a : Access} (s : List Item) (h : ∀ i ∈ s, i.tag ≠ t) :
    splitAt t a s = none := by
  induction s with
  | nil => rfl
  | cons i s ih =>
    have hi : i.allows t a = false := by
      cases hb : i.allows t a
      · rfl
      · exact absurd (allows_tag hb) (h i (by simp))
    simp [splitAt, hi, ih fun j hj => h j (by simp [hj])]

theorem splitAt_base {t : Nat} {a : Access} (pre : List Item) (h : ∀ i ∈ pre, i.tag ≠ t) :
    splitAt t a (pre ++ [⟨.unique, t⟩]) = some (pre, [⟨.unique, t⟩]) := by
  induction pre with
  | nil => cases a <;> simp [splitAt, Item.allows]
  | cons i s ih =>
    have hi : i.allows t a = false := by
      cases hb : i.allows t a
      · rfl
      · exact absurd (allows_tag hb) (h i (by simp))
    simp [splitAt, hi, ih fun j hj => h j (by simp [hj])]

theorem splitAt_top {t : Nat} {a : Access} {i : Item} {s : List Item} (h : i.allows t a = true) :
    splitAt t a (i :: s) = some ([], i :: s) := by
  simp [splitAt, h]

theorem afterRead_tag (i : Item) : i.afterRead.tag = i.tag := by
  unfold Item.afterRead
  split_ifs <;> rfl

theorem Base.touch {t : Nat} {s : List Item} (h : Base t s) (a : Access) :
    ∃ s' : List Item, touch t a s = some s' ∧ Base t s' := by
  obtain ⟨pre, rfl, hp⟩ := h
  cases a with
  | read =>
    refine ⟨pre.map Item.afterRead ++ [⟨.unique, t⟩], by simp [Spec.touch, splitAt_base pre hp], _, rfl, ?_⟩
    intro i hi
    obtain ⟨j, hj, rfl⟩ := List.mem_map.1 hi
    rw [afterRead_tag]
    exact hp j hj
  | write =>
    exact ⟨[⟨.unique, t⟩], by simp [Spec.touch, splitAt_base pre hp, sharing], [], rfl, by simp⟩

theorem touch_tags {t : Nat} {a : Access} {s s' : List Item} (h : touch t a s = some s') :
    ∀ i ∈ s', ∃ j ∈ s, j.tag = i.tag := by
  unfold touch at h
  cases hs : splitAt t a s with
  | none => rw [hs] at h; cases h
  | some u =>
    obtain ⟨up, rest⟩ := u
    have he := splitAt_append s hs
    simp only at he
    subst he
    rw [hs] at h
    intro i hi
    cases a with
    | read =>
      obtain rfl := Option.some.inj h
      rcases List.mem_append.1 hi with hi | hi
      · obtain ⟨j, hj, rfl⟩ := List.mem_map.1 hi
        exact ⟨j, by simp [hj], (afterRead_tag j).symm⟩
      · exact ⟨i, by simp [hi], rfl⟩
    | write =>
      obtain rfl := Option.some.inj h
      rcases List.mem_append.1 hi with hi | hi
      · refine ⟨i, ?_, rfl⟩
        unfold sharing at hi
        cases rest with
        | nil => cases hi
        | cons k r =>
          simp only at hi
          split_ifs at hi
          · have := (List.takeWhile_sublist _).subset (List.mem_reverse.1 hi)
            simp [List.mem_reverse.1 this]
          · cases hi
      · exact ⟨i, by simp [hi], rfl⟩

theorem sharing_mem {up rest : List Item} {i : Item} (hi : i ∈ sharing up rest) : i ∈ up := by
  unfold sharing at hi
  cases rest with
  | nil => cases hi
  | cons k r =>
    simp only at hi
    split_ifs at hi
    · have := (List.takeWhile_sublist _).subset (List.mem_reverse.1 hi)
      exact List.mem_reverse.1 this
    · cases hi

theorem derive_tags {k : Reborrow} {old new : Nat} {s s' : List Item}
    (h : derive k old new s = some s') : ∀ i ∈ s', i.tag = new ∨ ∃ j ∈ s, j.tag = i.tag := by
  cases k with
  | mutable =>
    simp only [derive, Option.map_eq_some_iff] at h
    obtain ⟨u, hu, rfl⟩ := h
    intro i hi
    rcases List.mem_cons.1 hi with rfl | hi
    · exact .inl rfl
    · exact .inr (touch_tags hu i hi)
  | shared =>
    simp only [derive, Option.map_eq_some_iff] at h
    obtain ⟨u, hu, rfl⟩ := h
    intro i hi
    rcases List.mem_cons.1 hi with rfl | hi
    · exact .inl rfl
    · exact .inr (touch_tags hu i hi)
  | raw =>
    simp only [derive, Option.map_eq_some_iff] at h
    obtain ⟨⟨up, rest⟩, hu, rfl⟩ := h
    have he := splitAt_append s hu
    simp only at he
    subst he
    intro i hi
    simp only [List.mem_append, List.mem_cons] at hi
    rcases hi with hi | rfl | hi | hi
    · exact .inr ⟨i, by simp [List.mem_of_mem_take hi], rfl⟩
    · exact .inl rfl
    · exact .inr ⟨i, by simp [sharing_mem hi], rfl⟩
    · exact .inr ⟨i, by simp [hi], rfl⟩

/-! ## Ranges -/

theorem at'_error {f : List Item → Option (List Item)} {p : Ptr} {S : Borrows} {e : Fault}
    (h : S.at' f p = .error e) : e = .ub := by
  cases p with
  | null => cases h; rfl
  | loc b o =>
    simp only [Borrows.at'] at h
    split at h <;> cases h
    rfl

theorem each_error {f : List Item → Option (List Item)} : ∀ {n : Nat} {p : Ptr} {S : Borrows} {e : Fault},
    S.each f p n = .error e → e = .ub
  | 0, _, _, _, h => by cases h
  | n + 1, p, S, e, h => by
    cases hs : S.at' f p with
    | error e' =>
      simp only [Borrows.each, hs, Exec.error_bind] at h
      cases h
      exact at'_error hs
    | ok S' =>
      simp only [Borrows.each, hs, Exec.ok_bind] at h
      exact each_error h

theorem each_ok (f : List Item → Option (List Item)) (b : Nat) : ∀ (n o : Nat) (S : Borrows),
    (∀ k, o ≤ k → k < o + n → (f (S.items b k)).isSome) →
    ∃ S' : Borrows, S.each f (.loc b o) n = .ok S' ∧ S'.next = S.next ∧
      ∀ b' k, S'.items b' k =
        if b' = b ∧ o ≤ k ∧ k < o + n then (f (S.items b k)).getD [] else S.items b' k
  | 0, o, S, _ => ⟨S, rfl, rfl, fun b' k => by rw [if_neg]; omega⟩
  | n + 1, o, S, h => by
    obtain ⟨s, hs⟩ := Option.isSome_iff_exists.1 (h o (by omega) (by omega))
    let S1 : Borrows := { S with items := Function.update S.items b (Function.update (S.items b) o s) }
    have h1 : S.at' f (.loc b o) = .ok S1 := by simp [Borrows.at', hs, S1]
    have hne : ∀ k, k ≠ o → S1.items b k = S.items b k := fun k hk => by simp [S1, hk]
    obtain ⟨S', e, hn, hi⟩ := each_ok f b n (o + 1) S1 fun k h1 h2 => by
      rw [hne k (by omega)]
      exact h k (by omega) (by omega)
    refine ⟨S', by simp only [Borrows.each, h1, Exec.ok_bind, Ptr.next, e], hn, ?_⟩
    intro b' k
    rw [hi]
    by_cases hb : b' = b
    · subst hb
      by_cases hk : k = o
      · subst hk
        rw [if_neg (by omega), if_pos (by omega), hs]
        simp [S1]
      · rw [hne k hk]
        by_cases hr : o ≤ k ∧ k < o + (n + 1)
        · rw [if_pos ⟨rfl, by omega, by omega⟩, if_pos ⟨rfl, by omega, by omega⟩]
        · rw [if_neg (by omega), if_neg (by omega)]
    · rw [if_neg (by simp [hb]), if_neg (by simp [hb])]
      simp [S1, hb]

/-- The converse. -/
theorem each_some {f : List Item → Option (List Item)} {b : Nat} : ∀ {n o : Nat} {S S' : Borrows},
    S.each f (.loc b o) n = .ok S' → ∀ k, o ≤ k → k < o + n → (f (S.items b k)).isSome
  | 0, o, S, S', _ => fun k h1 h2 => by omega
  | n + 1, o, S, S', h => fun k h1 h2 => by
    cases hs : S.at' f (.loc b o) with
    | error e => simp [Borrows.each, hs] at h
    | ok S1 =>
      simp only [Borrows.each, hs, Exec.ok_bind, Ptr.next] at h
      have h3 := each_some h
      simp only [Borrows.at'] at hs
      cases hf : f (S.items b o) with
      | none => rw [hf] at hs; cases hs
      | some s =>
        rw [hf] at hs
        cases hs
        by_cases hk : k = o
        · subst hk; simp [hf]
        · have := h3 k (by omega) (by omega)
          simpa [hk] using this

theorem each_null {f : List Item → Option (List Item)} {n : Nat} {S : Borrows} (h : 0 < n) :
    S.each f .null n = .error .ub := by
  cases n with
  | zero => omega
  | succ n => rfl

theorem each_tags {f : List Item → Option (List Item)} {P : Item → Prop} {Q : Nat → Nat → Prop}
    (hf : ∀ b o s s', Q b o → (∀ i ∈ s, P i) → f s = some s' → ∀ i ∈ s', P i)
    {b n o : Nat} {S S' : Borrows} (hQ : ∀ k, o ≤ k → k < o + n → Q b k)
    (hS : ∀ b o, ∀ i ∈ S.items b o, P i) (h : S.each f (.loc b o) n = .ok S') :
    ∀ b o, ∀ i ∈ S'.items b o, P i := by
  have hs := each_some h
  obtain ⟨S1, e, _, hi⟩ := each_ok f b n o S hs
  rw [h] at e
  cases e
  intro b' k i hm
  rw [hi] at hm
  split_ifs at hm with hc
  · obtain ⟨rfl, h1, h2⟩ := hc
    obtain ⟨s, hfs⟩ := Option.isSome_iff_exists.1 (hs k h1 h2)
    rw [hfs] at hm
    exact hf _ _ _ _ (hQ k h1 h2) (hS b' k) hfs i hm
  · exact hS b' k i hm

/-! ## Forming a slice from a reference to its first element -/

theorem reborrow_ok {S S' : Borrows} {k : Reborrow} {t n r : Nat} {p : Ptr}
    (h : S.reborrow k t p n = .ok (r, S')) :
    r = S.next ∧ ∃ S1 : Borrows, S.each (derive k t S.next) p n = .ok S1 ∧
      S' = { S1 with next := S1.next + 1 } := by
  unfold Borrows.reborrow at h
  obtain ⟨S1, e, h⟩ := bind_inv h
  cases h
  exact ⟨rfl, S1, e, rfl⟩

theorem reborrow_error {S : Borrows} {k : Reborrow} {t n : Nat} {p : Ptr} {e : Fault}
    (h : S.reborrow k t p n = .error e) : e = .ub := by
  unfold Borrows.reborrow at h
  cases hs : S.each (derive k t S.next) p n with
  | error e' => rw [hs] at h; cases h; exact each_error hs
  | ok S1 => rw [hs] at h; cases h

/-- A pointer derived for one cell does not reach the next. -/
theorem reborrow_wide {S : Borrows} {k : Reborrow} {t n b o : Nat} (hn : 2 ≤ n)
    (h : ∀ i ∈ S.items b (o + 1), i.tag ≠ t) : S.reborrow k t (.loc b o) n = .error .ub := by
  unfold Borrows.reborrow
  cases hs : S.each (derive k t S.next) (.loc b o) n with
  | error e => rw [each_error hs]; rfl
  | ok S1 =>
    exfalso
    have := each_some hs (o + 1) (by omega) (by omega)
    cases k <;> simp [derive, touch, splitAt_none _ h] at this

theorem three_wide {k1 k2 k3 : Reborrow} {S : Borrows} (hS : Fresh S) {t n : Nat} {p : Ptr}
    (hn : 2 ≤ n) : (do
      let (r, S) ← S.reborrow k1 t p 1
      let (w, S) ← S.reborrow k2 r p 1
      S.reborrow k3 w p n : Exec (Nat × Borrows)) = .error .ub := by
  cases p with
  | null => simp [Borrows.reborrow, each_null]
  | loc b o =>
    cases h1 : S.reborrow k1 t (.loc b o) 1 with
    | error e => rw [reborrow_error h1]; rfl
    | ok u1 =>
      obtain ⟨r, S1⟩ := u1
      simp only [Exec.ok_bind]
      cases h2 : S1.reborrow k2 r (.loc b o) 1 with
      | error e => rw [reborrow_error h2]; rfl
      | ok u2 =>
        obtain ⟨w, S2⟩ := u2
        simp only [Exec.ok_bind]
        obtain ⟨rfl, U1, e1, rfl⟩ := reborrow_ok h1
        obtain ⟨rfl, U2, e2, rfl⟩ := reborrow_ok h2
        obtain ⟨V1, d1, n1, i1⟩ := each_ok _ b 1 o S (each_some e1)
        rw [e1] at d1
        cases d1
        obtain ⟨V2, d2, n2, i2⟩ := each_ok _ b 1 o _ (each_some e2)
        rw [e2] at d2
        cases d2
        refine reborrow_wide hn fun i hi => ?_
        simp only [i2, i1] at hi
        rw [if_neg (by omega), if_neg (by omega)] at hi
        have := hS b (o + 1) i hi
        simp only [n1]
        omega

/-- A slice of two or more elements made from a reference to the first one. -/
theorem sliceMut_wide {S : Borrows} (hS : Fresh S) (t : Nat) (p : Ptr) {n : Nat} (hn : 2 ≤ n) :
    stackedBorrows.sliceMut S t p n = .error .ub := three_wide hS hn

theorem slice_wide {S : Borrows} (hS : Fresh S) (t : Nat) (p : Ptr) {n : Nat} (hn : 2 ≤ n) :
    stackedBorrows.slice S t p n = .error .ub := three_wide hS hn

end Verif
