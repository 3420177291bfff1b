import Verif.Borrow.Cells
import Verif.Borrow.Law

/-! Stacked Borrows has what the proofs about vectors need. -/

set_option autoImplicit false

namespace Verif
open Spec

/-- The tag may do everything with the cells of the block, of which there are `n`. -/
def Has (t b n : Nat) (S : Borrows) : Prop :=
  Fresh S ∧ (∀ o, o < n → Base t (S.items b o)) ∧ ∀ o, n ≤ o → S.items b o = []

theorem _root_.Verif.Spec.Fresh.start : Fresh Borrows.start := fun _ _ _ h => by cases h

theorem _root_.Verif.Spec.Fresh.access {S S' : Borrows} (h : Fresh S) {t b o n : Nat} {a : Access}
    (e : S.access t a (.loc b o) n = .ok S') : Fresh S' := by
  obtain ⟨S1, e1, hn, _⟩ := each_ok _ b n o S (each_some e)
  unfold Borrows.access at e
  rw [e] at e1
  cases e1
  have := each_tags (P := fun i => i.tag < S.next) (Q := fun _ _ => True)
    (fun _ _ s s' _ hs hf i hi => by
      obtain ⟨j, hj, ht⟩ := touch_tags hf i hi
      exact ht ▸ hs j hj) (fun _ _ _ => trivial) h e
  intro b o i hi
  rw [hn]
  exact this b o i hi

theorem Has.access {t b n : Nat} {S : Borrows} (h : Has t b n S) (a : Access) {o k : Nat}
    (hk : o + k ≤ n) : ∃ S' : Borrows, S.access t a (.loc b o) k = .ok S' ∧ Has t b n S' ∧
      ∀ b', b' ≠ b → S'.items b' = S.items b' := by
  obtain ⟨S', e, hn, hi⟩ := each_ok (touch t a) b k o S fun j h1 h2 => by
    obtain ⟨s, hs, _⟩ := (h.2.1 j (by omega)).touch a
    simp [hs]
  refine ⟨S', e, ⟨h.1.access e, ?_, fun j hj => by rw [hi, if_neg (by omega)]; exact h.2.2 j hj⟩, ?_⟩
  · intro j hj
    rw [hi]
    split_ifs
    · obtain ⟨s, hs, hb⟩ := (h.2.1 j hj).touch a
      simpa [hs] using hb
    · exact h.2.1 j hj
  · intro b' hb
    funext j
    rw [hi, if_neg (by simp [hb])]

/-- Another block keeps its permissions. -/
theorem Has.frame {t b n b' : Nat} {S S' : Borrows} (h : Has t b n S) (hS : Fresh S')
    (hi : ∀ c, c ≠ b' → S'.items c = S.items c) (hb : b ≠ b') : Has t b n S' :=
  ⟨hS, fun o ho => by rw [hi b hb]; exact h.2.1 o ho, fun o ho => by rw [hi b hb]; exact h.2.2 o ho⟩

theorem Has.tag_lt {t b n f : Nat} {S : Borrows} (h : Has t b n S) (hn : f < n) : t < S.next := by
  obtain ⟨pre, hp, _⟩ := h.2.1 f hn
  exact h.1 b f ⟨.unique, t⟩ (by rw [hp]; simp)

theorem Has.allocate (S : Borrows) (hS : Fresh S) (b n : Nat) :
    Has (S.allocate (.loc b 0) n).1 b n (S.allocate (.loc b 0) n).2 ∧
      ∀ c, c ≠ b → (S.allocate (.loc b 0) n).2.items c = S.items c := by
  refine ⟨⟨?_, ?_, fun o ho => by simp [Borrows.allocate, Nat.not_lt.2 ho]⟩, ?_⟩
  · intro c o i hi
    simp only [Borrows.allocate] at hi ⊢
    by_cases hc : c = b
    · subst hc
      simp only [Function.update_self] at hi
      split_ifs at hi
      · simp only [List.mem_singleton] at hi
        subst hi
        simp
      · cases hi
    · simp only [Function.update_of_ne hc] at hi
      exact Nat.lt_succ_of_lt (hS c o i hi)
  · intro o ho
    simp only [Borrows.allocate, Function.update_self, if_pos ho]
    exact ⟨[], rfl, by simp⟩
  · intro c hc
    simp [Borrows.allocate, hc]

theorem Has.free {t b n : Nat} {S : Borrows} (h : Has t b n S) :
    ∃ S' : Borrows, S.free t (.loc b 0) n = .ok S' ∧ Fresh S' ∧
      ∀ c, c ≠ b → S'.items c = S.items c := by
  obtain ⟨S1, e, h1, hi⟩ := h.access .write (o := 0) (k := n) (by omega)
  refine ⟨{ S1 with items := Function.update S1.items b fun _ => [] }, by simp [Borrows.free, e], ?_, ?_⟩
  · intro c o i hm
    by_cases hc : c = b
    · subst hc
      simp at hm
    · simp only [Function.update_of_ne hc] at hm
      exact h1.1 c o i hm
  · intro c hc
    simp [hc, hi c hc]

/-! ## Slices -/

/-- Other items for a cell. -/
def putFirst (S : Borrows) (b f : Nat) (s : List Item) (next : Nat) : Borrows :=
  { items := Function.update S.items b (Function.update (S.items b) f s), next := next }

@[simp] theorem putFirst_next (S : Borrows) (b f : Nat) (s : List Item) (next : Nat) :
    (putFirst S b f s next).next = next := rfl

@[simp] theorem putFirst_items (S : Borrows) (b f : Nat) (s : List Item) (next : Nat) :
    (putFirst S b f s next).items b f = s := by simp [putFirst]

theorem reborrow_first {S : Borrows} {k : Reborrow} {t b f : Nat} {s : List Item}
    (h : derive k t S.next (S.items b f) = some s) :
    S.reborrow k t (.loc b f) 1 = .ok (S.next, putFirst S b f s (S.next + 1)) := by
  simp [Borrows.reborrow, Borrows.each, Borrows.at', h, putFirst]

theorem Has.set_first {t b n f : Nat} {S : Borrows} (h : Has t b n S) (hfn : f < n) {s : List Item} {next : Nat}
    (hs : Base t s) (hf : ∀ i ∈ s, i.tag < next) (hn : S.next ≤ next) :
    Has t b n (putFirst S b f s next) := by
  refine ⟨?_, ?_, fun o ho => by
    simp only [putFirst, Function.update_self]
    rw [Function.update_of_ne (by omega)]
    exact h.2.2 o ho⟩
  · intro c o i hi
    unfold putFirst at hi ⊢
    by_cases hc : c = b
    · subst hc
      simp only [Function.update_self] at hi
      by_cases ho : o = f
      · subst ho
        simp only [Function.update_self] at hi
        exact hf i hi
      · rw [Function.update_of_ne ho] at hi
        exact Nat.lt_of_lt_of_le (h.1 c o i hi) hn
    · simp only [Function.update_of_ne hc] at hi
      exact Nat.lt_of_lt_of_le (h.1 c o i hi) hn
  · intro o ho
    simp only [putFirst, Function.update_self]
    by_cases h0 : o = f
    · subst h0
      simpa using hs
    · rw [Function.update_of_ne h0]
      exact h.2.1 o ho

theorem Base.push {t : Nat} {s : List Item} (h : Base t s) {i : Item} (hi : i.tag ≠ t) :
    Base t (i :: s) := by
  obtain ⟨pre, rfl, hp⟩ := h
  exact ⟨i :: pre, rfl, by simpa [hi] using hp⟩

theorem Base.write {t : Nat} {s : List Item} (h : Base t s) :
    Spec.touch t .write s = some [⟨.unique, t⟩] := by
  obtain ⟨pre, rfl, hp⟩ := h
  simp [Spec.touch, splitAt_base pre hp, sharing]

/-- The items a pointer with a new tag is added to belong to older pointers. -/
theorem derive_base {k : Reborrow} {old new : Nat} {s s' : List Item} (e : derive k old new s = some s')
    (hf : ∀ i ∈ s, i.tag < new) : ∀ i ∈ s', i.tag < new + 1 := by
  intro i hi
  rcases derive_tags e i hi with h | ⟨j, hj, h⟩
  · omega
  · have := hf j hj
    omega

/-- A pointer that may use a cell as it likes. -/
def TopOf (a : Access) (s b f : Nat) (S : Borrows) : Prop := touch s a (S.items b f) = some (S.items b f)

theorem TopOf.access {a : Access} {s b f : Nat} {S : Borrows} (h : TopOf a s b f S) :
    ∃ S' : Borrows, S.access s a (.loc b f) 1 = .ok S' ∧ S' = S := by
  refine ⟨S, ?_, rfl⟩
  simp [Borrows.access, Borrows.each, Borrows.at', show touch s a (S.items b f) = _ from h]

/-- Three derivations for one cell, the last one perhaps for no cell. -/
theorem three_ok {k1 k2 k3 : Reborrow} {t b n f : Nat} {S : Borrows} (h : Has t b n S) (hn : f < n)
    {s1 s2 s3 : List Item} (h1 : derive k1 t S.next (S.items b f) = some s1)
    (h2 : derive k2 S.next (S.next + 1) s1 = some s2)
    (h3 : derive k3 (S.next + 1) (S.next + 2) s2 = some s3)
    (b1 : Base t s1) (b2 : Base t s2) (b3 : Base t s3) {k : Nat} (hk : k ≤ 1) :
    ∃ (s : Nat) (S' : Borrows), (do
      let (r, S) ← S.reborrow k1 t (.loc b f) 1
      let (w, S) ← S.reborrow k2 r (.loc b f) 1
      S.reborrow k3 w (.loc b f) k : Exec (Nat × Borrows)) = .ok (s, S') ∧ Has t b n S' ∧
      (k = 1 → s = S.next + 2 ∧ S'.items b f = s3) := by
  have f1 := derive_base h1 (h.1 b f)
  have f2 := derive_base h2 f1
  have f3 := derive_base h3 f2
  have H1 := h.set_first (f := f) hn b1 f1 (by omega)
  have H2 := H1.set_first (f := f) hn b2 f2 (by simp)
  have H3 := H2.set_first (f := f) hn b3 f3 (by simp)
  have e1 := reborrow_first h1
  have e2 := reborrow_first (S := putFirst S b f s1 (S.next + 1)) (b := b) (f := f) (k := k2) (t := S.next)
    (by simpa using h2)
  rw [putFirst_next] at e2
  have e3 := reborrow_first (S := putFirst (putFirst S b f s1 (S.next + 1)) b f s2 (S.next + 1 + 1))
    (b := b) (f := f) (k := k3) (t := S.next + 1) (by simpa using h3)
  rw [putFirst_next] at e3
  rcases Nat.le_one_iff_eq_zero_or_eq_one.1 hk with rfl | rfl
  · refine ⟨S.next + 2, { putFirst (putFirst S b f s1 (S.next + 1)) b f s2 (S.next + 1 + 1) with next := S.next + 3 },
      ?_, ⟨?_, H2.2⟩, by simp⟩
    · simp only [e1, Exec.ok_bind, e2]
      rfl
    · intro c o i hi
      exact Nat.lt_succ_of_lt (H2.1 c o i hi)
  · refine ⟨S.next + 2, _, ?_, H3, fun _ => ⟨rfl, by simp⟩⟩
    simp only [e1, Exec.ok_bind, e2]
    exact e3

theorem Has.sliceMut {t b n f : Nat} {S : Borrows} (h : Has t b n S) (hn : f < n) {k : Nat}
    (hk : k ≤ 1) : ∃ (s : Nat) (S' : Borrows), stackedBorrows.sliceMut S t (.loc b f) k = .ok (s, S') ∧ Has t b n S' ∧
      (k = 1 → TopOf .write s b f S') := by
  have ht := h.tag_lt (f := f) hn
  have b0 : Base t [⟨.unique, t⟩] := ⟨[], rfl, by simp⟩
  have b1 := b0.push (i := ⟨.unique, S.next⟩) (by simp; omega)
  have b2 := b1.push (i := ⟨.sharedRW, S.next + 1⟩) (by simp; omega)
  have b3 := b2.push (i := ⟨.unique, S.next + 2⟩) (by simp; omega)
  obtain ⟨s, S', e, H, hs⟩ := three_ok (k1 := .mutable) (k2 := .raw) (k3 := .mutable) h hn
    (s1 := [⟨.unique, S.next⟩, ⟨.unique, t⟩])
    (s2 := [⟨.sharedRW, S.next + 1⟩, ⟨.unique, S.next⟩, ⟨.unique, t⟩])
    (s3 := [⟨.unique, S.next + 2⟩, ⟨.sharedRW, S.next + 1⟩, ⟨.unique, S.next⟩, ⟨.unique, t⟩])
    (by simp [derive, (h.2.1 f hn).write])
    (by simp [derive, splitAt, Item.allows, sharing])
    (by simp [derive, touch, splitAt, Item.allows, sharing]) b1 b2 b3 hk
  refine ⟨s, S', e, H, fun hk => ?_⟩
  obtain ⟨rfl, hi⟩ := hs hk
  simp [TopOf, hi, touch, splitAt, Item.allows, sharing]

theorem Has.slice {t b n f : Nat} {S : Borrows} (h : Has t b n S) (hn : f < n) {k : Nat}
    (hk : k ≤ 1) : ∃ (s : Nat) (S' : Borrows), stackedBorrows.slice S t (.loc b f) k = .ok (s, S') ∧ Has t b n S' ∧
      (k = 1 → TopOf .read s b f S') := by
  have ht := h.tag_lt (f := f) hn
  obtain ⟨u, hu, b0⟩ := (h.2.1 f hn).touch .read
  have b1 := b0.push (i := ⟨.sharedRO, S.next⟩) (by simp; omega)
  have b2 := b1.push (i := ⟨.sharedRO, S.next + 1⟩) (by simp; omega)
  have b3 := b2.push (i := ⟨.sharedRO, S.next + 2⟩) (by simp; omega)
  obtain ⟨s, S', e, H, hs⟩ := three_ok (k1 := .shared) (k2 := .shared) (k3 := .shared) h hn
    (s1 := ⟨.sharedRO, S.next⟩ :: u)
    (s2 := ⟨.sharedRO, S.next + 1⟩ :: ⟨.sharedRO, S.next⟩ :: u)
    (s3 := ⟨.sharedRO, S.next + 2⟩ :: ⟨.sharedRO, S.next + 1⟩ :: ⟨.sharedRO, S.next⟩ :: u)
    (by simp [derive, hu])
    (by simp [derive, touch, splitAt, Item.allows])
    (by simp [derive, touch, splitAt, Item.allows]) b1 b2 b3 hk
  refine ⟨s, S', e, H, fun hk => ?_⟩
  obtain ⟨rfl, hi⟩ := hs hk
  simp [TopOf, hi, touch, splitAt, Item.allows]

/-- Access through the slice to a part of it. -/
theorem TopOf.part {a : Access} {t s b n f : Nat} {S : Borrows} (H : Has t b n S) {k o j : Nat} (hk : k ≤ 1)
    (h : k = 1 → TopOf a s b f S) (hj : o + j ≤ f + k) (ho : f ≤ o) :
    ∃ S' : Borrows, S.access s a (.loc b o) j = .ok S' ∧ Has t b n S' := by
  rcases Nat.eq_zero_or_pos j with rfl | hp
  · exact ⟨S, rfl, H⟩
  · obtain rfl : o = f := by omega
    obtain rfl : j = 1 := by omega
    obtain ⟨S', e, rfl⟩ := (h (by omega)).access
    exact ⟨_, e, H⟩

theorem Has.sliceMut_end {t b n : Nat} {S : Borrows} (h : Has t b n S) (k : Nat) :
    stackedBorrows.sliceMut S t (.loc b n) k = .error .ub := by
  have hi : S.items b n = [] := h.2.2 n (Nat.le_refl n)
  simp [Rules.sliceMut, stackedBorrows, Borrows.reborrow, Borrows.each, Borrows.at', hi, derive,
    Spec.touch, splitAt]

/-- Stacked Borrows: slices of at most one element may be used. -/
def stackedLaw : stackedBorrows.Law fun n => n ≤ 1 where
  Good := Fresh
  Has := Has
  Same b S S' := ∀ c, c ≠ b → S'.items c = S.items c
  good h := h.1
  frame h hS hi hb := h.frame hS hi hb
  access h a _ _ hk := h.access a hk
  allocate {S} hS b n := Has.allocate S hS b n
  free h := h.free
  sliceMut h hf k hk _ := by
    obtain ⟨s, S', e, H, ht⟩ := h.sliceMut hf (k := k) (by simpa using hk)
    exact ⟨s, S', e, H, fun o j ho hj => TopOf.part H (by simpa using hk) ht hj ho⟩
  slice h hf k hk _ := by
    obtain ⟨s, S', e, H, ht⟩ := h.slice hf (k := k) (by simpa using hk)
    exact ⟨s, S', e, H, fun o j ho hj => TopOf.part H (by simpa using hk) ht hj ho⟩
  sliceMut_wide hS t p n hn := Verif.sliceMut_wide hS t p (Nat.lt_of_not_le (of_decide_eq_false hn))
  slice_wide hS t p n hn := Verif.slice_wide hS t p (Nat.lt_of_not_le (of_decide_eq_false hn))
  sliceMut_end h k := h.sliceMut_end k
  none := rfl

end Verif
