import Verif.Nested.Kinds
import Verif.Props.LinkedList

/-! The models of vectors, deques and lists as containers of anything. -/

set_option autoImplicit false

namespace Verif
open Spec

variable {H σ : Type}

/-- A vector over memory with the blocks `w`. -/
def VecOuterInv (R : RawAlloc H) (w : World H) (s : (vecOuter R).σ) (st : List H) : Prop :=
  ∃ cap, VInv (fun _ => False) defaultFits w s.2 s.1 st cap

theorem _root_.Verif.Spec.SeqOp.owned_eq (op : SeqOp H) {xs ys : List H} {r : Out H}
    (h : op.step xs = .ok (r, ys)) : op.owned r = r.movedOut := by
  have key : ∀ x : Option H, x.toList = (Out.elem x).movedOut := by
    intro x; cases x <;> rfl
  cases op <;> simp only [SeqOp.step] at h <;> (try split_ifs at h) <;> cases h <;>
    first | rfl | exact key _

theorem vecOuter_law (R : RawAlloc H) (w : World H) :
    OuterLaw (vecOuter R) SeqOp.single (fun _ => VecOuterInv R w) (fun s => s.2.live = w) where
  mono := id
  step := by
    intro n s st op hok h
    obtain ⟨v, m⟩ := s
    obtain ⟨cap, h⟩ := h
    replace h : VInv (fun _ => False) defaultFits w m v (st : List H) cap := h
    have hsl : op.isSlice = false := by
      revert hok; cases op <;> simp [SeqOp.single, SeqOp.isSlice]
    have hr := h.step (defaultAllocator_lawful R) true op (fun _ => hsl)
    have hk : Kind.vector.step op st = SeqOp.step op st := rfl
    rw [hk]
    cases hs : SeqOp.step op st with
    | error e => rw [hs] at hr; simp only at hr; simp [vecOuter, hr]
    | ok q =>
      obtain ⟨r, ys⟩ := q
      rw [hs] at hr
      obtain ⟨v', m', ds, na, nc, e1, e2, e3, e4⟩ := hr
      refine ⟨(v', m'), ds, by simp [vecOuter, e1], ⟨_, e2⟩, e3.dropped, ?_⟩
      have h1 : (SeqOp.arg op).toList = op.movedIn := by cases op <;> rfl
      have h2 : SeqOp.owned op r = r.movedOut := SeqOp.owned_eq op hs
      have h3 := e4 rfl
      unfold Accounts at h3
      rw [← h1, ← h2] at h3
      exact h3
  get := by
    intro n s st p h
    obtain ⟨v, m⟩ := s
    obtain ⟨cap, h⟩ := h
    replace h : VInv (fun _ => False) defaultFits w m v (st : List H) cap := h
    simp only [vecOuter, h.slice]
    rfl
  put := by
    intro n s st p x y h hy
    obtain ⟨v, m⟩ := s
    obtain ⟨cap, h⟩ := h
    replace h : VInv (fun _ => False) defaultFits w m v (st : List H) cap := h
    let i : Nat := p
    let xs : List H := st
    obtain ⟨hi, _⟩ := List.getElem?_eq_some_iff.1 (show xs[i]? = some y from hy)
    obtain ⟨hk, w1, hw, hn | ⟨b, blk, hb⟩⟩ := h
    · have hxs : xs = [] := hn.nil
      rw [hxs] at hi
      simp at hi
    obtain ⟨m', e1, e2, e3⟩ := VInvB.setAt (b := b) (blk := blk) false x hi ⟨hk, w1, hw, hb⟩
    have e1' : v.setAt false p x m = .ok m' := e1
    exact ⟨(v, m'), by simp [vecOuter, e1'], ⟨cap, e2.inv⟩, by have := e3.dropped; simp at this; exact this⟩
  drop := by
    intro n s st h
    obtain ⟨v, m⟩ := s
    obtain ⟨cap, h⟩ := h
    replace h : VInv (fun _ => False) defaultFits w m v (st : List H) cap := h
    obtain ⟨m', e1, _, e2, _, _, e3⟩ := h.clear (defaultAllocator_lawful R) true
    exact ⟨(Vec.new, m'), st, by simp [vecOuter, e1, Vec.new], by have := e3.dropped; simp at this; exact this, .refl _,
      funext fun b => e2 b (by simp)⟩

/-- A deque over memory `m0`. -/
def DequeOuterInv (E : DEnv H) (m0 : DMem H) (s : (dequeOuter E).σ) (st : List H) : Prop :=
  DInv E m0 s.2 s.1 st

theorem DInv.nd {E : DEnv H} {m0 m : DMem H} {d : Deque} {xs : List H} (b : Bool) :
    DInv { E with nd := b } m0 m d xs ↔ DInv E m0 m d xs := by
  constructor
  · rintro ⟨pb, lo, bo, bl, h⟩
    exact ⟨pb, lo, bo, bl, ⟨h.t, h.p, h.ptrs, h.b_lt, h.b, h.e, h.len, h.vals⟩⟩
  · rintro ⟨pb, lo, bo, bl, h⟩
    exact ⟨pb, lo, bo, bl, ⟨h.t, h.p, h.ptrs, h.b_lt, h.b, h.e, h.len, h.vals⟩⟩

theorem _root_.Verif.Spec.DeqOp.owned_perm (op : DeqOp H) (xs : List H) :
    (op.arg.toList ++ xs).Perm (op.owned (op.step xs).1 ++ op.overwritten xs ++ (op.step xs).2) := by
  classical
  cases op with
  | setFront x =>
    cases xs with
    | nil => simp [DeqOp.arg, DeqOp.owned, DeqOp.step, DeqOp.overwritten]
    | cons a xs => simpa [DeqOp.arg, DeqOp.owned, DeqOp.step, DeqOp.overwritten] using .swap a x xs
  | setBack x =>
    rcases List.eq_nil_or_concat xs with rfl | ⟨xs, a, rfl⟩
    · simp [DeqOp.arg, DeqOp.owned, DeqOp.step, DeqOp.overwritten]
    · rw [List.perm_iff_count]
      intro b
      simp [DeqOp.arg, DeqOp.owned, DeqOp.step, DeqOp.overwritten, List.count_cons]
      omega
  | pushBack x => simpa [DeqOp.arg, DeqOp.owned, DeqOp.step, DeqOp.overwritten] using
      (List.perm_append_singleton x xs).symm
  | popBack =>
    rcases List.eq_nil_or_concat xs with rfl | ⟨xs, a, rfl⟩ <;>
      simp [DeqOp.arg, DeqOp.owned, DeqOp.step, DeqOp.overwritten]
  | popFront => cases xs <;> simp [DeqOp.arg, DeqOp.owned, DeqOp.step, DeqOp.overwritten]
  | remove i =>
    by_cases hi : i < xs.length
    · simpa [DeqOp.arg, DeqOp.owned, DeqOp.step, DeqOp.overwritten, hi] using take_drop_perm xs i hi
    · simp [DeqOp.arg, DeqOp.owned, DeqOp.step, DeqOp.overwritten, hi,
        List.take_of_length_le (Nat.le_of_not_lt hi), List.drop_of_length_le (show xs.length ≤ i + 1 by omega)]
  | _ => simp [DeqOp.arg, DeqOp.owned, DeqOp.step, DeqOp.overwritten]

theorem dequeOuter_law (E : DEnv H) (m0 : DMem H) :
    OuterLaw (dequeOuter E) (fun _ => true) (fun _ => DequeOuterInv E m0)
      (fun s => s.2.p.live = m0.p.live ∧
        ∃ B, TRep E.S m0.t.live s.2.t [B]) where
  mono := id
  step := by
    intro n s st op _ h
    obtain ⟨d, m⟩ := s
    obtain ⟨d', m', e1, e2, e3⟩ := ((DInv.nd true).2 h).step op
    exact ⟨(d', m'), op.overwritten st, by simp only [dequeOuter, e1, Exec.ok_bind]; rfl, (DInv.nd true).1 e2,
      by simp at e3; exact e3, DeqOp.owned_perm op st⟩
  get := by
    intro n s st p h
    obtain ⟨d, m⟩ := s
    cases p with
    | front =>
      obtain ⟨d', m', e1, _, _⟩ := ((DInv.nd true).2 h).step .front
      simp only [dequeOuter, e1, Exec.ok_bind]
      rfl
    | back =>
      obtain ⟨d', m', e1, _, _⟩ := ((DInv.nd true).2 h).step .back
      simp only [dequeOuter, e1, Exec.ok_bind]
      rfl
  put := by
    intro n s st p x y h _
    obtain ⟨d, m⟩ := s
    cases p with
    | front =>
      obtain ⟨d', m', e1, e2, e3⟩ := ((DInv.nd false).2 h).step (.setFront x)
      exact ⟨(d', m'), by simp only [dequeOuter, e1, Exec.ok_bind], (DInv.nd false).1 e2, by simp at e3; exact e3⟩
    | back =>
      obtain ⟨d', m', e1, e2, e3⟩ := ((DInv.nd false).2 h).step (.setBack x)
      exact ⟨(d', m'), by simp only [dequeOuter, e1, Exec.ok_bind], (DInv.nd false).1 e2, by simp at e3; exact e3⟩
  drop := by
    intro n s st h
    obtain ⟨d, m⟩ := s
    obtain ⟨pb, lo, bo, bl, h⟩ := (DInv.nd true).2 h
    obtain ⟨m', B, e1, e2, e3, e4⟩ := h.drop
    exact ⟨(d, m'), st, by simp [dequeOuter, e1], by simp at e4; exact e4, .refl _, e3, B, e2⟩

/-- A list whose object is at `s0`, with this allocator state, over memory `m0`. -/
def ListOuterInv (E : LEnv H σ) (Inv : σ → LMem H → List Nat → Prop) (s0 : Nat) (m0 : LMem H)
    (s : (listOuter E).σ) (st : List H) : Prop :=
  ∃ ps, LRep Inv s.2 s.1 ps st ∧ s.1.head = s0 ∧ LKeep s0 [] m0 ps s.2

theorem _root_.Verif.Spec.ListOp.owned_perm (op : ListOp H) (hop : op.single = true) (xs : List H) :
    (op.arg.toList ++ xs).Perm (op.owned (op.step xs).1 ++ op.discarded xs ++ (op.step xs).2) := by
  classical
  cases op with
  | setFront x =>
    cases xs with
    | nil => simp [ListOp.arg, ListOp.owned, ListOp.step, ListOp.discarded]
    | cons a xs => simpa [ListOp.arg, ListOp.owned, ListOp.step, ListOp.discarded] using .swap a x xs
  | setBack x =>
    rcases List.eq_nil_or_concat xs with rfl | ⟨xs, a, rfl⟩
    · simp [ListOp.arg, ListOp.owned, ListOp.step, ListOp.discarded]
    · rw [List.perm_iff_count]
      intro b
      simp [ListOp.arg, ListOp.owned, ListOp.step, ListOp.discarded, List.count_cons]
      omega
  | pushBack x => simpa [ListOp.arg, ListOp.owned, ListOp.step, ListOp.discarded] using
      (List.perm_append_singleton x xs).symm
  | popBack =>
    rcases List.eq_nil_or_concat xs with rfl | ⟨xs, a, rfl⟩ <;>
      simp [ListOp.arg, ListOp.owned, ListOp.step, ListOp.discarded]
  | popFront => cases xs <;> simp [ListOp.arg, ListOp.owned, ListOp.step, ListOp.discarded]
  | extend ys => cases hop
  | _ => simp [ListOp.arg, ListOp.owned, ListOp.step, ListOp.discarded]

theorem listOuter_law {E : LEnv H σ} {Inv : σ → LMem H → List Nat → Prop} (L : LLaw E Inv)
    (s0 : Nat) (m0 : LMem H) :
    OuterLaw (listOuter E) ListOp.single (fun _ => ListOuterInv E Inv s0 m0)
      (fun s => (∃ a, Inv a s.2 []) ∧ LKeep s0 [] m0 [] s.2) where
  mono := id
  step := by
    intro n s st op hop h
    obtain ⟨l, m⟩ := s
    obtain ⟨ps, h, rfl, hk⟩ := h
    have L' : LLaw { E with nd := true } Inv := L
    obtain ⟨l', m', ps', e1, e2, e3, e4, e5, _⟩ := h.step L' op
    exact ⟨(l', m'), op.discarded st, by simp only [listOuter, e1, Exec.ok_bind]; rfl,
      ⟨ps', e4, e2, hk.trans e5⟩, by simp at e3; exact e3, ListOp.owned_perm op hop st⟩
  get := by
    intro n s st p h
    obtain ⟨l, m⟩ := s
    obtain ⟨ps, h, rfl, hk⟩ := h
    have L' : LLaw { E with nd := true } Inv := L
    cases p with
    | front =>
      obtain ⟨l', m', ps', e1, _⟩ := h.step L' .front
      simp only [listOuter, e1, Exec.ok_bind]
      rfl
    | back =>
      obtain ⟨l', m', ps', e1, _⟩ := h.step L' .back
      simp only [listOuter, e1, Exec.ok_bind]
      rfl
  put := by
    intro n s st p x y h _
    obtain ⟨l, m⟩ := s
    obtain ⟨ps, h, rfl, hk⟩ := h
    have L' : LLaw { E with nd := false } Inv := L
    cases p with
    | front =>
      obtain ⟨l', m', ps', e1, e2, e3, e4, e5, _⟩ := h.step L' (.setFront x)
      exact ⟨(l', m'), by simp only [listOuter, e1, Exec.ok_bind], ⟨ps', e4, e2, hk.trans e5⟩,
        by simp at e3; exact e3⟩
    | back =>
      obtain ⟨l', m', ps', e1, e2, e3, e4, e5, _⟩ := h.step L' (.setBack x)
      exact ⟨(l', m'), by simp only [listOuter, e1, Exec.ok_bind], ⟨ps', e4, e2, hk.trans e5⟩,
        by simp at e3; exact e3⟩
  drop := by
    intro n s st h
    obtain ⟨l, m⟩ := s
    obtain ⟨ps, h, rfl, hk⟩ := h
    have L' : LLaw { E with nd := true } Inv := L
    obtain ⟨l', m', e1, e2, e3, e4, e5⟩ := h.clear L'
    exact ⟨(l, m'), st, by simp [listOuter, LList.drop, e1], by simp at e3; exact e3, .refl _,
      ⟨_, e4.inv⟩, hk.trans e5⟩

end Verif
