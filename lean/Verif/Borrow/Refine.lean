import Verif.Borrow.Steps
import Verif.Vector.Iter

/-! Histories of the vector with provenance. -/

set_option autoImplicit false

namespace Verif
open Spec

variable {α P : Type} {K : Rules P} {fine : Nat → Bool} {L : K.Law fine} {R : RawAlloc α} {w : World α}
  {S : P} {m : Mem α} {v : Vec} {t : Nat}
  {xs : List α} {cap : Nat}

/-- One call. -/
theorem Owned.step (nd : Bool) (op : SeqOp α) (hop : nd = true → op.isSlice = false)
    (h : VInv (fun _ => False) defaultFits w m v xs cap) (H : Owned L S m v t) :
    if fine (op.viewed xs) = false then TVec.step K (defaultAllocator R) nd op ⟨v, t⟩ ⟨m, S⟩ = .error .ub
    else match op.step xs with
    | .error e => TVec.step K (defaultAllocator R) nd op ⟨v, t⟩ ⟨m, S⟩ = .error e
    | .ok (o, ys) => ∃ v' m' t' S' cap',
        TVec.step K (defaultAllocator R) nd op ⟨v, t⟩ ⟨m, S⟩ = .ok (o, ⟨v', t'⟩, ⟨m', S'⟩) ∧
        VInv (fun _ => False) defaultFits w m' v' ys cap' ∧ Owned L S' m' v' t' := by
  have hs := h.step (defaultAllocator_lawful R) nd op hop
  have hl := h.len
  cases op with
  | push x =>
    rw [if_neg (by simp [SeqOp.viewed, L.none])]
    simp only [SeqOp.step] at hs ⊢
    obtain ⟨v', m', _, _, _, he, hi, _⟩ := hs
    simp only [Vec.step] at he
    obtain ⟨⟨v1, m1⟩, e1, e2⟩ := bind_inv he
    cases e2
    obtain ⟨t', S', e, H'⟩ := H.push e1
    exact ⟨_, _, t', S', _, by simp [TVec.step, e], hi, H'⟩
  | pop =>
    rw [if_neg (by simp [SeqOp.viewed, L.none])]
    simp only [SeqOp.step] at hs ⊢
    obtain ⟨v', m', _, _, _, he, hi, _⟩ := hs
    simp only [Vec.step] at he
    obtain ⟨⟨o, v1⟩, e1, e2⟩ := bind_inv he
    simp only [Except.ok.injEq, Prod.mk.injEq, Out.elem.injEq] at e2
    obtain ⟨rfl, rfl, rfl⟩ := e2
    obtain ⟨S', e, H'⟩ := H.pop e1
    exact ⟨_, _, t, S', _, by simp [TVec.step, e], hi, H'⟩
  | insert i x =>
    rw [if_neg (by simp [SeqOp.viewed, L.none])]
    simp only [SeqOp.step] at hs ⊢
    by_cases hi : i ≤ xs.length
    · rw [if_pos hi] at hs ⊢
      obtain ⟨v', m', _, _, _, he, hi, _⟩ := hs
      simp only [Vec.step] at he
      obtain ⟨⟨v1, m1⟩, e1, e2⟩ := bind_inv he
      cases e2
      obtain ⟨t', S', e, H'⟩ := H.insert e1
      exact ⟨_, _, t', S', _, by simp [TVec.step, e], hi, H'⟩
    · rw [if_neg hi]
      simp [TVec.step, TVec.insert, hl, hi]
  | remove i =>
    rw [if_neg (by simp [SeqOp.viewed, L.none])]
    simp only [SeqOp.step] at hs ⊢
    obtain ⟨v', m', _, _, _, he, hi, _⟩ := hs
    simp only [Vec.step] at he
    obtain ⟨⟨o, v1, m1⟩, e1, e2⟩ := bind_inv he
    simp only [Except.ok.injEq, Prod.mk.injEq, Out.elem.injEq] at e2
    obtain ⟨rfl, rfl, rfl⟩ := e2
    obtain ⟨S', e, H'⟩ := H.remove e1
    exact ⟨_, _, t, S', _, by simp [TVec.step, e], hi, H'⟩
  | set i x =>
    by_cases hw : fine xs.length = false
    · rw [if_pos (by simpa [SeqOp.viewed] using hw)]
      simp [TVec.step, H.setAt_wide hl hw]
    · rw [if_neg (by simpa [SeqOp.viewed] using hw)]
      simp only [SeqOp.step] at hs ⊢
      by_cases hi : i < xs.length
      · rw [if_pos hi] at hs ⊢
        obtain ⟨v', m', _, _, _, he, hi, _⟩ := hs
        simp only [Vec.step] at he
        obtain ⟨m1, e1, e2⟩ := bind_inv he
        cases e2
        obtain ⟨S', e, H'⟩ := H.setAt hl (by simpa using hw) e1
        exact ⟨_, _, t, S', _, by simp [TVec.step, e], hi, H'⟩
      · rw [if_neg hi]
        simp [TVec.step, H.setAt_panic hl (by simpa using hw) hi]
  | reserve n =>
    rw [if_neg (by simp [SeqOp.viewed, L.none])]
    simp only [SeqOp.step] at hs ⊢
    obtain ⟨v', m', _, _, _, he, hi, _⟩ := hs
    simp only [Vec.step] at he
    obtain ⟨⟨v1, m1⟩, e1, e2⟩ := bind_inv he
    cases e2
    obtain ⟨t', S', e, H'⟩ := H.reserve e1
    exact ⟨_, _, t', S', _, by simp [TVec.step, e], hi, H'⟩
  | append buf =>
    simp only [SeqOp.step] at hs ⊢
    obtain ⟨v', m', _, _, _, he, hi, _⟩ := hs
    simp only [Vec.step] at he
    obtain ⟨⟨v1, m1⟩, e1, e2⟩ := bind_inv he
    cases e2
    have hh := H.append e1 hl (by rw [hi.len, List.length_append])
    by_cases hw : fine (xs.length + buf.length) = false
    · rw [if_pos hw] at hh
      rw [if_pos (by simpa [SeqOp.viewed] using hw)]
      simp [TVec.step, hh]
    · rw [if_neg hw] at hh
      rw [if_neg (by simpa [SeqOp.viewed] using hw)]
      obtain ⟨t', S', e, H'⟩ := hh
      exact ⟨_, _, t', S', _, by simp [TVec.step, e], hi, H'⟩
  | assign buf =>
    simp only [SeqOp.step] at hs ⊢
    obtain ⟨v', m', _, _, _, he, hi, _⟩ := hs
    simp only [Vec.step] at he
    obtain ⟨⟨v1, m1⟩, e1, e2⟩ := bind_inv he
    cases e2
    have hh := H.assign e1 hi.len
    by_cases hw : fine buf.length = false
    · rw [if_pos hw] at hh
      rw [if_pos (by simpa [SeqOp.viewed] using hw)]
      simp [TVec.step, hh]
    · rw [if_neg hw] at hh
      rw [if_neg (by simpa [SeqOp.viewed] using hw)]
      obtain ⟨t', S', e, H'⟩ := hh
      exact ⟨_, _, t', S', _, by simp [TVec.step, e], hi, H'⟩
  | clear =>
    by_cases hw : fine xs.length = false
    · rw [if_pos (by simpa [SeqOp.viewed] using hw)]
      simp [TVec.step, H.clear_wide hl hw]
    · rw [if_neg (by simpa [SeqOp.viewed] using hw)]
      simp only [SeqOp.step] at hs ⊢
      obtain ⟨v', m', _, _, _, he, hi, _⟩ := hs
      simp only [Vec.step] at he
      obtain ⟨⟨v1, m1⟩, e1, e2⟩ := bind_inv he
      cases e2
      obtain ⟨t', S', e, H'⟩ := H.clear hl (by simpa using hw) e1
      exact ⟨_, _, t', S', _, by simp [TVec.step, e], hi, H'⟩
  | len =>
    rw [if_neg (by simp [SeqOp.viewed, L.none])]
    exact ⟨v, m, t, S, cap, by simp [TVec.step, hl], h, H⟩
  | isEmpty =>
    rw [if_neg (by simp [SeqOp.viewed, L.none])]
    refine ⟨v, m, t, S, cap, ?_, h, H⟩
    simp only [TVec.step, h.isEmpty, Exec.ok_bind]
    cases xs <;> simp
  | slice =>
    by_cases hw : fine xs.length = false
    · rw [if_pos (by simpa [SeqOp.viewed] using hw)]
      simp [TVec.step, H.asSlice_wide hl hw]
    · rw [if_neg (by simpa [SeqOp.viewed] using hw)]
      obtain ⟨S', e, H'⟩ := H.asSlice hl (by simpa using hw) h.slice
      exact ⟨v, m, t, S', cap, by simp [TVec.step, e], h, H'⟩

/-- Histories of calls. -/
theorem Owned.run (nd : Bool) (ops : List (SeqOp α)) :
    ∀ {m : Mem α} {v : Vec} {xs : List α} {cap : Nat} {S : P} {t : Nat},
    (nd = true → ∀ op ∈ ops, op.isSlice = false) →
    VInv (fun _ => False) defaultFits w m v xs cap → Owned L S m v t →
    match SeqOp.runViews fine ops xs with
    | .error e => TVec.run K (defaultAllocator R) nd ops ⟨v, t⟩ ⟨m, S⟩ = .error e
    | .ok (os, ys) => ∃ v' m' t' S' cap',
        TVec.run K (defaultAllocator R) nd ops ⟨v, t⟩ ⟨m, S⟩ = .ok (os, ⟨v', t'⟩, ⟨m', S'⟩) ∧
        VInv (fun _ => False) defaultFits w m' v' ys cap' ∧ Owned L S' m' v' t' := by
  induction ops with
  | nil =>
    intro m v xs cap S t _ h H
    exact ⟨v, m, t, S, cap, rfl, h, H⟩
  | cons op ops ih =>
    intro m v xs cap S t hops h H
    have h1 := H.step (R := R) nd op (fun hn => hops hn op (by simp)) h
    by_cases hw : fine (op.viewed xs) = false
    · rw [if_pos hw] at h1
      simp only [SeqOp.runViews, if_pos hw]
      simp [TVec.run, h1]
    rw [if_neg hw] at h1
    cases hs : op.step xs with
    | error e =>
      rw [hs] at h1
      simp only at h1
      simp [SeqOp.runViews, hw, hs, TVec.run, h1]
    | ok r =>
      obtain ⟨o, ys⟩ := r
      rw [hs] at h1
      obtain ⟨v1, m1, t1, S1, cap1, he1, hi1, H1⟩ := h1
      have h2 := ih (fun hn op' hop' => hops hn op' (by simp [hop'])) hi1 H1
      cases hr : SeqOp.runViews fine ops ys with
      | error e =>
        rw [hr] at h2
        simp only at h2
        simp [SeqOp.runViews, hw, hs, hr, TVec.run, he1, h2]
      | ok r =>
        obtain ⟨os, zs⟩ := r
        rw [hr] at h2
        obtain ⟨v2, m2, t2, S2, cap2, he2, hi2, H2⟩ := h2
        simp only [SeqOp.runViews, hw, hs, hr, if_false]
        exact ⟨v2, m2, t2, S2, cap2, by simp [TVec.run, he1, he2], hi2, H2⟩

theorem Owned.new (S : P) (hS : L.Good S) (m : Mem α) : Owned L S m Vec.new 0 :=
  ⟨hS, .inl ⟨rfl, rfl⟩⟩

/-! ## The iterator -/

/-- The iterator owns a block of `cap` cells, of which it will yield those from `f` on. -/
structure ItAt (L : K.Law fine) (w : World α) (m : Mem α) (S : P) (it : VIntoIter) (t b f cap : Nat)
    (ys : List α) : Prop where
  has : L.Has t b cap S
  ex : ∃ blk : Block α, w b = none ∧ m.live = Function.update w b (some blk) ∧ blk.region = .heap ∧
    blk.size = cap ∧ f + ys.length ≤ cap ∧ (∀ i, i < ys.length → blk.cells (f + i) = ys[i]?)
  ptrs : it = ⟨.loc b 0, .loc b cap, .loc b f, .loc b (f + ys.length)⟩

variable {it : VIntoIter} {b f : Nat} {ys : List α}

theorem ItAt.rep (h : ItAt L w m S it t b f cap ys) : ItRep w m it ys := by
  obtain ⟨blk, h1, h2, h3, h4, h5, h6⟩ := h.ex
  exact .inr ⟨b, blk, f, cap, h1, h2, h3, h4, h5, h6, h.ptrs⟩

theorem ItAt.next (h : ItAt L w m S it t b f cap ys) :
    ∃ it' S', TIntoIter.next K ⟨it, t⟩ ⟨m, S⟩ = .ok (ys.head?, ⟨it', t⟩, ⟨m, S'⟩) ∧
      ItAt L w m S' it' t b (f + if ys = [] then 0 else 1) cap ys.tail := by
  have hl := h.rep.len
  cases ys with
  | nil =>
    exact ⟨it, S, by simp [TIntoIter.next, hl], by simpa using h⟩
  | cons y ys =>
    obtain ⟨blk, h1, h2, h3, h4, h5, h6⟩ := h.ex
    obtain ⟨it', e, r⟩ := h.rep.next
    have hp := h.ptrs
    simp only [List.length_cons] at h5 hp
    obtain ⟨S', a1, a2, _⟩ := L.access h.has .read (o := f) (k := 1) (by omega)
    have hb : m.live b = some blk := by rw [h2]; simp
    have h0 : blk.cells f = some y := by simpa using h6 0 (by simp)
    refine ⟨⟨.loc b 0, .loc b cap, .loc b (f + 1), .loc b (f + (ys.length + 1))⟩, S', ?_, a2,
      ⟨blk, h1, h2, h3, h4, by simp; omega, ?_⟩, by simp; omega⟩
    · unfold TIntoIter.next
      simp only [hl]
      subst hp
      simp [a1, Mem.read_loc hb (show f < blk.size by omega) h0,
        Mem.ptrAdd_loc hb (show f + 1 ≤ blk.size by omega)]
    · intro i hi
      have := h6 (i + 1) (by simpa using hi)
      simpa [Nat.add_assoc, Nat.add_comm 1 i] using this

theorem ItAt.nextBack (h : ItAt L w m S it t b f cap ys) :
    ∃ it' S', TIntoIter.nextBack K ⟨it, t⟩ ⟨m, S⟩ = .ok (ys.getLast?, ⟨it', t⟩, ⟨m, S'⟩) ∧
      ItAt L w m S' it' t b f cap ys.dropLast := by
  have hl := h.rep.len
  rcases List.eq_nil_or_concat ys with hx | ⟨zs, y, hx⟩
  · subst hx
    exact ⟨it, S, by simp [TIntoIter.nextBack, hl], by simpa using h⟩
  · rw [List.concat_eq_append] at hx
    subst hx
    obtain ⟨blk, h1, h2, h3, h4, h5, h6⟩ := h.ex
    have hp := h.ptrs
    have hb : m.live b = some blk := by rw [h2]; simp
    simp only [List.length_append, List.length_cons, List.length_nil, Nat.zero_add] at h5 hp h6
    have h0 : blk.cells (f + zs.length) = some y := by simpa using h6 zs.length (by omega)
    obtain ⟨S', a1, a2, _⟩ := L.access h.has .read (o := f + zs.length) (k := 1) (by omega)
    refine ⟨⟨.loc b 0, .loc b cap, .loc b f, .loc b (f + zs.length)⟩, S', ?_, a2,
      ⟨blk, h1, h2, h3, h4, by simp; omega, ?_⟩, by simp⟩
    · unfold TIntoIter.nextBack
      simp only [hl]
      subst hp
      have h1 : f + (zs.length + 1) - 1 = f + zs.length := by omega
      simp [Mem.ptrSub_loc hb (show 1 ≤ f + (zs.length + 1) by omega), h1, a1,
        Mem.read_loc hb (show f + zs.length < blk.size by omega) h0]
    · intro i hi
      simp only [List.dropLast_concat] at hi
      rw [h6 i (by omega), List.dropLast_concat, List.getElem?_append_left hi]

theorem ItAt.run (ops : List IterOp) : ∀ {it : VIntoIter} {S : P} {f : Nat} {ys : List α},
    ItAt L w m S it t b f cap ys →
    ∃ it' S', TIntoIter.run K ops ⟨it, t⟩ ⟨m, S⟩ = .ok ((IterOp.run ops ys).1, ⟨it', t⟩, ⟨m, S'⟩) ∧
      ItAt L w m S' it' t b (f + IterOp.taken ops ys) cap (IterOp.run ops ys).2 := by
  induction ops with
  | nil => intro it S f ys h; exact ⟨it, S, rfl, h⟩
  | cons op ops ih =>
    intro it S f ys h
    cases op with
    | next =>
      obtain ⟨it1, S1, e1, r1⟩ := h.next
      obtain ⟨it2, S2, e2, r2⟩ := ih r1
      refine ⟨it2, S2, by simp [TIntoIter.run, e1, e2, IterOp.run, IterOp.step], ?_⟩
      have : f + IterOp.taken (.next :: ops) ys =
          f + (if ys = [] then 0 else 1) + IterOp.taken ops ys.tail := by
        simp only [IterOp.taken]
        omega
      rw [this]
      exact r2
    | nextBack =>
      obtain ⟨it1, S1, e1, r1⟩ := h.nextBack
      obtain ⟨it2, S2, e2, r2⟩ := ih r1
      exact ⟨it2, S2, by simp [TIntoIter.run, e1, e2, IterOp.run, IterOp.step], r2⟩

/-- Dropping the iterator: fine if its front is a place in the block and at most one element is
left. -/
theorem ItAt.drop (h : ItAt L w m S it t b f cap ys) (nd : Bool) :
    if fine ys.length = true ∧ f < cap then ∃ m' S',
      TIntoIter.drop K (defaultAllocator R) nd ⟨it, t⟩ ⟨m, S⟩ = .ok ⟨m', S'⟩ ∧ m'.live = w ∧
        m'.dropped = m.dropped ++ if nd then ys else []
    else TIntoIter.drop K (defaultAllocator R) nd ⟨it, t⟩ ⟨m, S⟩ = .error .ub := by
  have hl := h.rep.len
  obtain ⟨blk, h1, h2, h3, h4, h5, h6⟩ := h.ex
  have hp := h.ptrs
  have hb : m.live b = some blk := by rw [h2]; simp
  by_cases hc : fine ys.length = true ∧ f < cap
  · rw [if_pos hc]
    obtain ⟨hy, hf⟩ := hc
    obtain ⟨m', e, e1, e2⟩ := h.rep.drop R nd
    obtain ⟨s, S1, a1, a2, a3⟩ := L.sliceMut h.has hf hy h5
    obtain ⟨S2, a4, a5⟩ : ∃ S2 : P,
        (if nd = true then K.access S1 s .write (.loc b f) ys.length else .ok S1) = .ok S2 ∧ L.Has t b cap S2 := by
      cases nd with
      | false => exact ⟨S1, rfl, a2⟩
      | true => exact a3 f ys.length (by omega) (by omega)
    obtain ⟨S3, a6, _, _⟩ := L.free a5
    have hdr := Mem.dropRange_ok nd ys f m hb (by omega) h6
    refine ⟨m', S3, ?_, e1, e2⟩
    unfold VIntoIter.drop at e
    unfold TIntoIter.drop
    simp only [hl] at e ⊢
    subst hp
    simp only [reduceCtorEq, if_false, Exec.ok_bind, hdr, VIntoIter.capacity, Ptr.offsetFrom,
      Nat.zero_le, and_self, if_true, Nat.sub_zero] at e ⊢
    simp only [a1, Exec.ok_bind, a4, a6, e]
  · rw [if_neg hc]
    have hw : K.sliceMut S t (.loc b f) ys.length = .error .ub := by
      cases hy : fine ys.length with
      | true =>
        obtain rfl : f = cap := by
          have : ¬ f < cap := fun hf => hc ⟨hy, hf⟩
          omega
        exact L.sliceMut_end h.has _
      | false => exact L.sliceMut_wide (L.good h.has) _ _ hy
    unfold TIntoIter.drop
    simp only [hl]
    subst hp
    simp [hw]

end Verif
