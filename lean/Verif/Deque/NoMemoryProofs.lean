import Verif.Deque.NoMemory

/-! Pushes on a deque when there is no memory left. -/

set_option autoImplicit false

namespace Verif
open Spec

variable {α : Type}

section
variable {E : DEnv α} {wt : World α} {wp : World Ptr} {m : DMem α} {d : Deque}
  {pb lo bo : Nat} {bl : List Nat} {xs : List α}

/-- Whether a `push_back` needs a new subarray; if so it is undefined. -/
theorem DRep.pushBackN (h : DRep E wt wp m d pb lo bo bl xs) (x : α) {d' : Deque} {m' : DMem α}
    (hp : d.pushBack E x m = .ok (d', m')) :
    ((bo + xs.length) % E.S + 1 ≠ E.S ∧ m'.t.allocs = m.t.allocs ∧
      d.pushBackN E x m = .ok (d', m')) ∨
    ((bo + xs.length) % E.S + 1 = E.S ∧ m'.t.allocs = m.t.allocs + 1 ∧
      d.pushBackN E x m = .error .ub) := by
  unfold Deque.pushBack at hp
  unfold Deque.pushBackN
  simp only [h.lastPtr, Exec.ok_bind] at hp ⊢
  by_cases hc : d.e.current = .loc (bl.getD ((bo + xs.length) / E.S) 0) (E.S - 1)
  · right
    have hat := h.atEnd.1 hc
    rw [if_neg (not_not.2 hc)] at hp ⊢
    simp only [h.lastSlot, Exec.ok_bind] at hp ⊢
    obtain ⟨⟨d1, m1⟩, hr, hp⟩ := Exec.of_bind_ok hp
    have hroom : ∃ p pb1 lo1, m1 = { m with p := p } ∧
        DRep E wt wp m1 d1 pb1 lo1 bo bl xs ∧ lo1 + bl.length < d1.size ∧
        ((if d.e.arr = .loc pb (d.size - 1) then d.reallocN E m 1 false else .ok (d, m)) =
          .ok (d1, m1) ∨
        (if d.e.arr = .loc pb (d.size - 1) then d.reallocN E m 1 false else .ok (d, m)) =
          (.error .ub : Exec (Deque × DMem α))) := by
      by_cases he : d.e.arr = .loc pb (d.size - 1)
      · rw [if_pos he] at hr ⊢
        obtain ⟨d2, p, pb', lo', r1, r2, r3, _⟩ := h.realloc false (h.atLastSlot.1 he)
        rw [r1] at hr
        simp only [Except.ok.injEq, Prod.mk.injEq] at hr
        obtain ⟨rfl, rfl⟩ := hr
        refine ⟨p, pb', lo', rfl, r2, r3, ?_⟩
        rcases h.reallocN false with hn | hn
        · exact .inl (hn.trans r1)
        · exact .inr hn
      · rw [if_neg he] at hr ⊢
        simp only [Except.ok.injEq, Prod.mk.injEq] at hr
        obtain ⟨rfl, rfl⟩ := hr
        have hne : lo + bl.length ≠ d.size := fun e => he (h.atLastSlot.2 e)
        exact ⟨m.p, pb, lo, rfl, h, by have := h.p.fits; omega, .inl rfl⟩
    obtain ⟨p, pb1, lo1, hm1, h1, hlt, hN⟩ := hroom
    obtain ⟨t, ht, hp⟩ := Exec.of_bind_ok hp
    obtain ⟨sl, hsl, hp⟩ := Exec.of_bind_ok hp
    obtain ⟨⟨s, m2⟩, hs, hp⟩ := Exec.of_bind_ok hp
    obtain ⟨p2, hpp, hp⟩ := Exec.of_bind_ok hp
    obtain ⟨e, he, hp⟩ := Exec.of_bind_ok hp
    simp only [Except.ok.injEq, Prod.mk.injEq] at hp
    obtain ⟨rfl, rfl⟩ := hp
    have hal : m2.t.allocs = t.allocs + 1 := by
      have : DMem.allocSub E { m1 with t := t } =
          .ok ((E.Rt.alloc E.S t).1, { m1 with t := (E.Rt.alloc E.S t).2 }) := by
        have := h.S_pos
        simp [DMem.allocSub, defaultAllocator, show E.S ≠ 0 by omega]
      rw [this] at hs
      simp only [Except.ok.injEq, Prod.mk.injEq] at hs
      obtain ⟨_, rfl⟩ := hs
      rfl
    refine ⟨hat, ?_, ?_⟩
    · show m2.t.allocs = _
      rw [hal, Mem.write_allocs ht, hm1]
    · rcases hN with hN | hN
      · rw [hN]
        have hlen := h1.len
        have hsl2 : m1.p.ptrAdd d1.e.arr 1 = .ok (.loc pb1 (lo1 + bl.length)) := by
          rw [h1.e]
          show m1.p.ptrAdd (.loc pb1 (lo1 + (bo + xs.length) / E.S)) 1 = _
          rw [h1.p.ptrAdd (by generalize (bo + xs.length) / E.S = q at hlen; omega)]
          congr 2
          generalize (bo + xs.length) / E.S = q at hlen
          omega
        obtain ⟨pn, hw, hrd⟩ := h1.writeSlot hlt
        simp only [Exec.ok_bind, ht, hsl2, hw]
        rw [setSubarray_null h.S_pos (m := ⟨t, pn⟩) hrd]
        rfl
      · rw [hN]; rfl
  · left
    rw [if_pos hc] at hp ⊢
    obtain ⟨t, ht, hp'⟩ := Exec.of_bind_ok hp
    obtain ⟨c, hcc, hp'⟩ := Exec.of_bind_ok hp'
    simp only [Except.ok.injEq, Prod.mk.injEq] at hp'
    refine ⟨fun e => hc (h.atEnd.2 e), ?_, hp⟩
    obtain ⟨_, rfl⟩ := hp'
    exact Mem.write_allocs ht

/-- Whether a `push_front` needs a new subarray; if so it is undefined. -/
theorem DRep.pushFrontN (h : DRep E wt wp m d pb lo bo bl xs) (x : α) {d' : Deque} {m' : DMem α}
    (hp : d.pushFront E x m = .ok (d', m')) :
    (bo ≠ 0 ∧ m'.t.allocs = m.t.allocs ∧ d.pushFrontN E x m = .ok (d', m')) ∨
    (bo = 0 ∧ m'.t.allocs = m.t.allocs + 1 ∧ d.pushFrontN E x m = .error .ub) := by
  unfold Deque.pushFront at hp
  unfold Deque.pushFrontN
  by_cases hc : d.b.current = d.b.first
  · right
    have hbo := h.atBegin.1 hc
    rw [if_neg (not_not.2 hc)] at hp ⊢
    obtain ⟨⟨d3, m3⟩, h3, hp⟩ := Exec.of_bind_ok hp
    obtain ⟨t, ht, hp⟩ := Exec.of_bind_ok hp
    simp only [Except.ok.injEq, Prod.mk.injEq] at hp
    obtain ⟨rfl, rfl⟩ := hp
    obtain ⟨⟨d1, m1⟩, hr, h3⟩ := Exec.of_bind_ok h3
    have hroom : ∃ p pb1 lo1, m1 = { m with p := p } ∧
        DRep E wt wp m1 d1 pb1 lo1 bo bl xs ∧ 1 ≤ lo1 ∧
        ((if d.b.arr = d.ptrs then d.reallocN E m 1 true else .ok (d, m)) = .ok (d1, m1) ∨
        (if d.b.arr = d.ptrs then d.reallocN E m 1 true else .ok (d, m)) =
          (.error .ub : Exec (Deque × DMem α))) := by
      by_cases he : d.b.arr = d.ptrs
      · rw [if_pos he] at hr ⊢
        obtain ⟨d2, p, pb', lo', r1, r2, r3, _⟩ := h.realloc true (h.atFirstSlot.1 he)
        rw [r1] at hr
        simp only [Except.ok.injEq, Prod.mk.injEq] at hr
        obtain ⟨rfl, rfl⟩ := hr
        refine ⟨p, pb', lo', rfl, r2, r3, ?_⟩
        rcases h.reallocN true with hn | hn
        · exact .inl (hn.trans r1)
        · exact .inr hn
      · rw [if_neg he] at hr ⊢
        simp only [Except.ok.injEq, Prod.mk.injEq] at hr
        obtain ⟨rfl, rfl⟩ := hr
        have hne : lo ≠ 0 := fun e => he (h.atFirstSlot.2 e)
        exact ⟨m.p, pb, lo, rfl, h, by omega, .inl rfl⟩
    obtain ⟨p, pb1, lo1, hm1, h1, hlt, hN⟩ := hroom
    obtain ⟨sl, hsl, h3⟩ := Exec.of_bind_ok h3
    obtain ⟨⟨s, m2⟩, hs, h3⟩ := Exec.of_bind_ok h3
    obtain ⟨p2, hpp, h3⟩ := Exec.of_bind_ok h3
    obtain ⟨b, hb, h3⟩ := Exec.of_bind_ok h3
    obtain ⟨c, hcc, h3⟩ := Exec.of_bind_ok h3
    simp only [Except.ok.injEq, Prod.mk.injEq] at h3
    obtain ⟨rfl, rfl⟩ := h3
    have hal : m2.t.allocs = m1.t.allocs + 1 := by
      have : DMem.allocSub E m1 =
          .ok ((E.Rt.alloc E.S m1.t).1, { m1 with t := (E.Rt.alloc E.S m1.t).2 }) := by
        have := h.S_pos
        simp [DMem.allocSub, defaultAllocator, show E.S ≠ 0 by omega]
      rw [this] at hs
      simp only [Except.ok.injEq, Prod.mk.injEq] at hs
      obtain ⟨_, rfl⟩ := hs
      rfl
    refine ⟨hbo, ?_, ?_⟩
    · show t.allocs = _
      rw [Mem.write_allocs ht]
      show m2.t.allocs = _
      rw [hal, hm1]
    · rcases hN with hN | hN
      · rw [hN]
        have hfit := h1.p.fits
        have hsl2 : m1.p.ptrSub d1.b.arr 1 = .ok (.loc pb1 (lo1 - 1)) := by
          rw [h1.b]
          show m1.p.ptrSub (.loc pb1 (lo1 + bo / E.S)) 1 = _
          rw [h1.bo_div, Nat.add_zero]
          exact h1.p.ptrSub (by omega)
        obtain ⟨pn, hw, hrd⟩ := h1.writeSlot (i := lo1 - 1) (by omega)
        simp only [Exec.ok_bind, hsl2, hw]
        rw [setSubarray_null h.S_pos (m := { m1 with p := pn }) hrd]
        rfl
      · rw [hN]; rfl
  · left
    rw [if_pos hc] at hp ⊢
    obtain ⟨⟨d3, m3⟩, h3, hp'⟩ := Exec.of_bind_ok hp
    obtain ⟨t, ht, hp'⟩ := Exec.of_bind_ok hp'
    simp only [Except.ok.injEq, Prod.mk.injEq] at hp'
    obtain ⟨c, hcc, h3⟩ := Exec.of_bind_ok h3
    simp only [Except.ok.injEq, Prod.mk.injEq] at h3
    refine ⟨fun e => hc (h.atBegin.2 e), ?_, hp⟩
    obtain ⟨_, rfl⟩ := hp'
    obtain ⟨_, rfl⟩ := h3
    exact Mem.write_allocs ht

end

theorem DInv.pushesBackN {E : DEnv α} {m0 : DMem α} {bo : Nat} :
    ∀ (ys : List α) {m : DMem α} {d : Deque} {xs : List α} {pb lo : Nat} {bl : List Nat},
      DRep E m0.t.live m0.p.live m d pb lo bo bl xs →
      E.S ≤ (bo + xs.length) % E.S + ys.length →
      Deque.runN E (ys.map .pushBack) d m = .error .ub
  | [], m, d, xs, _, _, _, h, hl => by
    have := Nat.mod_lt (bo + xs.length) h.S_pos
    simp only [List.length_nil] at hl
    omega
  | y :: ys, m, d, xs, _, _, _, h, hl => by
    obtain ⟨d', m', pb', lo', bl', h1, h2, _⟩ := h.pushBack y
    show (d.stepN E (.pushBack y) m >>= fun x => _) = _
    have hst : d.stepN E (.pushBack y) m = (d.pushBackN E y m >>= fun x => .ok (.unit, x.1, x.2)) :=
      rfl
    rcases h.pushBackN y h1 with ⟨g1, _, g3⟩ | ⟨_, _, g3⟩
    · have ih := DInv.pushesBackN ys h2 (by
        have hb := Nat.mod_lt (bo + xs.length) h.S_pos
        have e : (bo + (xs ++ [y]).length) % E.S = (bo + xs.length) % E.S + 1 := by
          simp only [List.length_append, List.length_singleton]
          rw [← Nat.add_assoc, Nat.add_mod, Nat.mod_eq_of_lt (a := 1) (by omega),
            Nat.mod_eq_of_lt (by omega)]
        simp only [List.length_cons] at hl
        rw [e]
        omega)
      rw [hst, g3, Exec.ok_bind, Exec.ok_bind]
      simp only
      rw [ih]; rfl
    · rw [hst, g3]; rfl

theorem DInv.pushesFrontN {E : DEnv α} {m0 : DMem α} :
    ∀ (ys : List α) {m : DMem α} {d : Deque} {xs : List α} {pb lo bo : Nat} {bl : List Nat},
      DRep E m0.t.live m0.p.live m d pb lo bo bl xs → bo < ys.length →
      Deque.runN E (ys.map .pushFront) d m = .error .ub
  | [], m, d, xs, _, _, _, _, h, hl => by simp at hl
  | y :: ys, m, d, xs, _, _, bo, _, h, hl => by
    obtain ⟨d', m', pb', lo', bo', bl', h1, h2, _, _, hif⟩ := h.pushFront y
    show (d.stepN E (.pushFront y) m >>= fun x => _) = _
    have hst : d.stepN E (.pushFront y) m =
        (d.pushFrontN E y m >>= fun x => .ok (.unit, x.1, x.2)) := rfl
    rcases h.pushFrontN y h1 with ⟨g1, _, g3⟩ | ⟨_, _, g3⟩
    · rw [if_neg g1] at hif
      have ih := DInv.pushesFrontN ys h2 (by simp only [List.length_cons] at hl; omega)
      rw [hst, g3, Exec.ok_bind, Exec.ok_bind]
      simp only
      rw [ih]; rfl
    · rw [hst, g3]; rfl

end Verif
