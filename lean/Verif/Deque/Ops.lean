import Verif.Deque.Proofs

/-! Pushing and popping on a represented deque. -/

set_option autoImplicit false

namespace Verif
open Spec

variable {α : Type}

theorem cellPtr_append {S : Nat} {bl : List Nat} {b q : Nat} (hq : q / S < bl.length) :
    cellPtr S (bl ++ [b]) q = cellPtr S bl q := by
  simp [cellPtr, List.getElem?_append_left hq]

theorem getD_append {bl : List Nat} {b i : Nat} (hi : i < bl.length) :
    (bl ++ [b]).getD i 0 = bl.getD i 0 := by
  simp [List.getElem?_append_left hi]

theorem itAt_append {S pb lo : Nat} {bl : List Nat} {b q : Nat} (hq : q / S < bl.length) :
    itAt S pb lo (bl ++ [b]) q = itAt S pb lo bl q := by
  simp only [itAt, cellPtr, getD_append hq]

theorem cellPtr_cons {S : Nat} (hS : 0 < S) {bl : List Nat} {b q : Nat} :
    cellPtr S (b :: bl) (q + S) = cellPtr S bl q := by
  simp [cellPtr, Nat.add_div_right _ hS]

theorem itAt_cons {S pb lo : Nat} (hS : 0 < S) {bl : List Nat} {b q : Nat} :
    itAt S pb lo (b :: bl) (q + S) = itAt S pb (lo + 1) bl q := by
  simp only [itAt, cellPtr, Nat.add_div_right _ hS, Nat.add_mod_right, List.getD_cons_succ,
    show lo + (q / S).succ = lo + 1 + q / S by rw [Nat.succ_eq_add_one]; omega]

section
variable {E : DEnv α} {wt : World α} {wp : World Ptr} {m : DMem α} {d : Deque}
  {pb lo bo : Nat} {bl : List Nat} {xs : List α}

theorem DRep.bl_pos (h : DRep E wt wp m d pb lo bo bl xs) : 0 < bl.length := by
  rw [h.len]; exact Nat.succ_pos _

theorem DRep.vals_append (h : DRep E wt wp m d pb lo bo bl xs) {t : Mem α} {x : α}
    (h1 : t.read (cellPtr E.S bl (bo + xs.length)) = .ok x)
    (h2 : ∀ q', q' / E.S < bl.length → q' ≠ bo + xs.length →
        t.read (cellPtr E.S bl q') = m.t.read (cellPtr E.S bl q'))
    (k : Nat) (y : α) (hk : (xs ++ [x])[k]? = some y) :
    t.read (cellPtr E.S bl (bo + k)) = .ok y := by
  by_cases hkl : k < xs.length
  · rw [List.getElem?_append_left hkl] at hk
    rw [h2 _ (h.idx_lt (Nat.le_of_lt hkl)) (by omega)]
    exact h.vals k y hk
  · have hlt := (List.getElem?_eq_some_iff.1 hk).1
    simp only [List.length_append, List.length_singleton] at hlt
    have : k = xs.length := by omega
    subst this
    simp only [List.getElem?_concat_length, Option.some.injEq] at hk
    rw [← hk]; exact h1

theorem Mem.write_copied {β : Type} {m m' : Mem β} {p : Ptr} {x : β} (h : m.write p x = .ok m') :
    m'.copied = m.copied := by
  unfold Mem.write at h
  split at h
  · cases h
  · split at h
    · cases h
    · split at h
      · simp only [Except.ok.injEq] at h
        rw [← h]; rfl
      · cases h

theorem DRep.pushBack (h : DRep E wt wp m d pb lo bo bl xs) (x : α) :
    ∃ d' m' pb' lo' bl', d.pushBack E x m = .ok (d', m') ∧
      DRep E wt wp m' d' pb' lo' bo bl' (xs ++ [x]) ∧ m'.t.dropped = m.t.dropped ∧
      (∀ k, k < xs.length → cellPtr E.S bl' (bo + k) = cellPtr E.S bl (bo + k)) ∧
      (if (bo + xs.length) % E.S + 1 = E.S ∧ lo + bl.length = d.size then
        (d'.size, lo') = reallocTo false d.size lo bl.length ∧
          m'.p.copied = m.p.copied + bl.length
      else d'.size = d.size ∧ lo' = lo ∧ m'.p.copied = m.p.copied) := by
  have hS := h.S_pos
  have hidx := h.idx_lt (Nat.le_refl xs.length)
  obtain ⟨t, ht1, ht2, ht3, ht4, ht5⟩ := h.t.write hS hidx x
  have hl : m.t.ptrSub d.e.last 1 =
      .ok (.loc (bl.getD ((bo + xs.length) / E.S) 0) (E.S - 1)) := by
    rw [h.e]; exact h.t.ptrSub hidx (by omega)
  unfold Deque.pushBack
  simp only [hl, Exec.ok_bind]
  rcases div_mod_step E.S (bo + xs.length) hS with ⟨c1, c2, c3⟩ | ⟨c1, c2, c3⟩
  · -- room in the last subarray
    have hne : d.e.current ≠ .loc (bl.getD ((bo + xs.length) / E.S) 0) (E.S - 1) := by
      rw [h.e]
      intro e
      simp only [itAt, cellPtr, Ptr.loc.injEq, true_and] at e
      omega
    have hcur : d.e.current = cellPtr E.S bl (bo + xs.length) := by rw [h.e]; rfl
    have hadd : t.ptrAdd d.e.current 1 = .ok (cellPtr E.S bl (bo + xs.length + 1)) := by
      rw [hcur, cellPtr, ht2.ptrAdd hidx (by omega), cellPtr, c2, c3]
    rw [if_pos hne]
    refine ⟨{ d with e := { d.e with current := cellPtr E.S bl (bo + xs.length + 1) } },
      { m with t := t }, pb, lo, bl, ?_, ?_, ht3, fun _ _ => rfl, ?_⟩
    · rw [hcur] at hadd ⊢
      simp only [ht1, Exec.ok_bind, hadd]
    · refine ⟨ht2, h.p, h.ptrs, h.b_lt, h.b, ?_, ?_, h.vals_append ht4 ht5⟩
      · rw [h.e]
        simp only [itAt, List.length_append, List.length_singleton, ← Nat.add_assoc, c2]
      · simpa only [List.length_append, List.length_singleton, ← Nat.add_assoc, c2] using h.len
    · rw [if_neg (by omega)]
      exact ⟨rfl, rfl, rfl⟩
  · -- the element fills the last subarray
    have hnn : ¬ d.e.current ≠ .loc (bl.getD ((bo + xs.length) / E.S) 0) (E.S - 1) := by
      rw [h.e]
      simp only [itAt, cellPtr, Ptr.loc.injEq, true_and, not_not]
      omega
    rw [if_neg hnn]
    have hsz : 0 < d.size := by
      have := h.p.fits; have := h.bl_pos; omega
    have hslot : m.p.ptrAdd d.ptrs (d.size - 1) = .ok (.loc pb (d.size - 1)) := by
      rw [h.ptrs, h.p.ptrAdd (by omega), Nat.zero_add]
    simp only [hslot, Exec.ok_bind]
    -- after making room
    have hroom : ∃ d1 p pb1 lo1, (if d.e.arr = .loc pb (d.size - 1) then d.realloc E m 1 false
          else .ok (d, m)) = .ok (d1, { m with p := p }) ∧
        DRep E wt wp { m with p := p } d1 pb1 lo1 bo bl xs ∧ lo1 + bl.length < d1.size ∧
        (if (bo + xs.length) % E.S + 1 = E.S ∧ lo + bl.length = d.size then
          (d1.size, lo1) = reallocTo false d.size lo bl.length ∧
            p.copied = m.p.copied + bl.length
        else d1.size = d.size ∧ lo1 = lo ∧ p.copied = m.p.copied) := by
      have harr : d.e.arr = .loc pb (lo + (bo + xs.length) / E.S) := by rw [h.e]; rfl
      have hlen := h.len
      have hfits := h.p.fits
      by_cases hf : lo + bl.length = d.size
      · obtain ⟨d', p, pb', lo', h1, h2, h3, h4, h5⟩ := h.realloc false (by simpa using hf)
        refine ⟨d', p, pb', lo', ?_, h2, by simpa using h3, by rw [if_pos ⟨c1, hf⟩]; exact ⟨h4, h5⟩⟩
        rw [if_pos, h1]
        rw [harr]
        simp only [Ptr.loc.injEq, true_and]
        omega
      · refine ⟨d, m.p, pb, lo, ?_, h, by omega, by rw [if_neg (by omega)]; exact ⟨rfl, rfl, rfl⟩⟩
        rw [if_neg]
        rw [harr]
        simp only [Ptr.loc.injEq, true_and]
        omega
    obtain ⟨d1, p, pb1, lo1, hr1, hr2, hr3, hr4⟩ := hroom
    simp only [hr1, Exec.ok_bind]
    have hcur : d1.e.current = cellPtr E.S bl (bo + xs.length) := by rw [hr2.e]; rfl
    have harr : d1.e.arr = .loc pb1 (lo1 + (bo + xs.length) / E.S) := by rw [hr2.e]; rfl
    have hlen := h.len
    obtain ⟨b, t2, ha1, ha2, ha3, ha4, ha5, ha6⟩ := ht2.alloc hS E.Rt
    have hadd : p.ptrAdd d1.e.arr 1 = .ok (.loc pb1 (lo1 + bl.length)) := by
      rw [harr, hr2.p.ptrAdd (by omega)]
      congr 2; omega
    obtain ⟨p2, hp1, hp2, hp3, _⟩ := hr2.p.write (b := b) hr3
    have hp4 := hp3 rfl
    have hset : d1.e.setSubarray E ⟨t2, p2⟩ (.loc pb1 (lo1 + bl.length)) =
        .ok ⟨d1.e.current, .loc b 0, .loc b E.S, .loc pb1 (lo1 + bl.length)⟩ := by
      have := setSubarray_ok (E := E) (m := ⟨t2, p2⟩) (d := d1) hp4 ha3 d1.e
        (i := bl.length) (by simp)
      simpa using this
    refine ⟨{ d1 with e := ⟨.loc b 0, .loc b 0, .loc b E.S, .loc pb1 (lo1 + bl.length)⟩ },
      ⟨t2, p2⟩, pb1, lo1, bl ++ [b], ?_, ⟨ha3, hp4, hr2.ptrs, h.b_lt, ?_, ?_, ?_, ?_⟩, ?_, ?_, ?_⟩
    · rw [hcur] 
      simp only [ht1, Exec.ok_bind, hadd, DMem.allocSub, ha1, hp1, hset]
    · rw [itAt_append (by rw [h.bo_div]; exact h.bl_pos)]; exact hr2.b
    · simp only [itAt, cellPtr, List.length_append, List.length_singleton, ← Nat.add_assoc, c2, c3,
        ← h.len]
      simp
    · simp only [List.length_append, List.length_singleton, ← Nat.add_assoc, c2, h.len]
    · intro k y hk
      have hlt := (List.getElem?_eq_some_iff.1 hk).1
      simp only [List.length_append, List.length_singleton] at hlt
      have hi := h.idx_lt (k := k) (by omega)
      rw [cellPtr_append hi]
      refine Eq.trans (ha6 _ _ (getD_mem hi)) ?_
      exact h.vals_append ht4 ht5 k y hk
    · rw [show (⟨t2, p2⟩ : DMem α).t.dropped = t2.dropped from rfl, ha5, ht3]
    · intro k hk
      exact cellPtr_append (h.idx_lt (Nat.le_of_lt hk))
    · have hc := Mem.write_copied hp1
      show (if _ then _ ∧ p2.copied = _ else _ ∧ _ ∧ p2.copied = _)
      rw [hc]
      exact hr4

theorem DRep.pushFront (h : DRep E wt wp m d pb lo bo bl xs) (x : α) :
    ∃ d' m' pb' lo' bo' bl', d.pushFront E x m = .ok (d', m') ∧
      DRep E wt wp m' d' pb' lo' bo' bl' (x :: xs) ∧ m'.t.dropped = m.t.dropped ∧
      (∀ k, k < xs.length → cellPtr E.S bl' (bo' + (k + 1)) = cellPtr E.S bl (bo + k)) ∧
      if bo = 0 then bo' + 1 = E.S ∧ bl'.length = bl.length + 1 ∧
        if lo = 0 then (d'.size, lo' + 1) = reallocTo true d.size lo bl.length ∧
          m'.p.copied = m.p.copied + bl.length
        else d'.size = d.size ∧ lo' + 1 = lo ∧ m'.p.copied = m.p.copied
      else bo' + 1 = bo ∧ bl' = bl ∧ d'.size = d.size ∧ lo' = lo ∧
        m'.p.copied = m.p.copied := by
  have hS := h.S_pos
  unfold Deque.pushFront
  by_cases hb : bo = 0
  · -- a new first subarray
    subst hb
    have hcc : ¬ d.b.current ≠ d.b.first := by
      rw [h.b]; simp [itAt, cellPtr]
    rw [if_neg hcc]
    have hroom : ∃ d1 p pb1 lo1, (if d.b.arr = d.ptrs then d.realloc E m 1 true
          else .ok (d, m)) = .ok (d1, { m with p := p }) ∧
        DRep E wt wp { m with p := p } d1 pb1 lo1 0 bl xs ∧ 1 ≤ lo1 ∧
        if lo = 0 then (d1.size, lo1) = reallocTo true d.size lo bl.length ∧
          p.copied = m.p.copied + bl.length
        else d1.size = d.size ∧ lo1 = lo ∧ p.copied = m.p.copied := by
      have harr : d.b.arr = .loc pb lo := by rw [h.b]; simp [itAt]
      by_cases hf : lo = 0
      · obtain ⟨d', p, pb', lo', h1, h2, h3, h4, h5⟩ := h.realloc true (by simpa using hf)
        refine ⟨d', p, pb', lo', ?_, h2, by simpa using h3, by rw [if_pos hf]; exact ⟨h4, h5⟩⟩
        rw [if_pos, h1]
        rw [harr, h.ptrs, hf]
      · refine ⟨d, m.p, pb, lo, ?_, h, by omega, by rw [if_neg hf]; exact ⟨rfl, rfl, rfl⟩⟩
        rw [if_neg]
        rw [harr, h.ptrs]
        simp [hf]
    obtain ⟨d1, p, pb1, lo1, hr1, hr2, hr3, hr4⟩ := hroom
    simp only [hr1, Exec.ok_bind]
    have harr : d1.b.arr = .loc pb1 lo1 := by rw [hr2.b]; simp [itAt]
    obtain ⟨b, t2, ha1, ha2, _, ha3, ha5, ha6⟩ := hr2.t.alloc hS E.Rt
    have hsub : p.ptrSub d1.b.arr 1 = .ok (.loc pb1 (lo1 - 1)) := by
      rw [harr, hr2.p.ptrSub hr3]
    obtain ⟨p2, hp1, hp2, _, hp3⟩ := hr2.p.write (b := b) (o := lo1 - 1)
      (by have := hr2.p.fits; have := hr2.bl_pos; omega)
    have hp4 := hp3 (by omega)
    have hset : d1.b.setSubarray E ⟨t2, p2⟩ (.loc pb1 (lo1 - 1)) =
        .ok ⟨d1.b.current, .loc b 0, .loc b E.S, .loc pb1 (lo1 - 1)⟩ := by
      have := setSubarray_ok (E := E) (m := ⟨t2, p2⟩) (d := d1) hp4 ha3 d1.b
        (i := 0) (by simp)
      simpa using this
    have hptr : t2.ptrSub (.loc b E.S) 1 = .ok (cellPtr E.S (b :: bl) (E.S - 1)) := by
      have := ha3.ptrSub (i := 0) (o := E.S) (n := 1) (by simp) (by omega)
      simp only [List.getD_cons_zero] at this
      rw [this]
      simp [cellPtr, Nat.div_eq_of_lt (show E.S - 1 < E.S by omega),
        Nat.mod_eq_of_lt (show E.S - 1 < E.S by omega)]
    obtain ⟨t3, hw1, hw2, hw3, hw4, hw5⟩ := ha3.write (q := E.S - 1) hS
      (by rw [Nat.div_eq_of_lt (by omega)]; simp) x
    have hpos : E.S - 1 + (xs.length + 1) = 0 + xs.length + E.S := by omega
    refine ⟨{ d1 with b := ⟨cellPtr E.S (b :: bl) (E.S - 1), .loc b 0, .loc b E.S,
        .loc pb1 (lo1 - 1)⟩ }, ⟨t3, p2⟩, pb1, lo1 - 1, E.S - 1, b :: bl, ?_,
      ⟨hw2, hp4, hr2.ptrs, by omega, ?_, ?_, ?_, ?_⟩, ?_, ?_, ?_⟩
    · simp only [hsub, Exec.ok_bind, DMem.allocSub, ha1, hp1, hset, hptr, hw1]
    · simp [itAt, Nat.div_eq_of_lt (show E.S - 1 < E.S by omega)]
    · simp only [List.length_cons, hpos]
      rw [itAt_cons hS, show lo1 - 1 + 1 = lo1 by omega]
      exact hr2.e
    · simp only [List.length_cons, hpos, Nat.add_div_right _ hS]
      rw [hr2.len]
    · intro k y hk
      cases k with
      | zero =>
        simp only [List.getElem?_cons_zero, Option.some.injEq] at hk
        subst hk
        exact hw4
      | succ k =>
        simp only [List.getElem?_cons_succ] at hk
        have hlt := (List.getElem?_eq_some_iff.1 hk).1
        have hi := hr2.idx_lt (Nat.le_of_lt hlt)
        rw [show E.S - 1 + (k + 1) = 0 + k + E.S by omega]
        show t3.read _ = _
        rw [hw5 _ (by rw [Nat.add_div_right _ hS]; simpa using hi) (by omega), cellPtr_cons hS]
        exact (ha6 _ _ (getD_mem hi)).trans (hr2.vals k y hk)
    · show t3.dropped = _
      rw [hw3, ha5]
    · intro k hk
      rw [show E.S - 1 + (k + 1) = 0 + k + E.S by omega, cellPtr_cons hS]
    · have hc := Mem.write_copied hp1
      rw [if_pos trivial]
      refine ⟨by omega, by simp, ?_⟩
      simp only [hc, show lo1 - 1 + 1 = lo1 by omega]
      exact hr4
  · -- room in the first subarray
    have hlt := h.b_lt
    have hcc : d.b.current ≠ d.b.first := by
      rw [h.b]
      simp [itAt, cellPtr, h.bo_mod, hb]
    have h0 := h.bl_pos
    have hd1 : (bo - 1) / E.S = 0 := Nat.div_eq_of_lt (by omega)
    have hsub : m.t.ptrSub d.b.current 1 = .ok (cellPtr E.S bl (bo - 1)) := by
      rw [h.b]
      simp only [itAt, cellPtr, h.bo_div, h.bo_mod, hd1, Nat.mod_eq_of_lt (show bo - 1 < E.S by omega)]
      exact h.t.ptrSub h0 (by omega)
    obtain ⟨t, hw1, hw2, hw3, hw4, hw5⟩ := h.t.write (q := bo - 1) hS (by rw [hd1]; exact h0) x
    rw [if_pos hcc]
    refine ⟨{ d with b := { d.b with current := cellPtr E.S bl (bo - 1) } }, { m with t := t },
      pb, lo, bo - 1, bl, ?_, ⟨hw2, h.p, h.ptrs, by omega, ?_, ?_, ?_, ?_⟩, hw3, ?_,
      by rw [if_neg hb]; exact ⟨by omega, rfl, rfl, rfl, rfl⟩⟩
    · simp only [hsub, Exec.ok_bind, hw1]
    · rw [h.b]; simp only [itAt, h.bo_div, hd1]
    · rw [List.length_cons, show bo - 1 + (xs.length + 1) = bo + xs.length by omega]
      exact h.e
    · rw [List.length_cons, show bo - 1 + (xs.length + 1) = bo + xs.length by omega]
      exact h.len
    · intro k y hk
      cases k with
      | zero =>
        simp only [List.getElem?_cons_zero, Option.some.injEq] at hk
        subst hk; exact hw4
      | succ k =>
        simp only [List.getElem?_cons_succ] at hk
        have hlt := (List.getElem?_eq_some_iff.1 hk).1
        rw [show bo - 1 + (k + 1) = bo + k by omega]
        show t.read _ = _
        rw [hw5 _ (h.idx_lt (Nat.le_of_lt hlt)) (by omega)]
        exact h.vals k y hk
    · intro k hk
      rw [show bo - 1 + (k + 1) = bo + k by omega]

theorem DRep.popBack (h : DRep E wt wp m d pb lo bo bl xs) :
    ∃ d' m' bl', d.popBack E m = .ok (xs.getLast?, d', m') ∧
      DRep E wt wp m' d' pb lo bo bl' xs.dropLast ∧ m'.t.dropped = m.t.dropped ∧
      ∀ k, k < xs.length - 1 → cellPtr E.S bl' (bo + k) = cellPtr E.S bl (bo + k) := by
  have hS := h.S_pos
  unfold Deque.popBack
  rw [h.isEmpty]
  rcases List.eq_nil_or_concat xs with rfl | ⟨ys, y, rfl⟩
  · exact ⟨d, m, bl, by simp, by simpa using h, rfl, fun _ _ => rfl⟩
  · simp only [List.concat_eq_append] at *
    rw [if_neg (by simp)]
    have hlen := h.len
    have hle := h.e
    simp only [List.length_append, List.length_singleton, ← Nat.add_assoc] at hlen hle
    have hread := h.vals ys.length y (by simp)
    simp only [List.getLast?_append, List.getLast?_singleton, Option.some_or,
      List.dropLast_concat, List.length_append, List.length_singleton, Nat.add_sub_cancel]
    have hvals : ∀ (k : Nat) (x : α), ys[k]? = some x →
        m.t.read (cellPtr E.S bl (bo + k)) = .ok x := by
      intro k x hk
      have hlt := (List.getElem?_eq_some_iff.1 hk).1
      exact h.vals k x (by rw [List.getElem?_append_left hlt]; exact hk)
    rcases div_mod_step E.S (bo + ys.length) hS with ⟨c1, c2, c3⟩ | ⟨c1, c2, c3⟩
    · have hne : d.e.current ≠ d.e.first := by
        rw [hle]; simp only [itAt, cellPtr, c3]
        intro e; simp at e
      have hsub : m.t.ptrSub d.e.current 1 = .ok (cellPtr E.S bl (bo + ys.length)) := by
        rw [hle]
        simp only [itAt, cellPtr, c2, c3]
        rw [h.t.ptrSub (by omega) (by omega)]
        simp
      rw [if_pos hne]
      refine ⟨{ d with e := { d.e with current := cellPtr E.S bl (bo + ys.length) } }, m, bl, ?_,
        ⟨h.t, h.p, h.ptrs, h.b_lt, h.b, ?_, ?_, hvals⟩, rfl, fun _ _ => rfl⟩
      · simp only [hsub, Exec.ok_bind, hread]
      · rw [hle]; simp only [itAt, c2]
      · rw [hlen, c2]
    · have hne : ¬ d.e.current ≠ d.e.first := by
        rw [hle]; simp [itAt, cellPtr, c3]
      rw [if_neg hne]
      -- the last subarray is freed
      have hbl : bl = bl.dropLast ++ [bl.getD (bl.length - 1) 0] := by
        have hnn : bl ≠ [] := by rintro rfl; simp at hlen
        conv_lhs => rw [← List.dropLast_append_getLast hnn]
        congr 2
        rw [List.getLast_eq_getElem, List.getD_eq_getElem?_getD,
          List.getElem?_eq_getElem (by have := h.bl_pos; omega), Option.getD_some]
      generalize hB : bl.getD (bl.length - 1) 0 = B at hbl
      generalize hbl' : bl.dropLast = bl' at hbl
      have hl' : bl'.length = (bo + ys.length) / E.S + 1 := by
        rw [hbl] at hlen; simp only [List.length_append, List.length_singleton] at hlen; omega
      subst hbl
      have hfirst : d.e.first = .loc B 0 := by
        rw [hle]
        simp only [itAt, c2, ← hl']
        simp
      obtain ⟨t', hf1, hf2, hf3, hf4⟩ := TRep.free (l2 := []) h.t E.Rt
      simp only [List.append_nil] at hf2 hf4
      have hp' : PtRep wp m.p pb d.size lo bl' := by
        refine ⟨h.p.fresh, h.p.out, h.p.ins, ?_, ?_⟩
        · have := h.p.fits; simp at this; omega
        · intro i hi
          rw [h.p.cells i (by simp; omega), getD_append hi]
      have harr : m.p.ptrSub d.e.arr 1 = .ok (.loc pb (lo + (bo + ys.length) / E.S)) := by
        rw [hle]; simp only [itAt, c2]
        rw [h.p.ptrSub (by rw [← Nat.add_assoc]; exact Nat.le_add_left _ _), ← Nat.add_assoc,
          Nat.add_sub_cancel]
      have hset : d.e.setSubarray E { m with t := t' } (.loc pb (lo + (bo + ys.length) / E.S)) = _ :=
        setSubarray_ok (E := E) (m := { m with t := t' }) (d := d) hp' hf2 d.e
          (i := (bo + ys.length) / E.S) (by omega)
      have hc : t'.ptrSub (.loc (bl'.getD ((bo + ys.length) / E.S) 0) E.S) 1 =
          .ok (cellPtr E.S bl' (bo + ys.length)) := by
        rw [hf2.ptrSub (by omega) (by omega), cellPtr]
        congr 2; omega
      have hidx : ∀ k, k ≤ ys.length → (bo + k) / E.S < bl'.length := by
        intro k hk
        have := Nat.div_le_div_right (c := E.S) (show bo + k ≤ bo + ys.length by omega)
        omega
      have hkeep : ∀ k, k ≤ ys.length → t'.read (cellPtr E.S bl' (bo + k)) =
          m.t.read (cellPtr E.S (bl' ++ [B]) (bo + k)) := by
        intro k hk
        rw [cellPtr_append (hidx k hk)]
        exact hf4 _ _ (getD_mem (hidx k hk))
      refine ⟨{ d with e := itAt E.S pb lo bl' (bo + ys.length) }, { m with t := t' }, bl', ?_,
        ⟨hf2, hp', h.ptrs, h.b_lt, ?_, rfl, hl', ?_⟩, hf3, ?_⟩
      · simp only [DMem.freeSub, hfirst, hf1, Exec.ok_bind, harr, hset, hc, hkeep _ (Nat.le_refl _),
          hread]
        rfl
      · rw [h.b, itAt_append (q := bo) (hidx 0 (by omega))]
      · intro k x hk
        have hlt := (List.getElem?_eq_some_iff.1 hk).1
        exact (hkeep k (Nat.le_of_lt hlt)).trans (hvals k x hk)
      · intro k hk
        rw [cellPtr_append (hidx k (by omega))]

theorem DRep.popFront (h : DRep E wt wp m d pb lo bo bl xs) :
    ∃ d' m' lo' bo' bl', d.popFront E m = .ok (xs.head?, d', m') ∧
      DRep E wt wp m' d' pb lo' bo' bl' xs.tail ∧ m'.t.dropped = m.t.dropped ∧
      (∀ k, k < xs.length - 1 → cellPtr E.S bl' (bo' + k) = cellPtr E.S bl (bo + (k + 1))) ∧
      (xs ≠ [] → d'.size = d.size ∧ m'.p.copied = m.p.copied ∧
        if bo + 1 < E.S then lo' = lo ∧ bo' = bo + 1 else lo' = lo + 1 ∧ bo' = 0) := by
  have hS := h.S_pos
  unfold Deque.popFront
  rw [h.isEmpty]
  cases xs with
  | nil =>
    exact ⟨d, m, lo, bo, bl, by simp, by simpa using h, rfl, fun k hk => by simp at hk,
      fun h => absurd rfl h⟩
  | cons y ys =>
    rw [if_neg (by simp)]
    have hlen := h.len
    have hle := h.e
    simp only [List.length_cons] at hlen hle
    have h0 := h.bl_pos
    have hread : m.t.read (cellPtr E.S bl bo) = .ok y := h.vals 0 y (by simp)
    have hcur : d.b.current = cellPtr E.S bl bo := by rw [h.b]; rfl
    have hlast : m.t.ptrSub d.b.last 1 = .ok (.loc (bl.getD 0 0) (E.S - 1)) := by
      rw [h.b]; simp only [itAt, h.bo_div]
      exact h.t.ptrSub h0 (by omega)
    have hlt := h.b_lt
    simp only [List.head?_cons, List.tail_cons, List.length_cons, Nat.add_sub_cancel, hlast,
      Exec.ok_bind]
    by_cases hb : bo + 1 < E.S
    · have hne : d.b.current ≠ .loc (bl.getD 0 0) (E.S - 1) := by
        rw [hcur]; simp only [cellPtr, h.bo_div, h.bo_mod]
        intro e; simp only [Ptr.loc.injEq, true_and] at e; omega
      have hadd : m.t.ptrAdd (cellPtr E.S bl bo) 1 = .ok (cellPtr E.S bl (bo + 1)) := by
        simp only [cellPtr, h.bo_div, h.bo_mod, Nat.div_eq_of_lt hb, Nat.mod_eq_of_lt hb]
        exact h.t.ptrAdd h0 (by omega)
      rw [if_pos hne]
      refine ⟨{ d with b := { d.b with current := cellPtr E.S bl (bo + 1) } }, m, lo, bo + 1, bl,
        ?_, ⟨h.t, h.p, h.ptrs, hb, ?_, ?_, ?_, ?_⟩, rfl, ?_,
        fun _ => ⟨rfl, rfl, by rw [if_pos hb]; exact ⟨rfl, rfl⟩⟩⟩
      · simp only [hcur, hread, Exec.ok_bind, hadd]
      · rw [h.b]; simp only [itAt, h.bo_div, Nat.div_eq_of_lt hb]
      · rw [show bo + 1 + ys.length = bo + (ys.length + 1) by omega]; exact hle
      · rw [show bo + 1 + ys.length = bo + (ys.length + 1) by omega]; exact hlen
      · intro k x hk
        rw [show bo + 1 + k = bo + (k + 1) by omega]
        exact h.vals (k + 1) x (by simpa using hk)
      · intro k _
        rw [show bo + 1 + k = bo + (k + 1) by omega]
    · have hbS : bo + 1 = E.S := by omega
      have hne : ¬ d.b.current ≠ .loc (bl.getD 0 0) (E.S - 1) := by
        rw [hcur]; simp only [cellPtr, h.bo_div, h.bo_mod, not_not]
        rw [← hbS]; rfl
      rw [if_neg hne]
      have hpos : bo + (ys.length + 1) = ys.length + E.S := by omega
      rw [hpos, Nat.add_div_right _ hS] at hlen
      rw [hpos] at hle
      obtain ⟨B, bl', rfl⟩ := List.exists_cons_of_length_pos h0
      simp only [List.length_cons, Nat.add_right_cancel_iff] at hlen
      have hl0 : 0 < bl'.length := by rw [hlen]; exact Nat.succ_pos _
      have hfirst : d.b.first = .loc B 0 := by
        rw [h.b]; simp only [itAt, h.bo_div]; simp
      obtain ⟨t', hf1, hf2, hf3, hf4⟩ := TRep.free (l1 := []) h.t E.Rt
      simp only [List.nil_append] at hf2 hf4
      have hp' : PtRep wp m.p pb d.size (lo + 1) bl' := by
        refine ⟨h.p.fresh, h.p.out, h.p.ins, ?_, ?_⟩
        · have := h.p.fits; simp at this; omega
        · intro i hi
          rw [show lo + 1 + i = lo + (i + 1) by omega, h.p.cells (i + 1) (by simpa using hi)]
          simp
      have harr : m.p.ptrAdd d.b.arr 1 = .ok (.loc pb (lo + 1 + 0)) := by
        rw [h.b]; simp only [itAt, h.bo_div]
        rw [h.p.ptrAdd (by have := hp'.fits; omega)]
      have hset : d.b.setSubarray E { m with t := t' } (.loc pb (lo + 1 + 0)) = _ :=
        setSubarray_ok (E := E) (m := { m with t := t' }) (d := d) hp' hf2 d.b
          (i := 0) (by omega)
      refine ⟨{ d with b := itAt E.S pb (lo + 1) bl' 0 }, { m with t := t' }, lo + 1, 0, bl', ?_,
        ⟨hf2, hp', h.ptrs, hS, rfl, ?_, ?_, ?_⟩, hf3, ?_,
        fun _ => ⟨rfl, rfl, by rw [if_neg hb]; exact ⟨rfl, rfl⟩⟩⟩
      · simp only [hcur, hread, Exec.ok_bind, DMem.freeSub, hfirst, hf1, harr, hset]
        simp [itAt, cellPtr]
      · show d.e = _
        rw [Nat.zero_add, ← itAt_cons (b := B) hS]; exact hle
      · rw [Nat.zero_add]; exact hlen
      · intro k x hk
        have hltk := (List.getElem?_eq_some_iff.1 hk).1
        have hi : (0 + k) / E.S < bl'.length := by
          have := Nat.div_le_div_right (c := E.S) (show 0 + k ≤ ys.length by omega)
          omega
        refine (hf4 _ _ (getD_mem hi)).trans ?_
        have := h.vals (k + 1) x (by simpa using hk)
        rw [show bo + (k + 1) = 0 + k + E.S by omega, cellPtr_cons hS] at this
        exact this
      · intro k _
        rw [show bo + (k + 1) = 0 + k + E.S by omega, cellPtr_cons hS]

theorem fillNull_ok {w : World Ptr} {size : Nat} :
    ∀ (n o : Nat) (q : Mem Ptr), PtRep w q pb size 0 [] → o + n ≤ size →
      ∃ q', q.fillNull (.loc pb o) n = .ok q' ∧ PtRep w q' pb size 0 [] ∧
        q'.copied = q.copied := by
  intro n
  induction n with
  | zero => intro o q h _; exact ⟨q, rfl, h, rfl⟩
  | succ n ih =>
    intro o q h ho
    obtain ⟨blk, hb, hs, hr⟩ := h.ins
    have hw := Mem.write_loc Ptr.null hb (show o < blk.size by omega)
    obtain ⟨q', h1, h2, h3⟩ := ih (o + 1) _ (show PtRep w (q.setBlock pb
        (some { blk with cells := Function.update blk.cells o (some Ptr.null) })) pb size 0 [] by
      refine ⟨h.fresh, ?_, ⟨_, Function.update_self .., hs, hr⟩, by simp, by simp⟩
      intro b hbne
      rw [Mem.setBlock_live, Function.update_of_ne hbne]
      exact h.out b hbne) (by omega)
    exact ⟨q', by simp [Mem.fillNull, hw, Ptr.next, h1], h2, by rw [h3]; rfl⟩

end

/-- A new deque is represented and empty. -/
theorem DRep.newIn (E : DEnv α) (hS : 0 < E.S) (m : DMem α) :
    ∃ d m' pb lo bo bl, Deque.newIn E m = .ok (d, m') ∧
      DRep E m.t.live m.p.live m' d pb lo bo bl [] ∧ m'.t.dropped = m.t.dropped ∧
      d.size = 8 ∧ lo = 3 ∧ bo = 0 ∧ m'.p.copied = m.p.copied := by
  have ht0 : TRep E.S m.t.live m.t [] :=
    ⟨List.nodup_nil, by simp, fun _ _ => rfl, by simp⟩
  have hp0 : PtRep m.p.live (E.Rp.alloc 8 m.p).2 (E.Rp.pick m.p 8) 8 0 [] := by
    refine ⟨E.Rp.fresh m.p 8, ?_, ⟨⟨8, .heap, fun _ => none⟩, ?_, rfl, rfl⟩, by simp, by simp⟩
    · intro b hb
      simp [RawAlloc.alloc, hb]
    · simp [RawAlloc.alloc]
  obtain ⟨p1, hf1, hf2, hf4⟩ := fillNull_ok 8 0 _ hp0 (by omega)
  obtain ⟨b, t1, ha1, _, ha3, _, ha5, _⟩ := ht0.alloc hS E.Rt
  simp only [List.nil_append] at ha3
  have hf3 : PtRep m.p.live p1 (E.Rp.pick m.p 8) 8 3 [] :=
    ⟨hf2.fresh, hf2.out, hf2.ins, by simp, by simp⟩
  obtain ⟨p2, hw1, hw2, hw3, _⟩ := hf3.write (b := b) (o := 3) (by omega)
  have hp3 := hw3 rfl
  simp only [List.nil_append] at hp3
  have hadd : p1.ptrAdd (.loc (E.Rp.pick m.p 8) 0) 3 = .ok (.loc (E.Rp.pick m.p 8) 3) :=
    hf2.ptrAdd (by omega)
  have hset : ∀ it : DIt, it.setSubarray E ⟨t1, p2⟩ (.loc (E.Rp.pick m.p 8) 3) =
      .ok ⟨it.current, .loc b 0, .loc b E.S, .loc (E.Rp.pick m.p 8) 3⟩ := by
    intro it
    have := setSubarray_ok (E := E) (m := ⟨t1, p2⟩) (d := ⟨.null, 8, it, it⟩) hp3 ha3 it
      (i := 0) (by simp)
    simpa using this
  refine ⟨⟨.loc (E.Rp.pick m.p 8) 0, 8, itAt E.S (E.Rp.pick m.p 8) 3 [b] 0,
    itAt E.S (E.Rp.pick m.p 8) 3 [b] 0⟩, ⟨t1, p2⟩, E.Rp.pick m.p 8, 3, 0, [b], ?_,
    ⟨ha3, hp3, rfl, hS, rfl, rfl, by simp, by simp⟩, ha5, rfl, rfl, rfl,
    (Mem.write_copied hw1).trans hf4⟩
  have hal : (defaultAllocator E.Rp).alloc 8 m.p = .ok (.loc (E.Rp.pick m.p 8) 0, (E.Rp.alloc 8 m.p).2) := by
    simp [defaultAllocator, RawAlloc.alloc]
  simp only [Deque.newIn, DMem.allocPtrs, hal, Exec.ok_bind, hf1, DMem.allocSub, ha1, hadd, hw1, hset]
  simp [itAt, cellPtr]

end Verif
