import Verif.Deque.Rep

/-! What each `Deque` function does to a represented deque. -/

set_option autoImplicit false

namespace Verif
open Spec

variable {α : Type}

/-- The compatibility iterator for position `q`. -/
def itAt (S pb lo : Nat) (bl : List Nat) (q : Nat) : DIt :=
  ⟨cellPtr S bl q, .loc (bl.getD (q / S) 0) 0, .loc (bl.getD (q / S) 0) S, .loc pb (lo + q / S)⟩

/-- Deque `d` in memory `m` holds `xs`: the first element is at offset `bo` of the first of
the subarrays `bl`, the pointer array is block `pb` and its first used slot is `lo`. -/
structure DRep (E : DEnv α) (wt : World α) (wp : World Ptr) (m : DMem α) (d : Deque)
    (pb lo bo : Nat) (bl : List Nat) (xs : List α) : Prop where
  t : TRep E.S wt m.t bl
  p : PtRep wp m.p pb d.size lo bl
  ptrs : d.ptrs = .loc pb 0
  b_lt : bo < E.S
  b : d.b = itAt E.S pb lo bl bo
  e : d.e = itAt E.S pb lo bl (bo + xs.length)
  len : bl.length = (bo + xs.length) / E.S + 1
  vals : ∀ (k : Nat) (x : α), xs[k]? = some x → m.t.read (cellPtr E.S bl (bo + k)) = .ok x

theorem div_mod_step (S q : Nat) (hS : 0 < S) :
    (q % S + 1 < S ∧ (q + 1) / S = q / S ∧ (q + 1) % S = q % S + 1) ∨
    (q % S + 1 = S ∧ (q + 1) / S = q / S + 1 ∧ (q + 1) % S = 0) := by
  have h1 := Nat.mod_lt q hS
  have h2 := Nat.div_add_mod q S
  by_cases h : q % S + 1 < S
  · left
    have := (Nat.div_mod_unique hS (a := q + 1) (c := q % S + 1) (d := q / S)).2 ⟨by omega, h⟩
    exact ⟨h, this.1, this.2⟩
  · right
    have h3 : q % S + 1 = S := by omega
    have := (Nat.div_mod_unique hS (a := q + 1) (c := 0) (d := q / S + 1)).2
      ⟨by rw [Nat.mul_add]; omega, hS⟩
    exact ⟨h3, this.1, this.2⟩

section
variable {E : DEnv α} {wt : World α} {wp : World Ptr} {m : DMem α} {d : Deque}
  {pb lo bo : Nat} {bl : List Nat} {xs : List α}

theorem DRep.S_pos (h : DRep E wt wp m d pb lo bo bl xs) : 0 < E.S :=
  Nat.lt_of_le_of_lt (Nat.zero_le _) h.b_lt

theorem DRep.idx_lt (h : DRep E wt wp m d pb lo bo bl xs) {k : Nat} (hk : k ≤ xs.length) :
    (bo + k) / E.S < bl.length := by
  have := Nat.div_le_div_right (c := E.S) (show bo + k ≤ bo + xs.length by omega)
  rw [h.len]; omega

theorem DRep.bo_div (h : DRep E wt wp m d pb lo bo bl xs) : bo / E.S = 0 :=
  Nat.div_eq_of_lt h.b_lt

theorem DRep.bo_mod (h : DRep E wt wp m d pb lo bo bl xs) : bo % E.S = bo :=
  Nat.mod_eq_of_lt h.b_lt

theorem setSubarray_ok (hp : PtRep wp m.p pb d.size lo bl) (ht : TRep E.S wt m.t bl)
    (it : DIt) {i : Nat} (hi : i < bl.length) :
    it.setSubarray E m (.loc pb (lo + i)) =
      .ok ⟨it.current, .loc (bl.getD i 0) 0, .loc (bl.getD i 0) E.S, .loc pb (lo + i)⟩ := by
  simp only [DIt.setSubarray, hp.cells i hi, Exec.ok_bind,
    ht.ptrAdd hi (show 0 + E.S ≤ E.S by omega), Nat.zero_add]

theorem DRep.isEmpty (h : DRep E wt wp m d pb lo bo bl xs) :
    d.isEmpty = decide (xs = []) := by
  unfold Deque.isEmpty
  rw [h.b, h.e]
  have := cellPtr_inj h.t.nodup (h.idx_lt (k := 0) (by omega)) (h.idx_lt (Nat.le_refl xs.length))
  simp only [Nat.add_zero] at this
  simp only [itAt, this, decide_eq_decide]
  constructor
  · intro h; exact List.length_eq_zero_iff.1 (by omega)
  · rintro rfl; simp

theorem DRep.length (h : DRep E wt wp m d pb lo bo bl xs) : d.len E = .ok xs.length := by
  have hS := h.S_pos
  unfold Deque.len
  rw [h.b, h.e]
  have h1 := Nat.div_add_mod (bo + xs.length) E.S
  simp only [itAt, cellPtr, h.bo_div, h.bo_mod]
  have h2 := Nat.mod_lt (bo + xs.length) hS
  generalize hi : (bo + xs.length) / E.S = i at *
  generalize ho : (bo + xs.length) % E.S = o at *
  by_cases hq : i = 0
  · subst hq
    simp only [if_true, Ptr.offsetFrom, true_and]
    rw [if_pos (by omega)]
    congr 1; omega
  · have hne : Ptr.loc pb (lo + 0) ≠ .loc pb (lo + i) := by
      intro e; simp only [Ptr.loc.injEq, true_and] at e; omega
    simp only [if_neg hne, Ptr.offsetFrom, true_and, Nat.zero_le, if_true, Nat.sub_zero,
      show lo + 0 ≤ lo + i by omega, Exec.ok_bind, show lo + i - (lo + 0) = i by omega]
    rw [Nat.mul_comm, h1]
    congr 1; omega

/-- Overwriting one element. -/
theorem DRep.set (h : DRep E wt wp m d pb lo bo bl xs) {k : Nat} (hk : k < xs.length) (x : α) :
    ∃ t, m.t.write (cellPtr E.S bl (bo + k)) x = .ok t ∧
      DRep E wt wp { m with t := t } d pb lo bo bl (xs.set k x) ∧ t.dropped = m.t.dropped := by
  obtain ⟨t, h1, h2, h3, h4, h5⟩ := h.t.write h.S_pos (h.idx_lt (Nat.le_of_lt hk)) x
  refine ⟨t, h1, ⟨h2, h.p, h.ptrs, h.b_lt, h.b, by simpa using h.e, by simpa using h.len, ?_⟩, h3⟩
  intro j y hj
  by_cases hjk : j = k
  · subst hjk
    simp only [List.getElem?_set_self hk, Option.some.injEq] at hj
    subst hj; exact h4
  · rw [List.getElem?_set_ne (Ne.symm hjk)] at hj
    have hjl : j < xs.length := (List.getElem?_eq_some_iff.1 hj).1
    show t.read _ = _
    rw [h5 _ (h.idx_lt (Nat.le_of_lt hjl)) (by omega)]
    exact h.vals j y hj

theorem DRep.congr (h : DRep E wt wp m d pb lo bo bl xs) {m' : DMem α}
    (ht : m'.t.live = m.t.live) (hp : m'.p = m.p) : DRep E wt wp m' d pb lo bo bl xs := by
  refine ⟨h.t.congr ht, hp ▸ h.p, h.ptrs, h.b_lt, h.b, h.e, h.len, ?_⟩
  intro k x hk
  rw [← h.vals k x hk]
  exact Mem.read_congr (by rw [ht])

/-- Changing the position of the pointers inside the array only moves `arr`. -/
theorem DRep.moved (h : DRep E wt wp m d pb lo bo bl xs) {d' : Deque} {p : Mem Ptr}
    {pb' size' lo' : Nat} (hp : PtRep wp p pb' size' lo' bl)
    (hd : d' = ⟨.loc pb' 0, size', itAt E.S pb' lo' bl bo, itAt E.S pb' lo' bl (bo + xs.length)⟩) :
    DRep E wt wp { m with p := p } d' pb' lo' bo bl xs := by
  subst hd
  exact ⟨h.t, hp, rfl, h.b_lt, rfl, rfl, h.len, h.vals⟩

/-- Moving the used pointers inside their block. -/
theorem PtRep.shift {w : World Ptr} {q : Mem Ptr} {size lo' : Nat}
    (h : PtRep w q pb size lo bl) (hf : lo' + bl.length ≤ size) :
    ∃ q', q.copy (.loc pb lo) (.loc pb lo') bl.length = .ok q' ∧
      PtRep w q' pb size lo' bl ∧ q'.copied = q.copied + bl.length := by
  obtain ⟨blk, hb, hs, hr⟩ := h.ins
  obtain ⟨q', h1, h2, _, _, h5⟩ := Mem.copy_loc (so := lo) (d := lo') (n := bl.length) hb hb
    (by have := h.fits; omega) (by omega)
  refine ⟨q', h1, ⟨h.fresh, ?_, ⟨_, (congrFun h2 pb).trans (Function.update_self ..), hs, hr⟩,
    hf, ?_⟩, h5⟩
  · intro b hne
    rw [h2, Function.update_of_ne hne]; exact h.out b hne
  · intro i hi
    have hc := h.cells i hi
    have hlt : lo + i < blk.size := by have := h.fits; omega
    have hlt' : lo' + i < blk.size := by omega
    simp only [Mem.read, Mem.cell, hb, hlt, if_true] at hc
    simp only [Mem.read, Mem.cell, h2, Function.update_self, hlt', if_true,
      show lo' ≤ lo' + i ∧ lo' + i < lo' + bl.length from ⟨by omega, by omega⟩, and_self,
      show lo + (lo' + i - lo') = lo + i by omega]
    exact hc

/-- Moving the used pointers to a new block and freeing the old one. -/
theorem PtRep.grow {w : World Ptr} {q : Mem Ptr} {size lo' n : Nat} (R : RawAlloc Ptr)
    (h : PtRep w q pb size lo bl) (hf : lo' + bl.length ≤ n) (hn : 0 < n) :
    ∃ pb' q1 q2 q3, (defaultAllocator R).alloc n q = .ok (.loc pb' 0, q1) ∧
      (∃ b, q1.live pb' = some b ∧ b.size = n) ∧
      q1.copy (.loc pb lo) (.loc pb' lo') bl.length = .ok q2 ∧
      (defaultAllocator R).dealloc (.loc pb 0) size q2 = .ok q3 ∧
      PtRep w q3 pb' n lo' bl ∧ q3.copied = q.copied + bl.length := by
  obtain ⟨blk, hb, hs, hr⟩ := h.ins
  have hne : pb ≠ R.pick q n := by
    intro e
    have := R.fresh q n
    rw [← e, hb] at this; cases this
  have hl1 : (R.alloc n q).2.live = Function.update q.live (R.pick q n)
      (some ⟨n, .heap, fun _ => none⟩) := rfl
  have hb1 : (R.alloc n q).2.live pb = some blk := by
    rw [hl1, Function.update_of_ne hne]; exact hb
  have hb2 : (R.alloc n q).2.live (R.pick q n) = some ⟨n, .heap, fun _ => none⟩ := by
    rw [hl1, Function.update_self]
  obtain ⟨q2, h1, h2, _, _, h5⟩ := Mem.copy_loc (so := lo) (d := lo') (n := bl.length) hb1 hb2
    (by have := h.fits; omega) hf
  have hb3 : q2.live pb = some blk := by rw [h2, Function.update_of_ne hne]; exact hb1
  have hn0 : n ≠ 0 := by omega
  refine ⟨R.pick q n, (R.alloc n q).2, q2, q2.setBlock pb none, ?_, ⟨_, hb2, rfl⟩, h1, ?_,
    ⟨?_, ?_, ?_, hf, ?_⟩, ?_⟩
  · simp [defaultAllocator, hn0, RawAlloc.alloc]
  · simp [defaultAllocator, rawDealloc, hb3, hs, hr]
  · rw [← h.out _ (Ne.symm hne)]; exact R.fresh q n
  · intro b hbne
    by_cases hbp : b = pb
    · subst hbp; simp [h.fresh]
    · rw [Mem.setBlock_live, Function.update_of_ne hbp, h2, Function.update_of_ne hbne, hl1,
        Function.update_of_ne hbne]
      exact h.out b hbp
  · exact ⟨_, (Function.update_of_ne (Ne.symm hne) ..).trans
      ((congrFun h2 _).trans (Function.update_self ..)), rfl, rfl⟩
  · intro i hi
    have hc := h.cells i hi
    have hlt : lo + i < blk.size := by have := h.fits; omega
    have hlt' : lo' + i < n := by omega
    simp only [Mem.read, Mem.cell, hb, hlt, if_true] at hc
    simp only [Mem.read, Mem.cell, Mem.setBlock_live, Function.update_of_ne (Ne.symm hne), h2,
      Function.update_self, hlt', if_true,
      show lo' ≤ lo' + i ∧ lo' + i < lo' + bl.length from ⟨by omega, by omega⟩, and_self,
      show lo + (lo' + i - lo') = lo + i by omega]
    exact hc
  · exact h5

/-- Where `realloc_ptr_array(1, front)` puts the `used` pointers, which were at `lo` in an array
of `size`: the new size of the array and the new position. -/
def reallocTo (front : Bool) (size lo used : Nat) : Nat × Nat :=
  if front = false ∧ 1 ≤ lo then (size, lo - moreRoom 1 ((lo + 1) / 2))
  else if front = true ∧ 1 ≤ size - lo - used then
    (size, lo + moreRoom 1 ((size - lo - used) / 2))
  else (size + max size 1 + 2, lo + if front = true then 1 else 0)

/-- `realloc_ptr_array(1, front)` makes room at the end asked for and changes nothing else. -/
theorem DRep.realloc (h : DRep E wt wp m d pb lo bo bl xs) (front : Bool)
    (hfull : if front then lo = 0 else lo + bl.length = d.size) :
    ∃ d' p pb' lo', d.realloc E m 1 front = .ok (d', { m with p := p }) ∧
      DRep E wt wp { m with p := p } d' pb' lo' bo bl xs ∧
      (if front then 1 ≤ lo' else lo' + bl.length < d'.size) ∧
      (d'.size, lo') = reallocTo front d.size lo bl.length ∧
      p.copied = m.p.copied + bl.length := by
  have hlen := h.len
  have hdiv := Nat.zero_le ((bo + xs.length) / E.S)
  have hfits := h.p.fits
  have hbl : 0 < bl.length := by omega
  have hused : lo + (bo + xs.length) / E.S - (lo + bo / E.S) + 1 = bl.length := by
    rw [h.bo_div]; omega
  have hfin : ∀ (d1 : Deque) (p : Mem Ptr) (pb' lo' : Nat), d1.ptrs = .loc pb' 0 →
      d1.b = d.b → d1.e = d.e → PtRep wp p pb' d1.size lo' bl →
      ∃ d', (do
          let bp ← p.ptrAdd d1.ptrs lo'
          let b ← d1.b.setSubarray E { m with p := p } bp
          let ep ← p.ptrAdd d1.ptrs (lo' + bl.length - 1)
          let e ← d1.e.setSubarray E { m with p := p } ep
          .ok ({ d1 with b := b, e := e }, { m with p := p }) : Exec (Deque × DMem α)) =
        .ok (d', { m with p := p }) ∧
        DRep E wt wp { m with p := p } d' pb' lo' bo bl xs ∧ d'.size = d1.size := by
    intro d1 p pb' lo' hp1 hb1 he1 hpt
    have e1 : p.ptrAdd (.loc pb' 0) lo' = .ok (.loc pb' (lo' + 0)) := by
      rw [hpt.ptrAdd (by have := hpt.fits; omega), Nat.zero_add, Nat.add_zero]
    have e2 : p.ptrAdd (.loc pb' 0) (lo' + bl.length - 1) =
        .ok (.loc pb' (lo' + (bo + xs.length) / E.S)) := by
      rw [hpt.ptrAdd (by have := hpt.fits; omega), Nat.zero_add]
      congr 2; omega
    refine ⟨⟨.loc pb' 0, d1.size, itAt E.S pb' lo' bl bo,
      itAt E.S pb' lo' bl (bo + xs.length)⟩, ?_, h.moved hpt rfl, rfl⟩
    have hmp : PtRep wp ({ m with p := p } : DMem α).p pb' d1.size lo' bl := hpt
    simp only [hp1, e1, Exec.ok_bind, hb1, he1,
      setSubarray_ok (d := d1) (m := { m with p := p }) hmp h.t d.b hbl, e2,
      setSubarray_ok (d := d1) (m := { m with p := p }) hmp h.t d.e
        (show (bo + xs.length) / E.S < bl.length by omega)]
    rw [h.b, h.e]
    simp only [itAt, h.bo_div]
  have huf : d.b.arr.offsetFrom d.ptrs = .ok lo := by
    rw [h.b, h.ptrs]; simp [itAt, Ptr.offsetFrom, h.bo_div]
  have hus : d.e.arr.offsetFrom d.b.arr = .ok ((bo + xs.length) / E.S) := by
    rw [h.b, h.e]
    simp only [itAt, Ptr.offsetFrom, h.bo_div]
    rw [if_pos ⟨trivial, by omega⟩]
    congr 1; omega
  have hu1 : (bo + xs.length) / E.S + 1 = bl.length := by omega
  have hsrc : m.p.ptrAdd d.ptrs lo = .ok (.loc pb lo) := by
    rw [h.ptrs, h.p.ptrAdd (by omega), Nat.zero_add]
  unfold Deque.realloc
  simp only [huf, hus, Exec.ok_bind, hu1, hsrc]
  by_cases c1 : front = false ∧ 1 ≤ lo
  · -- move the pointers towards the front
    have hroom : moreRoom 1 ((lo + 1) / 2) ≤ lo ∧ 1 ≤ moreRoom 1 ((lo + 1) / 2) := by
      unfold moreRoom; split_ifs <;> omega
    obtain ⟨q', hq1, hq2, hq3⟩ := h.p.shift (lo' := lo - moreRoom 1 ((lo + 1) / 2)) (by omega)
    obtain ⟨d', h1, h2, h3⟩ := hfin d q' pb _ h.ptrs rfl rfl hq2
    refine ⟨d', q', pb, _, ?_, h2, ?_, by rw [h3, reallocTo, if_pos c1], hq3⟩
    · have hdst := h.p.ptrAdd (o := 0) (n := lo - moreRoom 1 ((lo + 1) / 2)) (by omega)
      rw [← h.ptrs, Nat.zero_add] at hdst
      rw [if_pos c1, if_pos (by omega)]
      simp only [hdst, Exec.ok_bind, hq1]
      exact h1
    · simp only [c1.1, Bool.false_eq_true, if_false] at hfull ⊢
      omega
  · rw [if_neg c1]
    by_cases c2 : front = true ∧ 1 ≤ d.size - lo - bl.length
    · -- move the pointers towards the back
      have hroom : moreRoom 1 ((d.size - lo - bl.length) / 2) ≤ d.size - lo - bl.length ∧
          1 ≤ moreRoom 1 ((d.size - lo - bl.length) / 2) := by
        unfold moreRoom; split_ifs <;> omega
      obtain ⟨q', hq1, hq2, hq3⟩ := h.p.shift
        (lo' := lo + moreRoom 1 ((d.size - lo - bl.length) / 2)) (by omega)
      obtain ⟨d', h1, h2, h3⟩ := hfin d q' pb _ h.ptrs rfl rfl hq2
      refine ⟨d', q', pb, _, ?_, h2, ?_, by rw [h3, reallocTo, if_neg c1, if_pos c2], hq3⟩
      · have hdst := h.p.ptrAdd (o := 0)
          (n := lo + moreRoom 1 ((d.size - lo - bl.length) / 2)) (by omega)
        rw [← h.ptrs, Nat.zero_add] at hdst
        rw [if_pos c2, if_pos (by omega)]
        simp only [hdst, Exec.ok_bind, hq1]
        exact h1
      · simp only [c2.1, if_true]
        omega
    · rw [if_neg c2]
      -- a larger array
      have hfit : (lo + if front = true then 1 else 0) + bl.length ≤
          d.size + max d.size 1 + 2 := by
        split_ifs <;> omega
      obtain ⟨pb', q1, q2, q3, ha, ⟨bk, hbk, hbks⟩, hc, hdl, hpt, hcp⟩ :=
        h.p.grow E.Rp hfit (by omega)
      obtain ⟨d', h1, h2, h3⟩ := hfin
        ⟨.loc pb' 0, d.size + max d.size 1 + 2, d.b, d.e⟩ q3 pb' _ rfl rfl rfl hpt
      refine ⟨d', q3, pb', _, ?_, h2, ?_, by rw [h3, reallocTo, if_neg c1, if_neg c2], hcp⟩
      · have hdst : q1.ptrAdd (.loc pb' 0) (lo + if front = true then 1 else 0) =
            .ok (.loc pb' (lo + if front = true then 1 else 0)) := by
          rw [Mem.ptrAdd_loc hbk (by omega), Nat.zero_add]
        simp only [DMem.allocPtrs, ha, Exec.ok_bind, if_pos hfit, hdst, hc, Deque.freePtrs,
          h.ptrs, hdl]
        exact h1
      · rw [h3]
        split_ifs with hfr
        · omega
        · simp only [hfr, Bool.false_eq_true, if_false] at hfull ⊢
          show lo + 0 + bl.length < d.size + max d.size 1 + 2
          omega

end

end Verif
