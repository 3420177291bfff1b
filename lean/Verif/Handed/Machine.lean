import Verif.Deque.LimitsProofs
import Verif.Handed.Proofs
import Verif.Machine.Hash

/-! Deques and hash tables in any state that C++ may leave behind, with the integers of the machine. -/

set_option autoImplicit false

namespace Verif
open Spec

section
variable {α : Type} {E : DEnv α} {wt : World α} {wp : World Ptr} {m : DMem α} {d : Deque}
  {pb lo bo : Nat} {bl : List Nat} {xs : List α}

/-- A full pointer array of this size belongs to so many elements. -/
theorem DRep.full_length (h : DRep E wt wp m d pb lo bo bl xs) {q : Nat} (hq : q + 3 ≤ bl.length) :
    (q + 1) * E.S < xs.length + 1 := by
  have hb := h.b_lt
  have hlen := h.len
  have hdm := Nat.div_add_mod (bo + xs.length) E.S
  have h1 : E.S * (q + 2) ≤ E.S * ((bo + xs.length) / E.S) := Nat.mul_le_mul_left _ (by omega)
  have h2 : E.S * (q + 2) = (q + 1) * E.S + E.S := by ring
  omega

/-- One call on a deque of any size, short enough. -/
theorem DRep.stepW_small (h : DRep E wt wp m d pb lo bo bl xs) (hsz : d.size < 2 ^ 32) (B : Build)
    (op : DeqOp α) (hl : op.isPush = true → xs.length < (2 ^ 31 - 3) * E.S) :
    ∃ d' m', d.stepW B E op m = .ok (some (op.step xs).1, d', m') ∧
      d.step E op m = .ok ((op.step xs).1, d', m') ∧ d'.size < 2 ^ 32 ∧
      ∃ pb' lo' bo' bl', DRep E wt wp m' d' pb' lo' bo' bl' (op.step xs).2 := by
  have hfits := h.p.fits
  have hpos := h.bl_pos
  have hgrow : op.isPush = true → bl.length = d.size → d.size + max d.size 1 + 2 < 2 ^ 32 := by
    intro hp hb
    by_contra hc
    have h1 := h.full_length (q := 2 ^ 31 - 4) (by omega)
    have h2 := hl hp
    omega
  cases op with
  | pushBack x =>
    obtain ⟨d', m', pb', lo', bl', h1, h2, _, _, h4⟩ := h.pushBack x
    have hfit : lo + bl.length = d.size → (reallocTo false d.size lo bl.length).1 < 2 ^ 32 := by
      intro c2
      by_cases hl : 1 ≤ lo
      · rw [reallocTo_moves (.inl ⟨rfl, hl⟩)]; exact hsz
      · have := hgrow rfl (by omega)
        simpa [reallocTo, show lo = 0 by omega] using this
    have hW := h.pushBackW B x h1 fun _ c2 => hfit c2
    refine ⟨d', m', by simp [Deque.stepW, hW, DeqOp.step], by simp [Deque.step, h1, DeqOp.step], ?_,
      pb', lo', bo, bl', h2⟩
    split_ifs at h4 with hc
    · have he := congrArg Prod.fst h4.1
      simp only at he
      rw [he]
      exact hfit hc.2
    · rw [h4.1]; exact hsz
  | pushFront x =>
    obtain ⟨d', m', pb', lo', bo', bl', h1, h2, _, _, h4⟩ := h.pushFront x
    have hfit : lo = 0 → (reallocTo true d.size lo bl.length).1 < 2 ^ 32 := by
      intro c2
      by_cases hl : 1 ≤ d.size - lo - bl.length
      · rw [reallocTo_moves (.inr ⟨rfl, hl⟩)]; exact hsz
      · have := hgrow rfl (by omega)
        rw [reallocTo, if_neg (by simp), if_neg (by omega)]
        exact this
    have hW := h.pushFrontW B x h1 fun _ c2 => hfit c2
    refine ⟨d', m', by simp [Deque.stepW, hW, DeqOp.step], by simp [Deque.step, h1, DeqOp.step], ?_,
      pb', lo', bo', bl', h2⟩
    split_ifs at h4 with hc hl
    · have he := congrArg Prod.fst h4.2.2.1
      simp only at he
      rw [he]
      exact hfit hl
    · rw [h4.2.2.1]; exact hsz
    · rw [h4.2.2.1]; exact hsz
  | popBack | popFront | front | back | setFront x | setBack x | remove i | len | isEmpty =>
    obtain ⟨m0, rfl, rfl⟩ := h.world
    obtain ⟨d', m', e1, ⟨pb', lo', bo', bl', e2⟩, _⟩ :=
      DInv.step (m0 := m0) ⟨pb, lo, bo, bl, h⟩ _
    exact ⟨d', m', by simp only [Deque.stepW, e1, Exec.ok_bind], e1,
      by rw [Deque.step_size rfl e1]; exact hsz, _, _, _, _, e2⟩

/-- A history on a deque of any size that stays short enough. -/
theorem DRep.runW_small (B : Build) : ∀ (ops : List (DeqOp α)) {m : DMem α} {d : Deque}
    {pb lo bo : Nat} {bl : List Nat} {xs : List α}, DRep E wt wp m d pb lo bo bl xs →
    d.size < 2 ^ 32 → DeqOp.peak ops xs ≤ (2 ^ 31 - 3) * E.S →
    ∃ d' m', Deque.runW B E ops d m = .ok ((DeqOp.run ops xs).1.map some, d', m') ∧
      Deque.run E ops d m = .ok ((DeqOp.run ops xs).1, d', m')
  | [], m, d, _, _, _, _, xs, _, _, _ => ⟨d, m, rfl, rfl⟩
  | op :: ops, m, d, _, _, _, _, xs, h, hsz, hp => by
    simp only [DeqOp.peak] at hp
    have hle : (op.step xs).2.length ≤ DeqOp.peak ops (op.step xs).2 := by
      cases ops
      · exact Nat.le_refl _
      · exact Nat.le_max_left _ _
    obtain ⟨d1, m1, e1, e2, e3, _, _, _, _, e4⟩ := h.stepW_small hsz B op (by
      intro hpush
      have h1 : (op.step xs).2.length = xs.length + 1 := by
        cases op <;> first | (simp [DeqOp.step]; done) | exact absurd hpush (by simp [DeqOp.isPush])
      omega)
    obtain ⟨d', m', f1, f2⟩ := DRep.runW_small B ops e4 e3 (by omega)
    exact ⟨d', m', by simp only [Deque.runW, e1, Exec.ok_bind, f1, DeqOp.run, List.map_cons],
      by simp only [Deque.run, e2, Exec.ok_bind, f2, DeqOp.run]⟩

/-- Why an array cannot grow: the sum, or what is left of it, is too small. -/
theorem growPtrs_large (B : Build) {n : Nat} (h : 2 ^ 31 - 1 ≤ n) (h' : n < 2 ^ 32) :
    B.growPtrs n 1 = match B with
      | .debug => .error .panic
      | .release => .ok ((n + n + 2) % 2 ^ 32) := by
  unfold Build.growPtrs Build.wrapTo
  have hm : max n 1 = n := by omega
  have hc : ((max n 1 : Nat) : Int) = (n : Int) := by rw [hm]
  cases B with
  | debug =>
    dsimp only
    by_cases h1 : n + n < 2 ^ 32
    · rw [if_pos (by omega), Exec.ok_bind, if_neg (by omega)]
    · rw [if_neg (by omega)]; rfl
  | release =>
    dsimp only
    by_cases h1 : n + n < 2 ^ 32
    · rw [if_pos (by omega), Exec.ok_bind, if_neg (by omega)]
      refine congrArg Except.ok ?_
      omega
    · rw [if_neg (by omega), Exec.ok_bind]
      split_ifs
      · refine congrArg Except.ok ?_
        omega
      · refine congrArg Except.ok ?_
        omega

/-- A full pointer array of such a size stays as it is. -/
theorem DRep.reallocW_large (h : DRep E wt wp m d pb lo bo bl xs) (B : Build) (front : Bool)
    (h1 : 2 ^ 31 - 1 ≤ d.size) (h2 : d.size < 2 ^ 32) (hlo : lo = 0) (hbl : bl.length = d.size)
    (h3 : B = .release → d.size = 2 ^ 32 - 2 → front = true) :
    d.reallocW B E m 1 front = .error .panic ∨
    ∃ m' : DMem α, d.reallocW B E m 1 front = .ok (false, d, m') := by
  have hu1 : (bo + xs.length) / E.S + 1 = bl.length := h.len.symm
  unfold Deque.reallocW
  simp only [h.unusedFront, h.usedPtrs, Exec.ok_bind, hu1, h.srcPtr]
  rw [if_neg (by omega), growPtrs_large B h1 h2]
  cases B with
  | debug => exact .inr ⟨m, rfl⟩
  | release =>
    have h3 := h3 rfl
    dsimp only
    by_cases h0 : (d.size + d.size + 2) % 2 ^ 32 = 0
    · left
      simp only [DMem.allocPtrs, defaultAllocator, h0, if_true, Exec.error_bind]
    · right
      simp only [DMem.allocPtrs, defaultAllocator, h0, if_false, Exec.ok_bind]
      refine ⟨{ m with p := (E.Rp.alloc ((d.size + d.size + 2) % 2 ^ 32) m.p).2 }, ?_⟩
      rw [if_neg]
      cases front with
      | true => simp only [if_true]; omega
      | false =>
        have : d.size ≠ 2 ^ 32 - 2 := fun e => by cases h3 e
        simp only [Bool.false_eq_true, if_false]
        omega

theorem growPtrs_same {n : Nat} (h : n = 2 ^ 32 - 2) : Build.release.growPtrs n 1 = .ok n := by
  have h1 := growPtrs_large .release (n := n) (by omega) (by omega)
  have h2 : (n + n + 2) % 2 ^ 32 = n := by omega
  rw [h1]
  dsimp only
  rw [h2]

/-- In a release build an array whose size wraps around to itself is replaced by one of the same size. -/
theorem DRep.reallocW_same (h : DRep E wt wp m d pb lo bo bl xs) {B : Build}
    (hg : B.growPtrs d.size 1 = .ok d.size) (hlo : lo = 0) (hbl : bl.length = d.size)
    {front : Bool} (hf : front = false) :
    ∃ d' p pb', d.reallocW B E m 1 front = .ok (true, d', { m with p := p }) ∧
      DRep E wt wp { m with p := p } d' pb' 0 bo bl xs ∧ d'.size = d.size := by
  have hu1 : (bo + xs.length) / E.S + 1 = bl.length := h.len.symm
  have hpos := h.bl_pos
  obtain ⟨pb', q1, q2, q3, ha, ⟨bk, hbk, hbks⟩, hc, hdl, hpt, _⟩ :=
    h.p.grow (lo' := 0) (n := d.size) E.Rp (by omega) (by omega)
  have hb0 : bo / E.S = 0 := h.bo_div
  refine ⟨⟨.loc pb' 0, d.size, itAt E.S pb' 0 bl bo, itAt E.S pb' 0 bl (bo + xs.length)⟩, q3, pb',
    ?_, h.moved hpt rfl, rfl⟩
  unfold Deque.reallocW
  simp only [h.unusedFront, h.usedPtrs, Exec.ok_bind, hu1, h.srcPtr]
  rw [if_neg (by simp [hf]; omega), hg]
  have hst : (if front = true then 1 else 0) = 0 := by simp [hf]
  have hdst : q1.ptrAdd (.loc pb' 0) 0 = .ok (.loc pb' 0) := by
    rw [Mem.ptrAdd_loc hbk (by omega)]
  have e1 : q3.ptrAdd (.loc pb' 0) 0 = .ok (.loc pb' (0 + 0)) := by
    rw [hpt.ptrAdd (by omega)]
  have e2 : q3.ptrAdd (.loc pb' 0) (bl.length - 1) =
      .ok (.loc pb' (0 + (bo + xs.length) / E.S)) := by
    rw [hpt.ptrAdd (by omega)]
    exact congrArg (fun o => (.ok (.loc pb' o) : Exec Ptr)) (by omega)
  have hmp : PtRep wp ({ m with p := q3 } : DMem α).p pb'
    (⟨.loc pb' 0, d.size, d.b, d.e⟩ : Deque).size 0 bl := hpt
  rw [hlo] at hc
  simp only [DMem.allocPtrs, ha, Exec.ok_bind, hst, hlo, Nat.zero_add, Nat.add_zero] at hdst e1 e2 ⊢
  rw [if_pos (by omega)]
  have s1 := setSubarray_ok (d := ⟨.loc pb' 0, d.size, d.b, d.e⟩) (m := { m with p := q3 }) hmp h.t
    d.b (i := 0) (by omega)
  have s2 := setSubarray_ok (d := ⟨.loc pb' 0, d.size, d.b, d.e⟩) (m := { m with p := q3 }) hmp h.t
    d.e (show (bo + xs.length) / E.S < bl.length by omega)
  simp only [Nat.zero_add] at s1 s2
  simp only [hdst, hc, Exec.ok_bind, Deque.freePtrs, h.ptrs, hdl, e1, e2, s1, s2]
  rw [h.b, h.e]
  simp only [itAt, hb0, Nat.zero_add]

/-- So the push writes behind it. -/
theorem DRep.pushBackW_overrun (h : DRep E wt wp m d pb lo bo bl xs) (hsz : d.size = 2 ^ 32 - 2)
    (hlo : lo = 0) (hbl : bl.length = d.size) (hend : (bo + xs.length) % E.S + 1 = E.S) (x : α) :
    d.pushBackW .release E x m = .error .ub := by
  have hpos := h.bl_pos
  have hS := h.S_pos
  obtain ⟨d', p, pb', e1, h', hs'⟩ := h.reallocW_same (growPtrs_same hsz) hlo hbl rfl
  have hu1 : (bo + xs.length) / E.S + 1 = bl.length := h.len.symm
  unfold Deque.pushBackW
  simp only [h.lastPtr, h.lastSlot, Exec.ok_bind, h.atEnd.2 hend,
    h.atLastSlot.2 (show lo + bl.length = d.size by omega), ne_eq, not_true_eq_false, if_false,
    if_true, e1]
  have he : d'.e = itAt E.S pb' 0 bl (bo + xs.length) := h'.e
  have hcur : d'.e.current = .loc (bl.getD ((bo + xs.length) / E.S) 0) (E.S - 1) := h'.atEnd.2 hend
  have hin : (bo + xs.length) / E.S < bl.length := by omega
  obtain ⟨t, ht⟩ : ∃ t, m.t.write d'.e.current x = .ok t := by
    rw [hcur]
    obtain ⟨blk, hb, hsz, _⟩ := h.t.ins _ (List.getElem_mem hin)
    rw [show bl.getD ((bo + xs.length) / E.S) 0 = bl[(bo + xs.length) / E.S] by simp [hin]]
    exact ⟨_, Mem.write_loc x hb (by omega)⟩
  have harr : d'.e.arr = .loc pb' (d.size - 1) := by
    rw [he]; simp only [itAt, Nat.zero_add, Ptr.loc.injEq, true_and]; omega
  obtain ⟨blk, hb, hbs, _⟩ := h'.p.ins
  have hslot : p.ptrAdd d'.e.arr 1 = .ok (.loc pb' d.size) := by
    rw [harr, Mem.ptrAdd_loc hb (by omega)]
    exact congrArg (fun o => (.ok (.loc pb' o) : Exec Ptr)) (by omega)
  simp only [ht, hslot, Exec.ok_bind]
  simp only [DMem.allocSub, defaultAllocator, if_neg (show ¬ E.S = 0 by omega), Exec.ok_bind]
  have hw : ∀ s : Ptr, p.write (.loc pb' d.size) s = .error .ub := by
    intro s
    simp only [Mem.write]
    rw [hb]
    simp only [if_neg (show ¬ d.size < blk.size by omega)]
  simp only [hw, Exec.error_bind]

end

section
variable {K V σ : Type}

/-- A history does the same on the machine. -/
theorem HRepP.runM {P : Nat → Nat → Nat → Prop} {most : Nat} {E : HEnv K V σ}
    {Inv : σ → HNMem K V → List Nat → Prop} {w : World Nat}
    {wn : Nat → Option (Option (HCell K V))} (hP : PolicyLaw P most) (hm : most + 1 < 2 ^ 32)
    (L : HLaw E Inv) (he : PartialEquiv E.eq) (hh : HashOk E) (B : Build) (ops : List (MapOp K V)) :
    ∀ {m : HMem K V} {t : HTable σ} {peak : Nat} {bl : List Nat} {cs : List (List (Nat × K × V))},
    HRepP P True E Inv w wn m t peak bl cs → MapOp.peak E.eq ops (ents cs) ≤ most →
    t.runM B E ops m = t.run E ops m := by
  induction ops with
  | nil => intros; rfl
  | cons op ops ih =>
    intro m t peak bl cs h hmax
    have hle := le_peak E.eq ops (op.step E.eq (ents cs)).2
    have hcnt : t.count = (ents cs).length := by rw [ents_length]; exact h.count
    simp only [MapOp.peak] at hmax
    obtain ⟨t1, m1, bl1, cs1, e1, e2⟩ := h.step hP L he hh op (by omega)
    have hs := HTable.stepM_eq B E op t m (by omega) fun k _ => by
      have hk : ((MapOp.removeEntry k : MapOp K V).step E.eq (ents cs)).2.length ≤ most := by
        have h1 := List.length_filter_le (fun p => !E.eq p.1 k) (ents cs)
        simp only [MapOp.step, eraseKey]
        omega
      obtain ⟨t', m', _, _, e, _⟩ := h.step hP L he hh (.removeEntry k) hk
      simp only [HTable.step] at e
      obtain ⟨r, hr, _⟩ := Exec.bind_ok e
      exact ⟨r, hr⟩
    simp only [HTable.runM, HTable.run, hs, e1, Exec.ok_bind]
    have hp := e2.perm
    obtain ⟨_, a2⟩ := allDrops_perm he ops hp (e2.rep.core.distinct)
    rw [ih e2.rep (by rw [a2]; omega)]

end

end Verif
