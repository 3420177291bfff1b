import Verif.Deque.Limits
import Verif.Deque.Cost

/-! What the size of the pointer array, a `u32`, does to histories of calls on a deque. -/

set_option autoImplicit false

namespace Verif
open Spec

variable {α : Type}

theorem wrapTo_nat (B : Build) {M n : Nat} {x : Int} (hx : x = n) (h : n < M) :
    B.wrapTo M x = .ok n := by
  subst hx
  unfold Build.wrapTo
  rw [if_pos (by omega), Int.toNat_natCast]

theorem growPtrs_fits (B : Build) {n : Nat} (h : n + max n 1 + 2 < 2 ^ 32) :
    B.growPtrs n 1 = .ok (n + max n 1 + 2) := by
  unfold Build.growPtrs
  rw [wrapTo_nat B (n := n + max n 1) (by omega) (by omega)]
  rw [Exec.ok_bind, wrapTo_nat B (n := n + max n 1 + 2) (by omega) h]

theorem growPtrs_over (B : Build) {n : Nat} (h : n = 10 * 2 ^ 28 - 2) :
    B.growPtrs n 1 = match B with
      | .debug => .error .panic
      | .release => .ok 1073741822 := by
  subst h
  cases B <;> rfl

/-- What a panicking push leaves: the pointer arrays `wp'` instead of `wp` are not the deque's. -/
def Leaks (B : Build) (wp wp' : World Ptr) : Prop :=
  match B with
  | .debug => wp' = wp
  | .release => ∃ b, wp b = none ∧
      wp' = Function.update wp b (some ⟨1073741822, .heap, fun _ => none⟩)

section
variable {E : DEnv α} {wt : World α} {wp : World Ptr} {m : DMem α} {d : Deque}
  {pb lo bo : Nat} {bl : List Nat} {xs : List α}

theorem DRep.unusedFront (h : DRep E wt wp m d pb lo bo bl xs) :
    d.b.arr.offsetFrom d.ptrs = .ok lo := by
  rw [h.b, h.ptrs]; simp [itAt, Ptr.offsetFrom, h.bo_div]

theorem DRep.usedPtrs (h : DRep E wt wp m d pb lo bo bl xs) :
    d.e.arr.offsetFrom d.b.arr = .ok ((bo + xs.length) / E.S) := by
  have h0 := Nat.zero_le ((bo + xs.length) / E.S)
  rw [h.b, h.e]
  simp only [itAt, Ptr.offsetFrom, h.bo_div]
  rw [if_pos ⟨trivial, by omega⟩]
  congr 1; omega

theorem DRep.srcPtr (h : DRep E wt wp m d pb lo bo bl xs) :
    m.p.ptrAdd d.ptrs lo = .ok (.loc pb lo) := by
  rw [h.ptrs, h.p.ptrAdd (by have := h.p.fits; omega), Nat.zero_add]

/-- Where the new size fits, `realloc_ptr_array` is the function of the unbounded model. -/
theorem DRep.reallocW (h : DRep E wt wp m d pb lo bo bl xs) (B : Build) (front : Bool)
    {d' : Deque} {m' : DMem α} (hr : d.realloc E m 1 front = .ok (d', m'))
    (hfit : (reallocTo front d.size lo bl.length).1 < 2 ^ 32) :
    d.reallocW B E m 1 front = .ok (true, d', m') := by
  have hu1 : (bo + xs.length) / E.S + 1 = bl.length := h.len.symm
  unfold Deque.reallocW
  simp only [h.unusedFront, h.usedPtrs, Exec.ok_bind, hu1, h.srcPtr]
  by_cases c : (front = false ∧ 1 ≤ lo) ∨ (front = true ∧ 1 ≤ d.size - lo - bl.length)
  · rw [if_pos c, hr]; rfl
  · rw [if_neg c]
    obtain ⟨c1, c2⟩ := not_or.1 c
    rw [reallocTo, if_neg c1, if_neg c2] at hfit
    rw [growPtrs_fits B hfit]
    unfold Deque.realloc at hr
    simp only [h.unusedFront, h.usedPtrs, Exec.ok_bind, hu1, h.srcPtr, if_neg c1, if_neg c2] at hr
    obtain ⟨⟨d1, m1, n1⟩, hr1, hr⟩ := Exec.of_bind_ok hr
    obtain ⟨⟨a, m2⟩, ha, hr1⟩ := Exec.of_bind_ok hr1
    simp only [ha, Exec.ok_bind]
    have hf := h.p.fits
    rw [if_pos (by split_ifs <;> omega)] at hr1
    rw [if_pos (by split_ifs <;> omega)]
    obtain ⟨dst, hdst, hr1⟩ := Exec.of_bind_ok hr1
    obtain ⟨p, hp, hr1⟩ := Exec.of_bind_ok hr1
    obtain ⟨m3, hm3, hr1⟩ := Exec.of_bind_ok hr1
    simp only [Except.ok.injEq, Prod.mk.injEq] at hr1
    obtain ⟨rfl, rfl, rfl⟩ := hr1
    obtain ⟨bp, hbp, hr⟩ := Exec.of_bind_ok hr
    obtain ⟨b, hb, hr⟩ := Exec.of_bind_ok hr
    obtain ⟨ep, hep, hr⟩ := Exec.of_bind_ok hr
    obtain ⟨e, he, hr⟩ := Exec.of_bind_ok hr
    simp only [Except.ok.injEq, Prod.mk.injEq] at hr
    obtain ⟨rfl, rfl⟩ := hr
    simp only [hdst, hp, hm3, hbp, hb, hep, he, Exec.ok_bind]

/-- Where it does not fit, nothing of the deque changes; a release build leaks an array. -/
theorem DRep.reallocW_over (h : DRep E wt wp m d pb lo bo bl xs) (B : Build) (front : Bool)
    (hsz : d.size = 10 * 2 ^ 28 - 2) (hlo : lo = 0) (hbl : bl.length = d.size) :
    ∃ (m' : DMem α) (wp' : World Ptr), d.reallocW B E m 1 front = .ok (false, d, m') ∧
      DRep E wt wp' m' d pb lo bo bl xs ∧ m'.t = m.t ∧
      Leaks B wp wp' := by
  have hu1 : (bo + xs.length) / E.S + 1 = bl.length := h.len.symm
  unfold Deque.reallocW
  simp only [h.unusedFront, h.usedPtrs, Exec.ok_bind, hu1, h.srcPtr]
  rw [if_neg (by omega), growPtrs_over B hsz]
  cases B with
  | debug => exact ⟨m, wp, rfl, h, rfl, rfl⟩
  | release =>
    have hfr := E.Rp.fresh m.p 1073741822
    have hne : pb ≠ E.Rp.pick m.p 1073741822 := by
      intro e
      obtain ⟨blk, hb, _⟩ := h.p.ins
      rw [← e, hb] at hfr; cases hfr
    have hlive : (E.Rp.alloc 1073741822 m.p).2.live =
        Function.update m.p.live (E.Rp.pick m.p 1073741822)
          (some ⟨1073741822, .heap, fun _ => none⟩) := rfl
    have hold : (E.Rp.alloc 1073741822 m.p).2.live pb = m.p.live pb := by
      rw [hlive, Function.update_of_ne hne]
    have halloc : m.allocPtrs E 1073741822 =
        .ok (.loc (E.Rp.pick m.p 1073741822) 0, { m with p := (E.Rp.alloc 1073741822 m.p).2 }) := rfl
    simp only [halloc, Exec.ok_bind]
    refine ⟨{ m with p := (E.Rp.alloc 1073741822 m.p).2 },
      Function.update wp (E.Rp.pick m.p 1073741822) (some ⟨1073741822, .heap, fun _ => none⟩),
      ?_, ⟨h.t, ⟨?_, ?_, ?_, h.p.fits, ?_⟩, h.ptrs, h.b_lt, h.b, h.e, h.len, h.vals⟩, rfl,
      E.Rp.pick m.p 1073741822, ?_, rfl⟩
    · rw [if_neg (by split_ifs <;> omega)]
    · rw [Function.update_of_ne hne]; exact h.p.fresh
    · intro b hb
      rw [hlive]
      by_cases he : b = E.Rp.pick m.p 1073741822
      · rw [he, Function.update_self, Function.update_self]
      · rw [Function.update_of_ne he, Function.update_of_ne he]; exact h.p.out b hb
    · rw [hold]; exact h.p.ins
    · intro i hi
      rw [Mem.read_congr hold]; exact h.p.cells i hi
    · rw [← h.p.out _ (Ne.symm hne)]; exact hfr

theorem DRep.lastPtr (h : DRep E wt wp m d pb lo bo bl xs) :
    m.t.ptrSub d.e.last 1 = .ok (.loc (bl.getD ((bo + xs.length) / E.S) 0) (E.S - 1)) := by
  rw [h.e]
  exact h.t.ptrSub (h.idx_lt (Nat.le_refl xs.length)) h.S_pos

theorem DRep.lastSlot (h : DRep E wt wp m d pb lo bo bl xs) :
    m.p.ptrAdd d.ptrs (d.size - 1) = .ok (.loc pb (d.size - 1)) := by
  rw [h.ptrs, h.p.ptrAdd (by have := h.p.fits; have := h.bl_pos; omega), Nat.zero_add]

theorem DRep.atEnd (h : DRep E wt wp m d pb lo bo bl xs) :
    d.e.current = .loc (bl.getD ((bo + xs.length) / E.S) 0) (E.S - 1) ↔
      (bo + xs.length) % E.S + 1 = E.S := by
  have := h.S_pos
  rw [h.e]
  simp only [itAt, cellPtr, Ptr.loc.injEq, true_and]
  omega

theorem DRep.atLastSlot (h : DRep E wt wp m d pb lo bo bl xs) :
    d.e.arr = .loc pb (d.size - 1) ↔ lo + bl.length = d.size := by
  have h1 := h.p.fits
  have h2 := h.len
  rw [h.e]
  simp only [itAt, Ptr.loc.injEq, true_and]
  generalize (bo + xs.length) / E.S = q at h2 ⊢
  omega

/-- Where the array need not grow or can, `push_back` is the function of the unbounded model. -/
theorem DRep.pushBackW (h : DRep E wt wp m d pb lo bo bl xs) (B : Build) (x : α) {d' : Deque}
    {m' : DMem α} (hp : d.pushBack E x m = .ok (d', m'))
    (hfit : (bo + xs.length) % E.S + 1 = E.S → lo + bl.length = d.size →
      (reallocTo false d.size lo bl.length).1 < 2 ^ 32) :
    d.pushBackW B E x m = .ok (true, d', m') := by
  unfold Deque.pushBack at hp
  unfold Deque.pushBackW
  simp only [h.lastPtr, Exec.ok_bind] at hp ⊢
  split at hp
  · rename_i hc
    rw [if_pos hc]
    obtain ⟨t, ht, hp⟩ := Exec.of_bind_ok hp
    obtain ⟨c, hcc, hp⟩ := Exec.of_bind_ok hp
    simp only [Except.ok.injEq, Prod.mk.injEq] at hp
    obtain ⟨rfl, rfl⟩ := hp
    simp only [ht, hcc, Exec.ok_bind]
  · rename_i hc
    rw [if_neg hc]
    rw [not_not] at hc
    simp only [h.lastSlot, Exec.ok_bind] at hp ⊢
    obtain ⟨⟨d1, m1⟩, hr, hp⟩ := Exec.of_bind_ok hp
    have hr' : (if d.e.arr = .loc pb (d.size - 1) then d.reallocW B E m 1 false
        else .ok (true, d, m)) = .ok (true, d1, m1) := by
      split at hr
      · rename_i he
        rw [if_pos he]
        exact h.reallocW B false hr (hfit (h.atEnd.1 hc) (h.atLastSlot.1 he))
      · rename_i he
        rw [if_neg he]
        simp only [Except.ok.injEq, Prod.mk.injEq] at hr
        rw [hr.1, hr.2]
    rw [hr']
    simp only [Exec.ok_bind, if_true]
    obtain ⟨t, ht, hp⟩ := Exec.of_bind_ok hp
    obtain ⟨sl, hsl, hp⟩ := Exec.of_bind_ok hp
    obtain ⟨⟨s, m2⟩, hs, hp⟩ := Exec.of_bind_ok hp
    obtain ⟨p, hpp, hp⟩ := Exec.of_bind_ok hp
    obtain ⟨e, he, hp⟩ := Exec.of_bind_ok hp
    simp only [Except.ok.injEq, Prod.mk.injEq] at hp
    obtain ⟨rfl, rfl⟩ := hp
    simp only [ht, hsl, hs, hpp, he, Exec.ok_bind]

theorem DRep.atBegin (h : DRep E wt wp m d pb lo bo bl xs) :
    d.b.current = d.b.first ↔ bo = 0 := by
  rw [h.b]
  simp [itAt, cellPtr, h.bo_mod]

theorem DRep.atFirstSlot (h : DRep E wt wp m d pb lo bo bl xs) : d.b.arr = d.ptrs ↔ lo = 0 := by
  rw [h.b, h.ptrs]
  simp [itAt, h.bo_div]

/-- Where the array need not grow or can, `push_front` is the function of the unbounded model. -/
theorem DRep.pushFrontW (h : DRep E wt wp m d pb lo bo bl xs) (B : Build) (x : α) {d' : Deque}
    {m' : DMem α} (hp : d.pushFront E x m = .ok (d', m'))
    (hfit : bo = 0 → lo = 0 → (reallocTo true d.size lo bl.length).1 < 2 ^ 32) :
    d.pushFrontW B E x m = .ok (true, d', m') := by
  unfold Deque.pushFront at hp
  unfold Deque.pushFrontW
  obtain ⟨⟨d1, m1⟩, h1, hp⟩ := Exec.of_bind_ok hp
  obtain ⟨t, ht, hp⟩ := Exec.of_bind_ok hp
  simp only [Except.ok.injEq, Prod.mk.injEq] at hp
  obtain ⟨rfl, rfl⟩ := hp
  split at h1
  · rename_i hc
    rw [if_pos hc]
    obtain ⟨c, hcc, h1⟩ := Exec.of_bind_ok h1
    simp only [Except.ok.injEq, Prod.mk.injEq] at h1
    obtain ⟨rfl, rfl⟩ := h1
    simp only [hcc, Exec.ok_bind, if_true, ht]
  · rename_i hc
    rw [if_neg hc]
    rw [not_not] at hc
    obtain ⟨⟨d2, m2⟩, hr, h1⟩ := Exec.of_bind_ok h1
    have hr' : (if d.b.arr = d.ptrs then d.reallocW B E m 1 true
        else .ok (true, d, m)) = .ok (true, d2, m2) := by
      split at hr
      · rename_i he
        rw [if_pos he]
        exact h.reallocW B true hr (hfit (h.atBegin.1 hc) (h.atFirstSlot.1 he))
      · rename_i he
        rw [if_neg he]
        simp only [Except.ok.injEq, Prod.mk.injEq] at hr
        rw [hr.1, hr.2]
    rw [hr']
    obtain ⟨sl, hsl, h1⟩ := Exec.of_bind_ok h1
    obtain ⟨⟨s, m3⟩, hs, h1⟩ := Exec.of_bind_ok h1
    obtain ⟨p, hpp, h1⟩ := Exec.of_bind_ok h1
    obtain ⟨b, hb, h1⟩ := Exec.of_bind_ok h1
    obtain ⟨c, hc, h1⟩ := Exec.of_bind_ok h1
    simp only [Except.ok.injEq, Prod.mk.injEq] at h1
    obtain ⟨rfl, rfl⟩ := h1
    simp only [hsl, hs, hpp, hb, hc, ht, Exec.ok_bind, if_true]

end

/-- The deque and the sizes its pointer array can have. -/
def WInv (E : DEnv α) (wt : World α) (wp : World Ptr) (m : DMem α) (d : Deque) (xs : List α) :
    Prop :=
  ∃ pb lo bo bl, DRep E wt wp m d pb lo bo bl xs ∧ ∃ k, k ≤ 28 ∧ d.size + 2 = 10 * 2 ^ k

/-- The size grows along the sequence 8, 18, 38, …. -/
theorem reallocTo_size {front : Bool} {size lo used k : Nat} (hk : size + 2 = 10 * 2 ^ k)
    (hlt : k < 28) : (reallocTo front size lo used).1 < 2 ^ 32 ∧
      ∃ k', k' ≤ 28 ∧ (reallocTo front size lo used).1 + 2 = 10 * 2 ^ k' := by
  have h1 : 2 ^ (k + 1) ≤ 2 ^ 28 := Nat.pow_le_pow_right (by omega) (by omega)
  have h2 : 2 ^ (k + 1) = 2 * 2 ^ k := by rw [Nat.pow_succ]; omega
  have h3 : 1 ≤ 2 ^ k := Nat.pow_pos (by omega)
  unfold reallocTo
  split_ifs
  · exact ⟨by simp only; omega, k, by omega, hk⟩
  · exact ⟨by simp only; omega, k, by omega, hk⟩
  all_goals
    refine ⟨?_, k + 1, by omega, ?_⟩
    · simp only; omega
    · simp only; omega

/-- Moving pointers does not change the size. -/
theorem reallocTo_moves {front : Bool} {size lo used : Nat}
    (h : (front = false ∧ 1 ≤ lo) ∨ (front = true ∧ 1 ≤ size - lo - used)) :
    (reallocTo front size lo used).1 = size := by
  unfold reallocTo
  rcases h with h | h
  · rw [if_pos h]
  · rw [if_neg (by rw [h.1]; simp), if_pos h]

theorem WInv.size_le {E : DEnv α} {wt : World α} {wp : World Ptr} {m : DMem α} {d : Deque}
    {xs : List α} (h : WInv E wt wp m d xs) : xs.length ≤ (10 * 2 ^ 28 - 2) * E.S := by
  obtain ⟨pb, lo, bo, bl, h, k, hk, hs⟩ := h
  have h1 := h.p.fits
  have h2 := h.len
  have h3 : 2 ^ k ≤ 2 ^ 28 := Nat.pow_le_pow_right (by omega) hk
  have h4 : bl.length ≤ 10 * 2 ^ 28 - 2 := by omega
  have h5 := Nat.div_add_mod (bo + xs.length) E.S
  have h6 := Nat.mod_lt (bo + xs.length) h.S_pos
  have h7 : E.S * ((bo + xs.length) / E.S + 1) ≤ E.S * (10 * 2 ^ 28 - 2) :=
    Nat.mul_le_mul_left _ (by omega)
  rw [Nat.mul_add] at h7
  rw [Nat.mul_comm]
  omega

theorem Deque.popBack_size {E : DEnv α} {d d' : Deque} {m m' : DMem α} {o : Option α}
    (h : d.popBack E m = .ok (o, d', m')) : d'.size = d.size := by
  unfold Deque.popBack at h
  split at h
  · simp only [Except.ok.injEq, Prod.mk.injEq] at h
    rw [← h.2.1]
  · split at h
    · obtain ⟨c, _, h⟩ := Exec.of_bind_ok h
      obtain ⟨y, _, h⟩ := Exec.of_bind_ok h
      simp only [Except.ok.injEq, Prod.mk.injEq] at h
      rw [← h.2.1]
    · obtain ⟨m1, h1, h⟩ := Exec.of_bind_ok h
      obtain ⟨_, _, h⟩ := Exec.of_bind_ok h
      obtain ⟨_, _, h⟩ := Exec.of_bind_ok h
      obtain ⟨_, _, h⟩ := Exec.of_bind_ok h
      obtain ⟨_, _, h⟩ := Exec.of_bind_ok h
      simp only [Except.ok.injEq, Prod.mk.injEq] at h
      rw [← h.2.1]

theorem Deque.popFront_size {E : DEnv α} {d d' : Deque} {m m' : DMem α} {o : Option α}
    (h : d.popFront E m = .ok (o, d', m')) : d'.size = d.size := by
  unfold Deque.popFront at h
  split at h
  · simp only [Except.ok.injEq, Prod.mk.injEq] at h
    rw [← h.2.1]
  · obtain ⟨l, _, h⟩ := Exec.of_bind_ok h
    split at h
    · obtain ⟨c, _, h⟩ := Exec.of_bind_ok h
      obtain ⟨y, _, h⟩ := Exec.of_bind_ok h
      simp only [Except.ok.injEq, Prod.mk.injEq] at h
      rw [← h.2.1]
    · obtain ⟨_, _, h⟩ := Exec.of_bind_ok h
      obtain ⟨m1, h1, h⟩ := Exec.of_bind_ok h
      obtain ⟨_, _, h⟩ := Exec.of_bind_ok h
      obtain ⟨_, _, h⟩ := Exec.of_bind_ok h
      simp only [Except.ok.injEq, Prod.mk.injEq] at h
      rw [← h.2.1]

/-- Only pushes change the size of the pointer array. -/
theorem Deque.step_size {E : DEnv α} {d d' : Deque} {m m' : DMem α} {op : DeqOp α} {o : Out α}
    (hop : op.isPush = false) (hs : d.step E op m = .ok (o, d', m')) : d'.size = d.size := by
  cases op with
  | pushBack x => cases hop
  | pushFront x => cases hop
  | popBack =>
    obtain ⟨⟨o1, d1, m1⟩, h1, hs⟩ := Exec.of_bind_ok hs
    simp only [Except.ok.injEq, Prod.mk.injEq] at hs
    rw [← hs.2.1, Deque.popBack_size h1]
  | popFront =>
    obtain ⟨⟨o1, d1, m1⟩, h1, hs⟩ := Exec.of_bind_ok hs
    simp only [Except.ok.injEq, Prod.mk.injEq] at hs
    rw [← hs.2.1, Deque.popFront_size h1]
  | remove i =>
    obtain ⟨⟨o1, d1, m1⟩, h1, hs⟩ := Exec.of_bind_ok hs
    simp only [Except.ok.injEq, Prod.mk.injEq] at hs
    rw [← hs.2.1]
    unfold Deque.remove at h1
    obtain ⟨len, _, h1⟩ := Exec.of_bind_ok h1
    split at h1
    · simp only [Except.ok.injEq, Prod.mk.injEq] at h1
      rw [← h1.2.1]
    · split at h1
      · obtain ⟨_, _, h1⟩ := Exec.of_bind_ok h1
        obtain ⟨m2, h2, h1⟩ := Exec.of_bind_ok h1
        exact Deque.popFront_size h1
      · obtain ⟨_, _, h1⟩ := Exec.of_bind_ok h1
        obtain ⟨m2, h2, h1⟩ := Exec.of_bind_ok h1
        exact Deque.popBack_size h1
  | isEmpty =>
    simp only [Deque.step, Except.ok.injEq, Prod.mk.injEq] at hs
    rw [← hs.2.1]
  | front | back | setFront x | setBack x | len =>
    obtain ⟨_, _, hs⟩ := Exec.of_bind_ok hs
    simp only [Except.ok.injEq, Prod.mk.injEq] at hs
    rw [← hs.2.1]

/-- The rest of memory is a memory. -/
theorem DRep.world {E : DEnv α} {wt : World α} {wp : World Ptr} {m : DMem α} {d : Deque}
    {pb lo bo : Nat} {bl : List Nat} {xs : List α} (h : DRep E wt wp m d pb lo bo bl xs) :
    ∃ m0 : DMem α, m0.t.live = wt ∧ m0.p.live = wp := by
  refine ⟨⟨⟨wt, m.t.bound, ?_, [], 0, 0⟩, ⟨wp, m.p.bound, ?_, [], 0, 0⟩⟩, rfl, rfl⟩
  · intro b hb
    have h1 := m.t.bound_ok b hb
    by_cases hm : b ∈ bl
    · exact h.t.fresh b hm
    · rw [← h.t.out b hm]; exact h1
  · intro b hb
    have h1 := m.p.bound_ok b hb
    by_cases hm : b = pb
    · rw [hm]; exact h.p.fresh
    · rw [← h.p.out b hm]; exact h1

theorem DRep.unwound {E : DEnv α} {wt : World α} {wp : World Ptr} {m : DMem α} {d : Deque}
    {pb lo bo : Nat} {bl : List Nat} {xs : List α} (h : DRep E wt wp m d pb lo bo bl xs) (x : α) :
    DRep E wt wp (m.unwound E x) d pb lo bo bl xs :=
  ⟨h.t.congr rfl, h.p, h.ptrs, h.b_lt, h.b, h.e, h.len, h.vals⟩

/-- One call: it returns what the unbounded deque returns, or it is a push that panics, which happens
only to deques of at least so many elements. -/
theorem WInv.step {E : DEnv α} {wt : World α} {wp : World Ptr} {m : DMem α} {d : Deque}
    {xs : List α} (h : WInv E wt wp m d xs) (B : Build) (op : DeqOp α) :
    (∃ d' m', d.stepW B E op m = .ok (some (op.step xs).1, d', m') ∧
      d.step E op m = .ok ((op.step xs).1, d', m') ∧
      WInv E wt wp m' d' (op.step xs).2 ∧
      m'.t.dropped = m.t.dropped ++ if E.nd then op.overwritten xs else []) ∨
    (op.isPush = true ∧ (10 * 2 ^ 28 - 3) * E.S ≤ xs.length ∧
      ∃ m' wp', d.stepW B E op m = .ok (none, d, m') ∧ WInv E wt wp' m' d xs ∧
        m'.t.dropped = m.t.dropped ++ (if E.nd then op.movedIn xs else []) ∧ Leaks B wp wp') := by
  obtain ⟨pb, lo, bo, bl, h, k, hk, hs⟩ := h
  have hS := h.S_pos
  have hlen := h.len
  have hfits := h.p.fits
  have hdm := Nat.div_add_mod (bo + xs.length) E.S
  have hsz : d.size < 2 ^ 32 := by
    have : 2 ^ k ≤ 2 ^ 28 := Nat.pow_le_pow_right (by omega) hk
    omega
  have hcomm : ∀ q, (10 * 2 ^ 28 - 3) * q = q * (10 * 2 ^ 28 - 3) := fun q => Nat.mul_comm _ _
  cases op with
  | pushBack x =>
    obtain ⟨d', m', pb', lo', bl', h1, h2, h3, _, h4⟩ := h.pushBack x
    by_cases hover : ((bo + xs.length) % E.S + 1 = E.S ∧ lo + bl.length = d.size) ∧
        lo = 0 ∧ k = 28
    · right
      obtain ⟨⟨c1, c2⟩, c3, c4⟩ := hover
      have hX : d.size = 10 * 2 ^ 28 - 2 := by rw [c4] at hs; omega
      obtain ⟨m1, wp', e1, e2, e3, e4⟩ := h.reallocW_over B false hX c3 (by omega)
      refine ⟨rfl, ?_, m1.unwound E x, wp', ?_, ⟨pb, lo, bo, bl, e2.unwound x, k, hk, hs⟩, ?_, e4⟩
      · have hb := h.b_lt
        have hq : (bo + xs.length) / E.S = 10 * 2 ^ 28 - 3 := by omega
        rw [hq] at hdm
        rw [hcomm]
        omega
      · simp only [Deque.stepW, Deque.pushBackW, h.lastPtr, h.lastSlot, Exec.ok_bind,
          h.atEnd.2 c1, h.atLastSlot.2 c2, ne_eq, not_true_eq_false, if_false, if_true, e1,
          Bool.false_eq_true]
      · simp only [DMem.unwound, e3, DeqOp.movedIn]
    · left
      have hW := h.pushBackW B x h1 (by
        intro c1 c2
        by_cases hl : 1 ≤ lo
        · rw [reallocTo_moves (.inl ⟨rfl, hl⟩)]; exact hsz
        · exact (reallocTo_size hs (by omega)).1)
      refine ⟨d', m', by simp [Deque.stepW, hW, DeqOp.step], by simp [Deque.step, h1, DeqOp.step],
        ⟨pb', lo', bo, bl', h2, ?_⟩, by simp [h3, DeqOp.overwritten]⟩
      split_ifs at h4 with hc
      · have he := congrArg Prod.fst h4.1
        simp only at he
        rw [he]
        by_cases hl : 1 ≤ lo
        · rw [reallocTo_moves (.inl ⟨rfl, hl⟩)]; exact ⟨k, hk, hs⟩
        · exact (reallocTo_size hs (by omega)).2
      · rw [h4.1]; exact ⟨k, hk, hs⟩
  | pushFront x =>
    obtain ⟨d', m', pb', lo', bo', bl', h1, h2, h3, _, h4⟩ := h.pushFront x
    by_cases hover : (bo = 0 ∧ lo = 0) ∧ bl.length = d.size ∧ k = 28
    · right
      obtain ⟨⟨c1, c2⟩, c3, c4⟩ := hover
      have hX : d.size = 10 * 2 ^ 28 - 2 := by rw [c4] at hs; omega
      obtain ⟨m1, wp', e1, e2, e3, e4⟩ := h.reallocW_over B true hX c2 c3
      refine ⟨rfl, ?_, m1.unwound E x, wp', ?_, ⟨pb, lo, bo, bl, e2.unwound x, k, hk, hs⟩, ?_, e4⟩
      · have hq : (bo + xs.length) / E.S = 10 * 2 ^ 28 - 3 := by omega
        rw [hq] at hdm
        rw [hcomm]
        omega
      · simp only [Deque.stepW, Deque.pushFrontW, Exec.ok_bind, h.atBegin.2 c1, h.atFirstSlot.2 c2,
          ne_eq, not_true_eq_false, if_false, if_true, e1, Bool.false_eq_true]
      · simp only [DMem.unwound, e3, DeqOp.movedIn]
    · left
      have hgrow : bo = 0 → lo = 0 → (reallocTo true d.size lo bl.length).1 < 2 ^ 32 ∧
          ∃ k', k' ≤ 28 ∧ (reallocTo true d.size lo bl.length).1 + 2 = 10 * 2 ^ k' := by
        intro c1 c2
        by_cases hl : 1 ≤ d.size - lo - bl.length
        · rw [reallocTo_moves (.inr ⟨rfl, hl⟩)]; exact ⟨hsz, k, hk, hs⟩
        · exact reallocTo_size hs (by omega)
      have hW := h.pushFrontW B x h1 fun c1 c2 => (hgrow c1 c2).1
      refine ⟨d', m', by simp [Deque.stepW, hW, DeqOp.step], by simp [Deque.step, h1, DeqOp.step],
        ⟨pb', lo', bo', bl', h2, ?_⟩, by simp [h3, DeqOp.overwritten]⟩
      split_ifs at h4 with hc hl
      · have he := congrArg Prod.fst h4.2.2.1
        simp only at he
        rw [he]
        exact (hgrow hc hl).2
      · rw [h4.2.2.1]; exact ⟨k, hk, hs⟩
      · rw [h4.2.2.1]; exact ⟨k, hk, hs⟩
  | popBack | popFront | front | back | setFront x | setBack x | remove i | len | isEmpty =>
    left
    obtain ⟨m0, rfl, rfl⟩ := h.world
    obtain ⟨d', m', e1, ⟨_, _, _, _, e2⟩, e3⟩ :=
      DInv.step (m0 := m0) ⟨pb, lo, bo, bl, h⟩ _
    exact ⟨d', m', by simp only [Deque.stepW, e1, Exec.ok_bind], e1,
      ⟨_, _, _, _, e2, k, hk, by rw [Deque.step_size rfl e1]; exact hs⟩, e3⟩

theorem refused_cons {op : DeqOp α} (h : op.isPush = true) (ops : List (DeqOp α))
    (os : List (Option (Out α))) (xs : List α) :
    DeqOp.refused (op :: ops) (none :: os) = op.movedIn xs ++ DeqOp.refused ops os := by
  cases op <;> first | rfl | cases h

theorem perm_arrange {i r x o w s f a b : List α}
    (h1 : (i ++ x).Perm (o ++ (w ++ s))) (h2 : (a ++ r ++ s).Perm (b ++ f)) :
    (i ++ a ++ r ++ x).Perm (o ++ b ++ (w ++ f)) := by
  classical
  rw [List.perm_iff_count] at *
  intro y
  have := h1 y
  have := h2 y
  simp only [List.count_append] at *
  omega

theorem perm_refuse {i r x b f v : List α} (h : (i ++ r ++ x).Perm (b ++ f)) :
    (i ++ (v ++ r) ++ x).Perm (b ++ (v ++ f)) := by
  classical
  rw [List.perm_iff_count] at *
  intro y
  have := h y
  simp only [List.count_append] at *
  omega

/-- A history: what returned behaved as on the unbounded deque that never saw the other calls. -/
theorem WInv.run {E : DEnv α} {wt : World α} (B : Build) :
    ∀ (ops : List (DeqOp α)) {wp : World Ptr} {m : DMem α} {d : Deque} {xs : List α},
    WInv E wt wp m d xs →
    ∃ (outs : List (Option (Out α))) (d' : Deque) (m' : DMem α) (wp' : World Ptr) (drops : List α)
      (leaked : List Nat),
      Deque.runW B E ops d m = .ok (outs, d', m') ∧ outs.length = ops.length ∧
      outs.filterMap id = (DeqOp.run (DeqOp.returned ops outs) xs).1 ∧
      WInv E wt wp' m' d' (DeqOp.run (DeqOp.returned ops outs) xs).2 ∧
      m'.t.dropped = m.t.dropped ++ (if E.nd then drops else []) ∧
      (DeqOp.allIn (DeqOp.returned ops outs) xs ++ DeqOp.refused ops outs ++ xs).Perm
        (DeqOp.allOut (DeqOp.returned ops outs) xs ++
          (drops ++ (DeqOp.run (DeqOp.returned ops outs) xs).2)) ∧
      leaked.Nodup ∧ (∀ b ∈ leaked, wp b = none ∧ wp' b ≠ none) ∧
      (∀ b, b ∉ leaked → wp' b = wp b) ∧
      leaked.length = (if B = .release then outs.countP Option.isNone else 0) ∧
      (DeqOp.peak ops xs ≤ (10 * 2 ^ 28 - 3) * E.S → outs.countP Option.isNone = 0 ∧
        DeqOp.returned ops outs = ops ∧
        Deque.run E ops d m = .ok ((DeqOp.run ops xs).1, d', m'))
  | [], wp, m, d, xs, h => by
    refine ⟨[], d, m, wp, [], [], rfl, rfl, rfl, h, by simp, ?_, List.nodup_nil, by simp, by simp,
      by simp, fun _ => ⟨rfl, rfl, rfl⟩⟩
    simp [DeqOp.returned, DeqOp.refused, DeqOp.allIn, DeqOp.allOut, DeqOp.run]
  | op :: ops, wp, m, d, xs, h => by
    rcases h.step B op with ⟨d1, m1, e1, e2, e3, e4⟩ | ⟨hp, hl, m1, wp1, e1, e2, e3, e4⟩
    · obtain ⟨outs, d', m', wp', drops, leaked, f1, f2, f3, f4, f5, f6, f7, f8, f9, f10, f11⟩ :=
        WInv.run B ops e3
      refine ⟨some (op.step xs).1 :: outs, d', m', wp', op.overwritten xs ++ drops, leaked, ?_, ?_,
        ?_, f4, ?_, ?_, f7, f8, f9, ?_, ?_⟩
      · simp only [Deque.runW, e1, Exec.ok_bind, f1]
      · simp [f2]
      · show (op.step xs).1 :: outs.filterMap id = _
        rw [f3]
        rfl
      · rw [f5, e4]; cases E.nd <;> simp
      · simp only [DeqOp.returned, DeqOp.refused, DeqOp.allIn, DeqOp.allOut, DeqOp.run]
        have := perm_arrange (DeqOp.accounts op xs) f6
        simpa only [List.append_assoc] using this
      · simpa using f10
      · intro hk
        simp only [DeqOp.peak] at hk
        obtain ⟨g1, g2, g3⟩ := f11 (by omega)
        refine ⟨by simpa using g1, by simp [DeqOp.returned, g2], ?_⟩
        simp only [Deque.run, e2, Exec.ok_bind, g3, DeqOp.run]
    · obtain ⟨outs, d', m', wp', drops, leaked, f1, f2, f3, f4, f5, f6, f7, f8, f9, f10, f11⟩ :=
        WInv.run B ops e2
      have hpeak : ¬ DeqOp.peak (op :: ops) xs ≤ (10 * 2 ^ 28 - 3) * E.S := by
        have h1 : (op.step xs).2.length = xs.length + 1 := by
          cases op <;> first | (simp [DeqOp.step]; done) | exact absurd hp (by simp [DeqOp.isPush])
        have h2 : (op.step xs).2.length ≤ DeqOp.peak ops (op.step xs).2 := by
          cases ops
          · exact Nat.le_refl _
          · exact Nat.le_max_left _ _
        simp only [DeqOp.peak]
        omega
      cases B with
      | debug =>
        have e4 : wp1 = wp := e4
        subst e4
        refine ⟨none :: outs, d', m', wp', op.movedIn xs ++ drops, leaked, ?_, by simp [f2],
          by simpa [DeqOp.returned] using f3, f4, ?_, ?_, f7, f8, f9, by simpa using f10,
          fun hk => absurd hk hpeak⟩
        · simp only [Deque.runW, e1, Exec.ok_bind, f1]
        · rw [f5, e3]; cases E.nd <;> simp
        · rw [refused_cons hp ops outs xs]
          simp only [DeqOp.returned, List.append_assoc] at f6 ⊢
          have := perm_refuse (v := op.movedIn xs)
            (i := DeqOp.allIn (DeqOp.returned ops outs) xs) (r := DeqOp.refused ops outs)
            (x := xs) (by simpa only [List.append_assoc] using f6)
          simpa only [List.append_assoc] using this
      | release =>
        obtain ⟨b, hb, hw⟩ : ∃ b, wp b = none ∧
            wp1 = Function.update wp b (some ⟨1073741822, .heap, fun _ => none⟩) := e4
        have hb1 : wp1 b ≠ none := by rw [hw, Function.update_self]; simp
        have hnb : b ∉ leaked := fun hm => hb1 (f8 b hm).1
        refine ⟨none :: outs, d', m', wp', op.movedIn xs ++ drops, b :: leaked, ?_, by simp [f2],
          by simpa [DeqOp.returned] using f3, f4, ?_, ?_, List.nodup_cons.2 ⟨hnb, f7⟩, ?_, ?_,
          by simpa using f10, fun hk => absurd hk hpeak⟩
        · simp only [Deque.runW, e1, Exec.ok_bind, f1]
        · rw [f5, e3]; cases E.nd <;> simp
        · rw [refused_cons hp ops outs xs]
          simp only [DeqOp.returned, List.append_assoc] at f6 ⊢
          have := perm_refuse (v := op.movedIn xs)
            (i := DeqOp.allIn (DeqOp.returned ops outs) xs) (r := DeqOp.refused ops outs)
            (x := xs) (by simpa only [List.append_assoc] using f6)
          simpa only [List.append_assoc] using this
        · intro c hc
          rcases List.mem_cons.1 hc with rfl | hc
          · exact ⟨hb, by rw [f9 c hnb]; exact hb1⟩
          · refine ⟨?_, (f8 c hc).2⟩
            have := (f8 c hc).1
            rw [hw, Function.update_of_ne (show c ≠ b from fun e => hnb (e ▸ hc))] at this
            exact this
        · intro c hc
          rw [List.mem_cons, not_or] at hc
          rw [f9 c hc.2, hw, Function.update_of_ne hc.1]

end Verif
