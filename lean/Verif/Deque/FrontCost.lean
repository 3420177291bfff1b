import Verif.Deque.Cost
import Mathlib.Data.Nat.Log

/-! How many pointers pushing at the front alone moves. -/

set_option autoImplicit false

namespace Verif
open Spec

variable {α : Type}

/-- How often `u` unused pointers at the back can be halved before the array must grow. -/
def halvings (u : Nat) : Nat := if u = 0 then 0 else Nat.clog 2 u + 1

theorem halvings_step {u : Nat} (h : 1 ≤ u) :
    halvings u = halvings (u - moreRoom 1 (u / 2)) + 1 := by
  by_cases h1 : u = 1
  · subst h1; simp [halvings, moreRoom]
  · have h2 : 2 ≤ u := by omega
    have h3 : u - moreRoom 1 (u / 2) = (u + 2 - 1) / 2 := by
      unfold moreRoom; split <;> omega
    rw [h3]
    unfold halvings
    rw [if_neg (by omega), if_neg (by omega), Nat.clog_of_two_le (by omega) h2]

/-- What is known of a deque that was only pushed to at the front, with `w` subarrays: bounds on
the number `c` of pointers moved so far. -/
structure FrontShape (size lo w c : Nat) : Prop where
  fits : lo + w ≤ size
  big : 8 ≤ size
  even : size % 2 = 0
  small : size ≤ 8 ∨ size ≤ 2 * (w + 1)
  half : size / 2 ≤ w + lo
  upper : c + halvings (size - lo - w) * size ≤ 2 * (size * (Nat.clog 2 size + 1))
  lower : size / 2 * Nat.clog 2 size ≤ c + halvings (size - lo - w) * (size / 2)
  past : size = 8 ∨ (size / 2 - 1) / 2 * Nat.clog 2 (size / 2 - 1) ≤ c

theorem FrontShape.new : FrontShape 8 3 1 0 := by
  have e : Nat.clog 2 8 = 3 := by decide +kernel
  have e2 : Nat.clog 2 4 = 2 := by decide +kernel
  refine ⟨by omega, by omega, by omega, by omega, by omega, ?_, ?_, .inl rfl⟩ <;>
    simp [halvings, e, e2]

/-- A subarray is added where there is room. -/
theorem FrontShape.room {size lo w c : Nat} (h : FrontShape size (lo + 1) w c) :
    FrontShape size lo (w + 1) c := by
  obtain ⟨h1, h2, h3, h4, h5, h6, h7, h8⟩ := h
  rw [show size - (lo + 1) - w = size - lo - (w + 1) by omega] at h6 h7
  exact ⟨by omega, h2, h3, by omega, by omega, h6, h7, h8⟩

/-- The pointers are moved to make room. -/
theorem FrontShape.move {size w c size' lo' : Nat} (h : FrontShape size 0 w c)
    (hr : (size', lo') = reallocTo true size 0 w) : FrontShape size' lo' w (c + w) := by
  obtain ⟨h1, h2, h3, h4, h5, h6, h7, h8⟩ := h
  unfold reallocTo at hr
  rw [if_neg (by simp)] at hr
  simp only [Nat.sub_zero, Nat.zero_add, true_and, if_true] at hr h6 h7
  by_cases hu : 1 ≤ size - w
  · rw [if_pos hu, Prod.mk.injEq] at hr
    obtain ⟨rfl, rfl⟩ := hr
    have hs := halvings_step hu
    have hle : moreRoom 1 ((size' - w) / 2) ≤ size' - w := by unfold moreRoom; split <;> omega
    rw [hs] at h6 h7
    have e : size' - moreRoom 1 ((size' - w) / 2) - w = size' - w - moreRoom 1 ((size' - w) / 2) := by
      omega
    refine ⟨by omega, h2, h3, h4, by omega, ?_, ?_, ?_⟩
    · rw [e, Nat.add_mul] at *; omega
    · rw [e]; rw [Nat.add_mul] at h7; omega
    · rcases h8 with h8 | h8
      · exact .inl h8
      · right; omega
  · rw [if_neg hu, Prod.mk.injEq] at hr
    obtain ⟨rfl, rfl⟩ := hr
    have hw : w = size := by omega
    subst hw
    have h0 : halvings (w - w) = 0 := by simp [halvings]
    rw [h0, Nat.zero_mul, Nat.add_zero] at h6 h7
    have es : w + max w 1 + 2 = 2 * (w + 1) := by omega
    have ec : Nat.clog 2 (2 * (w + 1)) = Nat.clog 2 (w + 1) + 1 := by
      rw [Nat.clog_of_two_le (by omega) (by omega)]
      congr 2; omega
    have hm : Nat.clog 2 w ≤ Nat.clog 2 (w + 1) := Nat.clog_mono_right 2 (by omega)
    have hh : halvings (2 * (w + 1) - 1 - w) = Nat.clog 2 (w + 1) + 1 := by
      rw [show 2 * (w + 1) - 1 - w = w + 1 by omega, halvings, if_neg (by omega)]
    rw [es]
    refine ⟨by omega, by omega, by omega, by omega, by omega, ?_, ?_, ?_⟩
    · rw [hh, ec]
      have k1 : w * (Nat.clog 2 w + 1) ≤ w * (Nat.clog 2 (w + 1) + 1) :=
        Nat.mul_le_mul_left _ (by omega)
      have k2 : 2 * (2 * (w + 1) * (Nat.clog 2 (w + 1) + 1 + 1)) =
        2 * (w * (Nat.clog 2 (w + 1) + 1)) + (Nat.clog 2 (w + 1) + 1) * (2 * (w + 1)) +
          (2 * (Nat.clog 2 (w + 1) + 1) + 4 * (w + 1)) := by ring
      omega
    · rw [hh, ec, show 2 * (w + 1) / 2 = w + 1 by omega, Nat.mul_comm]
      omega
    · right
      rw [show 2 * (w + 1) / 2 - 1 = w by omega]
      omega

/-- The bounds in terms of the number of subarrays. -/
theorem FrontShape.bounds {size lo w c : Nat} (h : FrontShape size lo w c) {v : Nat} (hv : w ≤ v)
    (h2 : 2 ≤ v) : c ≤ 8 * (v * (Nat.clog 2 v + 3)) := by
  have h1 := h.upper
  have hs : size ≤ 4 * v := by rcases h.small with h | h <;> omega
  have e4 : Nat.clog 2 (4 * v) = Nat.clog 2 v + 2 := by
    rw [Nat.clog_of_two_le (by omega) (by omega), show (4 * v + 2 - 1) / 2 = 2 * v by omega,
      Nat.clog_of_two_le (by omega) (by omega), show (2 * v + 2 - 1) / 2 = v by omega]
  have hm : Nat.clog 2 size ≤ Nat.clog 2 v + 2 := e4 ▸ Nat.clog_mono_right 2 hs
  have := Nat.mul_le_mul hs (show Nat.clog 2 size + 1 ≤ Nat.clog 2 v + 3 by omega)
  have e : 4 * v * (Nat.clog 2 v + 3) = 4 * (v * (Nat.clog 2 v + 3)) := by ring
  omega

theorem FrontShape.atLeast {size lo w c : Nat} (h : FrontShape size lo w c) {v : Nat}
    (hv : v ≤ w) : (v - 8) / 4 * Nat.clog 2 ((v - 8) / 2) ≤ c := by
  have h1 := h.fits
  have h2 := h.even
  rcases h.past with h8 | h8
  · rw [show (v - 8) / 4 = 0 by omega]; omega
  · exact (Nat.mul_le_mul (by omega) (Nat.clog_mono_right 2 (by omega))).trans h8

theorem DAt.pushes_front {E : DEnv α} {m0 : DMem α} {c0 : Nat} :
    ∀ (ys : List α) {d : Deque} {m : DMem α} {size lo bo c : Nat} {xs : List α},
    DAt E m0 d m size lo bo xs (c0 + c) → (bo + xs.length) % E.S = 0 →
    FrontShape size lo ((bo + xs.length) / E.S + 1) c →
    ∃ (size' lo' bo' c' : Nat),
      Reaches E m0 (ys.map .pushFront) d m size' lo' bo' (ys.reverse ++ xs) (c0 + c') ∧
      (bo' + (ys.reverse ++ xs).length) % E.S = 0 ∧ bo' < E.S ∧
      FrontShape size' lo' ((bo' + (ys.reverse ++ xs).length) / E.S + 1) c'
  | [], d, m, size, lo, bo, c, xs, h, h0, hb => by
    refine ⟨size, lo, bo, c, by simpa using h.nil, by simpa using h0, ?_, by simpa using hb⟩
    obtain ⟨_, _, h, _⟩ := h
    exact h.b_lt
  | y :: ys, d, m, size, lo, bo, c, xs, h, h0, hb => by
    have hstep : ∃ (size' lo' bo' c' : Nat),
        Reaches E m0 [.pushFront y] d m size' lo' bo' (y :: xs) (c0 + c') ∧
        (bo' + (y :: xs).length) % E.S = 0 ∧
        FrontShape size' lo' ((bo' + (y :: xs).length) / E.S + 1) c' := by
      obtain ⟨pb, bl, h, hs, hc⟩ := h
      have hS := h.S_pos
      obtain ⟨d', m', pb', lo', bo', bl', h1, h2, _, _, h4⟩ := h.pushFront y
      have hlen := h.len
      have hrun : Deque.run E [.pushFront y] d m = .ok ([.unit], d', m') := by
        simp [Deque.run, Deque.step, h1]
      subst hs
      by_cases hb0 : bo = 0
      · rw [if_pos hb0] at h4
        obtain ⟨h5, h6, h4⟩ := h4
        have epos : bo' + (y :: xs).length = (bo + xs.length) + E.S := by simp; omega
        rw [← hlen] at hb
        have em : (bo' + (y :: xs).length) % E.S = 0 := by rw [epos, Nat.add_mod_right]; exact h0
        have ed : (bo' + (y :: xs).length) / E.S + 1 = bl.length + 1 := by
          rw [epos, Nat.add_div_right _ hS, hlen]
        by_cases hl0 : lo = 0
        · rw [if_pos hl0] at h4
          subst hl0
          have hb' := (hb.move h4.1).room
          refine ⟨d'.size, lo', bo', c + bl.length, ⟨[.unit], d', m', hrun, pb', bl', h2, rfl, ?_⟩,
            em, ed ▸ hb'⟩
          rw [h4.2, hc]; omega
        · rw [if_neg hl0] at h4
          obtain ⟨e1, rfl, e3⟩ := h4
          refine ⟨d'.size, lo', bo', c, ⟨[.unit], d', m', hrun, pb', bl', h2, rfl, ?_⟩, em, ?_⟩
          · rw [e3, hc]
          · rw [e1, ed]; exact hb.room
      · rw [if_neg hb0] at h4
        obtain ⟨h5, _, e1, e2, e3⟩ := h4
        have epos : bo' + (y :: xs).length = bo + xs.length := by simp; omega
        refine ⟨d'.size, lo', bo', c, ⟨[.unit], d', m', hrun, pb', bl', h2, rfl, ?_⟩,
          by rw [epos]; exact h0, ?_⟩
        · rw [e3, hc]
        · rw [epos, e1, e2]; exact hb
    obtain ⟨s1, l1, b1, c1, ⟨o1, d1, m1, e1, r1⟩, hm1, hb1⟩ := hstep
    obtain ⟨s2, l2, b2, c2, ⟨o2, d2, m2, e2, r2⟩, hm2, hlt, hb2⟩ := DAt.pushes_front ys r1 hm1 hb1
    refine ⟨s2, l2, b2, c2, ⟨o1 ++ o2, d2, m2, ?_, by simpa using r2⟩, by simpa using hm2, hlt,
      by simpa using hb2⟩
    simpa using Deque.run_append E _ _ e1 e2

end Verif
