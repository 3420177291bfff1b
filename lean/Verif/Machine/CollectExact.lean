import Verif.Machine.Collect
import Verif.Machine.FixedVector
import Mathlib.Data.Nat.Log

/-! The capacity of a vector at the end of a history, and of a collected vector in particular. -/

set_option autoImplicit false

namespace Verif
open Spec

variable {α : Type}

/-- The last capacity of a history is the one the vector has. -/
theorem run_capacity {A : Allocator α} {keeps : Nat → Prop}
    {fits : Nat → Nat → Region → Nat → Prop} {init : Block α → Nat → Prop} {w : World α}
    (hA : Lawful A fits keeps init) (nd : Bool) (ops : List (SeqOp α)) :
    ∀ {v : Vec} {m : Mem α} {xs : List α} {cap : Nat} {outs : List (Out α)} {v' : Vec} {m' : Mem α},
    (nd = true → ∀ op ∈ ops, op.isSlice = false) → VInv keeps fits w m v xs cap →
    Vec.run A nd ops v m = .ok (outs, v', m') →
    v'.capacity = .ok ((SeqOp.caps ops xs cap).getLastD cap) := by
  induction ops with
  | nil =>
    intro v m xs cap outs v' m' _ hi h
    cases h
    exact hi.capacity
  | cons op ops ih =>
    intro v m xs cap outs v' m' hops hi h
    have hs := hi.step hA nd op (fun hn => hops hn op (by simp))
    simp only [Vec.run] at h
    simp only [SeqOp.caps]
    cases ho : op.step xs with
    | error e =>
      rw [ho] at hs
      simp only at hs
      rw [hs] at h
      cases h
    | ok r =>
      obtain ⟨o, ys⟩ := r
      rw [ho] at hs
      obtain ⟨v1, m1, ds, na, nc, he, hi1, _⟩ := hs
      rw [he] at h
      simp only [Exec.ok_bind] at h
      obtain ⟨⟨os, v2, m2⟩, h1, h2⟩ := Exec.bind_ok h
      cases h2
      rw [List.getLastD_cons]
      exact ih (fun hn op' h' => hops hn op' (by simp [h'])) hi1 h1

/-- Pushing into a vector with room: the capacities are bounded by the last one, which is the room
doubled as often as needed. -/
theorem push_caps_exact (items : List α) : ∀ (xs : List α) (cap k : Nat), 0 < cap →
    xs.length ≤ cap → xs.length + items.length ≤ cap * 2 ^ k →
    (∀ j < k, cap * 2 ^ j < xs.length + items.length) →
    (∀ c ∈ SeqOp.caps (items.map .push) xs cap, c ≤ cap * 2 ^ k) ∧
      (SeqOp.caps (items.map .push) xs cap).getLastD cap = cap * 2 ^ k := by
  induction items with
  | nil =>
    intro xs cap k h0 hle hk hj
    have : k = 0 := by
      by_contra hne
      have := hj 0 (by omega)
      simp only [Nat.pow_zero, List.length_nil] at this
      omega
    subst this
    simp [SeqOp.caps]
  | cons x l ih =>
    intro xs cap k h0 hle hk hj
    simp only [List.length_cons] at hk hj
    simp only [List.map_cons, SeqOp.caps, SeqOp.step, SeqOp.capAfter, List.mem_cons,
      List.getLastD_cons]
    have hne : ¬ cap = 0 := by omega
    by_cases hf : xs.length < cap
    · simp only [hf, if_true]
      obtain ⟨h1, h2⟩ := ih (xs ++ [x]) cap k h0 (by simp; omega) (by simp; omega)
        (fun j h => by have := hj j h; simp; omega)
      refine ⟨fun c hc => ?_, h2⟩
      rcases hc with rfl | hc
      · exact Nat.le_mul_of_pos_right _ (Nat.two_pow_pos k)
      · exact h1 c hc
    · simp only [hf, if_false, hne]
      obtain ⟨k, rfl⟩ : ∃ j, k = j + 1 := by
        cases k with
        | zero => simp only [Nat.pow_zero] at hk; omega
        | succ j => exact ⟨j, rfl⟩
      have hp : ∀ j, 2 * cap * 2 ^ j = cap * 2 ^ (j + 1) := fun j => by
        rw [Nat.pow_succ, Nat.mul_comm 2 cap, Nat.mul_assoc, Nat.mul_comm 2 (2 ^ j)]
      obtain ⟨h1, h2⟩ := ih (xs ++ [x]) (2 * cap) k (by omega) (by simp; omega)
        (by rw [hp]; simp; omega)
        (fun j h => by rw [hp]; have := hj (j + 1) (by omega); simp; omega)
      rw [hp] at h1 h2
      refine ⟨fun c hc => ?_, h2⟩
      rcases hc with rfl | hc
      · rw [← hp]; exact Nat.le_mul_of_pos_right _ (Nat.two_pow_pos k)
      · exact h1 c hc

/-- The same for collecting, unless nothing is announced and nothing comes. -/
theorem collect_caps_exact (hint : Nat) (items : List α) (k : Nat) (hne : 0 < hint + items.length)
    (hk : items.length ≤ max 1 hint * 2 ^ k) (hj : ∀ j < k, max 1 hint * 2 ^ j < items.length) :
    (∀ c ∈ SeqOp.caps (collectOps hint items) [] 0, c ≤ max 1 hint * 2 ^ k) ∧
      (SeqOp.caps (collectOps hint items) [] 0).getLastD 0 = max 1 hint * 2 ^ k := by
  simp only [collectOps, SeqOp.caps, SeqOp.step, SeqOp.capAfter, List.mem_cons, Nat.zero_add,
    List.getLastD_cons]
  by_cases h0 : hint = 0
  · subst h0
    cases items with
    | nil => simp at hne
    | cons x l =>
      simp only [List.map_cons, SeqOp.caps, SeqOp.step, SeqOp.capAfter, List.mem_cons,
        List.getLastD_cons, List.length_nil, Nat.lt_irrefl, if_false, if_true, List.nil_append]
      obtain ⟨h1, h2⟩ := push_caps_exact l [x] 1 k (by omega) (by simp)
        (by simpa [Nat.add_comm] using hk) (fun j h => by have := hj j h; simpa [Nat.add_comm] using this)
      refine ⟨fun c hc => ?_, by simpa using h2⟩
      have hp := Nat.two_pow_pos k
      rcases hc with rfl | rfl | hc
      · exact Nat.zero_le _
      · show 1 ≤ 1 * 2 ^ k; omega
      · exact h1 c hc
  · rw [show max 1 hint = hint by omega] at hk hj ⊢
    obtain ⟨h1, h2⟩ := push_caps_exact items [] hint k (by omega) (by simp) (by simpa using hk)
      (fun j h => by simpa using hj j h)
    refine ⟨fun c hc => ?_, h2⟩
    rcases hc with rfl | hc
    · exact Nat.le_mul_of_pos_right _ (Nat.two_pow_pos k)
    · exact h1 c hc

end Verif
