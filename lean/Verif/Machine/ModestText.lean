import Verif.Machine.Modest
import Verif.Machine.TextProofs

/-! A string that would become too large panics, in release builds too if no single request is out of
all proportion. -/

set_option autoImplicit false

namespace Verif
open Spec

variable (B : Build) (R : RawAlloc UInt8) {w : World UInt8} {m : Mem UInt8} {v : Vec}
  {bs : List UInt8} {cap : Nat}

theorem strAllocM_refuses {n : Nat} (hn : ¬ TextFits n) (hB : B = .release → n + 1 < 2 ^ 64)
    (m : Mem UInt8) : (strAllocM B R.total).alloc n m = .error .panic := by
  unfold TextFits at hn
  have hr : ¬ Representable 1 1 (n + 1) := by unfold Representable; omega
  simp only [nullTermAllocatorM]
  by_cases h1 : n + 1 < 2 ^ 64
  · simp only [B.usize_ok h1, Exec.ok_bind,
      byteAllocator_refuses B byte_layout R.total hr (fun _ => by omega), Exec.error_bind]
  · cases B with
    | debug => simp only [Build.usize, h1, if_false, Exec.error_bind]
    | release => exact absurd (hB rfl) h1

theorem strReserveV_refuses {len add : Nat} (hl : v.len = .ok len) (hc : v.capacity = .ok cap)
    (hcap : TextFits cap) (hn : ¬ TextFits (cap + add)) (hB : B = .release → add ≤ 2 ^ 63) :
    v.reserveM B (strAllocM B R.total) add m = .error .panic := by
  have h0 : add ≠ 0 := by rintro rfl; exact hn hcap
  unfold TextFits at hcap
  unfold Vec.reserveM
  simp only [h0, if_false, hl, hc, Exec.ok_bind]
  by_cases h1 : cap + add < 2 ^ 64
  · simp only [B.usize_ok h1, Exec.ok_bind]
    rw [strAllocM_refuses B R hn (fun e => by have := hB e; omega)]
    rfl
  · cases B with
    | debug => simp only [Build.usize, h1, if_false, Exec.error_bind]
    | release => have := hB rfl; omega

theorem strInsertV_refuses (hi : SInv w m v bs cap) (hcap : TextFits cap) {i : Nat} (x : UInt8)
    (hix : i ≤ bs.length)
    (hn : ¬ TextFits (if bs.length < cap then cap else if cap = 0 then 1 else 2 * cap)) :
    v.insertM B (strAllocM B R.total) i x m = .error .panic := by
  have hle := hi.len_le
  have hf : bs.length = cap := by
    by_contra hf
    rw [if_pos (by omega)] at hn
    exact hn hcap
  rw [← growCapacity_eq hf] at hn
  have hcap' := hcap
  unfold TextFits at hcap'
  have hg : Vec.calculateGrowCapacityM B cap = .ok (Vec.calculateGrowCapacity cap) := by
    unfold Vec.calculateGrowCapacityM Vec.calculateGrowCapacity
    by_cases h0 : cap = 0
    · simp only [h0, if_true]
    · simp only [h0, if_false]
      exact B.usize_ok (by omega)
  have hge : cap ≤ Vec.calculateGrowCapacity cap := by
    unfold Vec.calculateGrowCapacity; split <;> omega
  have hgrow : v.growM B (strAllocM B R.total) m = .error .panic := by
    simp only [Vec.growM, hi.capacity, Exec.ok_bind, hg, hge, if_true]
    refine strReserveV_refuses B R hi.len hi.capacity hcap ?_ fun _ => ?_
    · rwa [show cap + (Vec.calculateGrowCapacity cap - cap) = Vec.calculateGrowCapacity cap by
        omega]
    · unfold Vec.calculateGrowCapacity
      split <;> omega
  simp only [Vec.insertM, hi.len, Exec.ok_bind, hix, if_true, hi.isFull]
  simp only [hf, beq_self_eq_true, if_true, hgrow, Exec.error_bind]

theorem strReserveM_refuses (hi : SInv w m v bs cap) (hcap : TextFits cap) {n : Nat}
    (hn : ¬ TextFits (cap + n + 1)) (hB : B = .release → n < 2 ^ 63) :
    Str.reserveM B (strAllocM B R.total) n v m = .error .panic := by
  unfold Str.reserveM
  by_cases h1 : n + 1 < 2 ^ 64
  · simp only [B.usize_ok h1, Exec.ok_bind]
    exact strReserveV_refuses B R hi.len hi.capacity hcap (by rwa [← Nat.add_assoc])
      (fun e => by have := hB e; omega)
  · cases B with
    | debug => simp only [Build.usize, h1, if_false, Exec.error_bind]
    | release => have := hB rfl; omega

theorem strStepM_refuses (op : StrOp) (hi : SInv w m v bs cap) (hcap : TextFits cap)
    (hp : op.panics bs.length = false) (hn : ¬ TextFits (op.capAfter bs.length cap))
    (hB : B = .release → op.wanted < 2 ^ 63) :
    Str.stepM B (strAllocM B R.total) op v m = .error .panic := by
  cases op with
  | pop => exact absurd hcap hn
  | remove i => exact absurd hcap hn
  | len => exact absurd hcap hn
  | isEmpty => exact absurd hcap hn
  | push c =>
    simp only [Str.stepM, Str.pushM, Str.insertM, hi.len, Exec.ok_bind,
      strInsertV_refuses B R hi hcap _ (Nat.le_refl _) hn, Exec.error_bind]
  | insert i c =>
    have hle : i ≤ bs.length := by simpa [StrOp.panics] using hp
    simp only [Str.stepM, Str.insertM, strInsertV_refuses B R hi hcap _ hle hn, Exec.error_bind]
  | reserve n =>
    simp only [Str.stepM, strReserveM_refuses B R hi hcap hn hB, Exec.error_bind]
  | assign s =>
    simp only [Str.stepM, Str.assignM, strReserveM_refuses B R hi hcap hn hB, Exec.error_bind]

/-- A history whose capacities fit, and what is left. -/
theorem strRunM_ends (ops : List StrOp) : ∀ {m : Mem UInt8} {v : Vec} {bs : List UInt8}
    {cap : Nat}, SInv w m v bs cap → TextFits cap →
    (∀ c ∈ StrOp.caps ops bs.length cap, TextFits c) →
    Str.runM B (strAllocM B R.total) ops v m =
      Str.run (nullTermAllocator (defaultAllocator R)) ops v m ∧
      ∀ outs v' m', Str.run (nullTermAllocator (defaultAllocator R)) ops v m = .ok (outs, v', m') →
        ∃ bs' cap', SInv w m' v' bs' cap' ∧ TextFits cap' := by
  induction ops with
  | nil =>
    intro m v bs cap hi hcap _
    refine ⟨rfl, fun outs v' m' h => ?_⟩
    cases h
    exact ⟨bs, cap, hi, hcap⟩
  | cons op ops ih =>
    intro m v bs cap hi hcap hn
    refine ⟨strRunM_eq B (op :: ops) hi hcap hn, fun outs v' m' h => ?_⟩
    simp only [Str.run] at h
    cases hp : op.panics bs.length with
    | true =>
      cases op with
      | insert i c =>
        have : ¬ i ≤ bs.length := by simpa [StrOp.panics] using hp
        simp [Str.step, Str.insert, hi.insert_panic _ this] at h
      | _ => simp [StrOp.panics] at hp
    | false =>
      obtain ⟨o, v1, m1, bs1, he, hi1, hlen⟩ := hi.step_caps (R := R) op hp
      rw [he] at h
      simp only [Exec.ok_bind] at h
      obtain ⟨_, h2⟩ := ih hi1 (hn _ (by simp [StrOp.caps, hp])) (fun c hc => hn c (by
          rw [hlen] at hc
          simp only [StrOp.caps, hp, Bool.false_eq_true, if_false, List.mem_cons]
          exact .inr hc))
      cases hr : Str.run (nullTermAllocator (defaultAllocator R)) ops v1 m1 with
      | error e => rw [hr] at h; cases h
      | ok r =>
        obtain ⟨os, v2, m2⟩ := r
        rw [hr] at h
        cases h
        exact h2 _ _ _ hr

theorem strRunM_refuses (ops : List StrOp) : ∀ {m : Mem UInt8} {v : Vec} {bs : List UInt8}
    {cap : Nat}, SInv w m v bs cap → TextFits cap →
    (B = .release → ∀ op ∈ ops, op.wanted < 2 ^ 63) →
    (∃ c ∈ StrOp.caps ops bs.length cap, ¬ TextFits c) →
    Str.runM B (strAllocM B R.total) ops v m = .error .panic := by
  induction ops with
  | nil => intro m v bs cap _ _ _ hn; obtain ⟨c, hc, _⟩ := hn; cases hc
  | cons op ops ih =>
    intro m v bs cap hi hcap hB hn
    simp only [Str.runM]
    cases hp : op.panics bs.length with
    | true => simp [StrOp.caps, hp] at hn
    | false =>
      by_cases hr : TextFits (op.capAfter bs.length cap)
      · obtain ⟨o, v', m', bs', he, hi', hlen⟩ := hi.step_caps (R := R) op hp
        rw [hi.stepM_eq (R := R) B op hcap (fun _ => hr), he]
        simp only [Exec.ok_bind]
        rw [ih hi' hr (fun e o ho => hB e o (by simp [ho]))
          (by
            obtain ⟨c, hc, hc'⟩ := hn
            simp only [StrOp.caps, hp, Bool.false_eq_true, if_false, List.mem_cons] at hc
            rcases hc with rfl | hc
            · exact absurd hr hc'
            · exact ⟨c, by rwa [hlen], hc'⟩)]
        rfl
      · rw [strStepM_refuses B R op hi hcap hp hr fun e => hB e op (by simp)]
        rfl

end Verif
