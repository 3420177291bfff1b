import Verif.Machine.FixedVector

/-! A vector that would become too large panics, in release builds too if no single request is out of
all proportion. -/

set_option autoImplicit false

namespace Verif
open Spec

variable {α : Type}

theorem byteAllocator_refuses (B : Build) {size align : Nat} (h : TypeLayout size align)
    (S : SysAlloc α) {n : Nat} (hn : ¬ Representable size align n)
    (hB : B = .release → n * size < 2 ^ 64) (m : Mem α) :
    (byteAllocator B size align S).alloc n m = .error .panic := by
  have ha := h.align_pos
  have hb := h.align_le
  unfold Representable at hn
  have hl : B.allocLayout size align n = .error .panic := by
    unfold Build.allocLayout
    by_cases h1 : n * size < 2 ^ 64
    · have h0 : n * size ≠ 0 := by omega
      simp only [B.usize_ok h1, Exec.ok_bind, h0, if_false, Layout.bytes]
      by_cases h2 : n * size < 2 ^ 63
      · simp only [h2, if_true, Exec.ok_bind, Layout.alignTo]
        have h3 : max 1 align = align := by omega
        rw [if_neg]
        rw [h3]
        exact fun h4 => hn h4.2
      · simp only [h2, if_false, Exec.error_bind]
    · cases B with
      | debug => simp only [Build.usize, h1, if_false, Exec.error_bind]
      | release => exact absurd (hB rfl) h1
  simp only [byteAllocator, hl, Exec.error_bind]

section
variable {size align : Nat} (B : Build) (h : TypeLayout size align) {A : Allocator α}
  (hA : ∀ n, ¬ Representable size align n → (B = .release → n * size < 2 ^ 64) →
    ∀ m : Mem α, A.alloc n m = .error .panic)
include h hA

theorem reserveM_refuses' {v : Vec} {m : Mem α} {len cap add : Nat} (hl : v.len = .ok len)
    (hc : v.capacity = .ok cap) (hcap : Representable size align cap)
    (hn : ¬ Representable size align (cap + add))
    (hb : B = .release → (cap + add) * size < 2 ^ 64) :
    v.reserveM B A add m = .error .panic := by
  have h0 : add ≠ 0 := by rintro rfl; exact hn hcap
  unfold Vec.reserveM
  simp only [h0, if_false, hl, hc, Exec.ok_bind]
  by_cases h1 : cap + add < 2 ^ 64
  · simp only [B.usize_ok h1, Exec.ok_bind, hA _ hn hb,
      Exec.error_bind]
  · cases B with
    | debug => simp only [Build.usize, h1, if_false, Exec.error_bind]
    | release =>
      have h2 := hb rfl
      have h3 : (cap + add) * 1 ≤ (cap + add) * size := Nat.mul_le_mul_left _ h.pos
      omega

theorem reserveM_refuses {v : Vec} {m : Mem α} {len cap add : Nat} (hl : v.len = .ok len)
    (hc : v.capacity = .ok cap) (hcap : Representable size align cap)
    (hn : ¬ Representable size align (cap + add)) (hB : B = .release → add * size < 2 ^ 63) :
    v.reserveM B A add m = .error .panic :=
  reserveM_refuses' B h hA hl hc hcap hn fun e => by
    have := hB e
    unfold Representable at hcap
    rw [Nat.add_mul]
    omega

theorem withCapacityM_refuses {n : Nat} {m : Mem α} (hn : ¬ Representable size align n)
    (hB : B = .release → n * size < 2 ^ 64) : Vec.withCapacityM B A n m = .error .panic :=
  reserveM_refuses' B h hA (len := 0) (cap := 0) rfl rfl (by simp [Representable])
    (by rwa [Nat.zero_add]) (by rwa [Nat.zero_add])

theorem growM_refuses {v : Vec} {m : Mem α} {len cap : Nat} (hl : v.len = .ok len)
    (hc : v.capacity = .ok cap) (hcap : Representable size align cap)
    (hn : ¬ Representable size align (Vec.calculateGrowCapacity cap)) :
    v.growM B A m = .error .panic := by
  have hlt := h.rep_lt hcap
  have hle : cap ≤ Vec.calculateGrowCapacity cap := by
    unfold Vec.calculateGrowCapacity; split <;> omega
  have hg : Vec.calculateGrowCapacityM B cap = .ok (Vec.calculateGrowCapacity cap) := by
    unfold Vec.calculateGrowCapacityM Vec.calculateGrowCapacity
    by_cases h0 : cap = 0
    · simp only [h0, if_true]
    · simp only [h0, if_false]
      exact B.usize_ok (by omega)
  simp only [Vec.growM, hc, Exec.ok_bind, hg, hle, if_true]
  refine reserveM_refuses B h hA hl hc hcap ?_ fun _ => ?_
  · rwa [show cap + (Vec.calculateGrowCapacity cap - cap) = Vec.calculateGrowCapacity cap by omega]
  · have hs := h.small
    unfold Representable at hcap
    have ha := h.align_pos
    unfold Vec.calculateGrowCapacity
    by_cases h0 : cap = 0
    · simp only [h0, if_true, Nat.sub_zero, Nat.one_mul]; exact hs
    · simp only [h0, if_false, show cap * 2 - cap = cap by omega]; omega

variable {keeps : Nat → Prop} {fits : Nat → Nat → Region → Nat → Prop} {init : Block α → Nat → Prop}
  {w : World α}

theorem stepM_refuses (nd : Bool) (op : SeqOp α) {v : Vec} {m : Mem α} {xs : List α}
    {cap : Nat} (hi : VInv keeps fits w m v xs cap) (hcap : Representable size align cap)
    {o : Out α} {ys : List α} (hs : op.step xs = .ok (o, ys))
    (hn : ¬ Representable size align (op.capAfter xs.length cap))
    (hB : B = .release → op.wanted * size < 2 ^ 63) :
    v.stepM B A nd op m = .error .panic := by
  have hl := hi.len
  have hc := hi.capacity
  have hle := hi.len_le
  have grow : ¬ Representable size align (if xs.length < cap then cap else if cap = 0 then 1 else
      2 * cap) → xs.length = cap ∧ ¬ Representable size align (Vec.calculateGrowCapacity cap) := by
    intro hn
    by_cases hf : xs.length < cap
    · rw [if_pos hf] at hn; exact absurd hcap hn
    · rw [if_neg hf] at hn
      refine ⟨by omega, ?_⟩
      unfold Vec.calculateGrowCapacity
      by_cases h0 : cap = 0
      · simpa only [h0, if_true] using hn
      · simpa only [h0, if_false, Nat.mul_comm 2 cap] using hn
  have zero : Representable size align 0 := by simp [Representable]
  cases op with
  | pop => exact absurd hcap hn
  | remove i => exact absurd hcap hn
  | set i x => exact absurd hcap hn
  | len => exact absurd hcap hn
  | isEmpty => exact absurd hcap hn
  | slice => exact absurd hcap hn
  | clear => exact absurd zero hn
  | push x =>
    obtain ⟨hf, hg⟩ := grow hn
    simp only [Vec.stepM, Vec.pushM, hi.isFull, Exec.ok_bind, hf, beq_self_eq_true, if_true,
      growM_refuses B h hA hl hc hcap hg, Exec.error_bind]
  | insert i x =>
    obtain ⟨hf, hg⟩ := grow hn
    have hix : i ≤ xs.length := by
      by_contra hc
      simp [SeqOp.step, hc] at hs
    simp only [Vec.stepM, Vec.insertM, hl, Exec.ok_bind, hix, if_true, hi.isFull]
    simp only [hf, beq_self_eq_true, if_true, growM_refuses B h hA hl hc hcap hg, Exec.error_bind]
  | reserve n =>
    simp only [Vec.stepM, reserveM_refuses B h hA hl hc hcap hn hB, Exec.error_bind]
  | append buf =>
    simp only [SeqOp.capAfter] at hn
    have hf : cap < xs.length + buf.length := by
      by_contra hf
      rw [show max cap (xs.length + buf.length) = cap by omega] at hn
      exact hn hcap
    rw [show max cap (xs.length + buf.length) = cap + (xs.length + buf.length - cap) by omega] at hn
    have hb : B = .release → (xs.length + buf.length - cap) * size < 2 ^ 63 := fun e =>
      Nat.lt_of_le_of_lt (Nat.mul_le_mul_right _ (by simp only [SeqOp.wanted]; omega)) (hB e)
    have hr := reserveM_refuses B h hA (m := m) hl hc hcap hn hb
    simp only [Vec.stepM, Vec.appendM, hl, hc, Exec.ok_bind]
    by_cases h1 : xs.length + buf.length < 2 ^ 64
    · simp only [B.usize_ok h1, Exec.ok_bind, hf, if_true, hr, Exec.error_bind]
    · cases B with
      | debug => simp only [Build.usize, h1, if_false, Exec.error_bind]
      | release =>
        have h2 := hB rfl
        have h3 : buf.length * 1 ≤ buf.length * size := Nat.mul_le_mul_left _ h.pos
        have h4 := h.rep_lt hcap
        simp only [SeqOp.wanted] at h2
        omega
  | assign buf =>
    simp only [SeqOp.capAfter] at hn
    have hf : cap < buf.length := by
      by_contra hf
      rw [show max cap buf.length = cap by omega] at hn
      exact hn hcap
    rw [show max cap buf.length = cap + (buf.length - cap) by omega] at hn
    have hb : B = .release → (buf.length - cap) * size < 2 ^ 63 := fun e =>
      Nat.lt_of_le_of_lt (Nat.mul_le_mul_right _ (by simp only [SeqOp.wanted]; omega)) (hB e)
    have hr := reserveM_refuses B h hA (m := m) hl hc hcap hn hb
    simp only [Vec.stepM, Vec.assignM, hc, Exec.ok_bind, hf, if_true, hr, Exec.error_bind]

theorem runM_refuses {A' : Allocator α}
    (ha : ∀ c, 0 < c → Representable size align c → ∀ m : Mem α, A.alloc c m = A'.alloc c m)
    (hd : ∀ c, Representable size align c → ∀ (p : Ptr) (m : Mem α),
      A.dealloc p c m = A'.dealloc p c m)
    (hA' : Lawful A' fits keeps init) (nd : Bool) (ops : List (SeqOp α)) :
    ∀ {v : Vec} {m : Mem α} {xs : List α} {cap : Nat},
    (nd = true → ∀ op ∈ ops, op.isSlice = false) →
    VInv keeps fits w m v xs cap → Representable size align cap →
    (B = .release → ∀ op ∈ ops, op.wanted * size < 2 ^ 63) →
    (∃ c ∈ SeqOp.caps ops xs cap, ¬ Representable size align c) →
    Vec.runM B A nd ops v m = .error .panic := by
  induction ops with
  | nil => intro v m xs cap _ _ _ _ hn; obtain ⟨c, hc, _⟩ := hn; cases hc
  | cons op ops ih =>
    intro v m xs cap hops hi hcap hB hn
    have h1 := hi.step hA' nd op (fun hnd => hops hnd op (by simp))
    cases hs : op.step xs with
    | error e => simp [SeqOp.caps, hs] at hn
    | ok r =>
      obtain ⟨o, ys⟩ := r
      rw [hs] at h1
      obtain ⟨v', m', ds, na, nc, he, hi', _, _⟩ := h1
      simp only [Vec.runM]
      by_cases hr : Representable size align (op.capAfter xs.length cap)
      · rw [stepM_agree B (fun c hc => h.rep_lt hc) ha hd nd op hi hcap (fun _ _ _ => hr), he]
        simp only [Exec.ok_bind]
        rw [ih (fun hnd o ho => hops hnd o (by simp [ho])) hi' hr
          (fun e o ho => hB e o (by simp [ho]))
          (by
            obtain ⟨c, hc, hc'⟩ := hn
            simp only [SeqOp.caps, hs, List.mem_cons] at hc
            rcases hc with rfl | hc
            · exact absurd hr hc'
            · exact ⟨c, hc, hc'⟩)]
        rfl
      · rw [stepM_refuses B h hA nd op hi hcap hs hr fun e => hB e op (by simp)]
        rfl

end

end Verif
