import Verif.Machine.Vector
import Verif.Spec.Limits
import Verif.Vector.Refine

/-! Machine-level vectors behave like the vectors of `Verif.Vector.Model`. -/

set_option autoImplicit false

namespace Verif
open Spec

variable {α β γ : Type}

theorem Spec.TypeLayout.align_pos {size align : Nat} (h : TypeLayout size align) : 0 < align := by
  obtain ⟨k, _, hk⟩ := h.pow
  rw [hk]
  exact Nat.pow_pos (by omega)

theorem Spec.TypeLayout.align_le {size align : Nat} (h : TypeLayout size align) :
    align ≤ 2 ^ 29 := by
  obtain ⟨k, hk, rfl⟩ := h.pow
  exact Nat.pow_le_pow_right (by omega) hk

theorem Build.usize_ok (B : Build) {x : Nat} (h : x < 2 ^ 64) : B.usize x = .ok x := by
  simp only [Build.usize, h, if_true]

theorem layout_ok {size align n : Nat} (h : TypeLayout size align)
    (hn : n ≤ 2 ^ 63 - align) :
    (Layout.bytes n >>= fun l => l.alignTo align) = .ok ⟨n, align⟩ := by
  have ha := h.align_pos
  have ha' := h.align_le
  obtain ⟨k, hk, hk'⟩ := h.pow
  have h1 : n < 2 ^ 63 := by omega
  have h2 : max 1 align = align := by omega
  have h3 : ∃ k ≤ 63, align = 2 ^ k := ⟨k, by omega, hk'⟩
  simp only [Layout.bytes, h1, if_true, Exec.ok_bind, Layout.alignTo, h2, hn, h3, and_self]

theorem Build.allocLayout_ok (B : Build) {size align n : Nat} (h : TypeLayout size align)
    (hpos : 0 < n) (hn : Representable size align n) :
    B.allocLayout size align n = .ok ⟨n * size, align⟩ := by
  have h1 : n * size < 2 ^ 64 := by unfold Representable at hn; omega
  have h2 : n * size ≠ 0 := Nat.ne_of_gt (Nat.mul_pos hpos h.pos)
  simp only [Build.allocLayout, B.usize_ok h1, Exec.ok_bind, h2, if_false]
  exact layout_ok h hn

theorem Build.deallocLayout_ok (B : Build) {size align n : Nat} (h : TypeLayout size align)
    (hn : Representable size align n) :
    B.deallocLayout size align n = .ok ⟨n * size, align⟩ := by
  have h1 : n * size < 2 ^ 64 := by unfold Representable at hn; omega
  simp only [Build.deallocLayout, B.usize_ok h1, Exec.ok_bind]
  exact layout_ok h hn

theorem byteAllocator_alloc (B : Build) {size align : Nat} (h : TypeLayout size align)
    (R : RawAlloc α) {n : Nat} (hpos : 0 < n) (hn : Representable size align n) (m : Mem α) :
    (byteAllocator B size align R.total).alloc n m = (defaultAllocator R).alloc n m := by
  have h0 : n ≠ 0 := by omega
  simp only [byteAllocator, B.allocLayout_ok h hpos hn, Exec.ok_bind, RawAlloc.total,
    defaultAllocator, h0, if_false, Nat.mul_div_cancel n h.pos, Bool.false_eq_true]

theorem byteAllocator_dealloc (B : Build) {size align : Nat} (h : TypeLayout size align)
    (S : SysAlloc α) (R : RawAlloc α) {n : Nat} (hn : Representable size align n) (p : Ptr)
    (m : Mem α) :
    (byteAllocator B size align S).dealloc p n m = (defaultAllocator R).dealloc p n m := by
  simp only [byteAllocator, B.deallocLayout_ok h hn, Exec.ok_bind, defaultAllocator, rawDealloc]
  have he : ∀ k : Nat, n * size = k * size ↔ k = n := fun k =>
    ⟨fun e => (Nat.eq_of_mul_eq_mul_right h.pos e).symm, fun e => by rw [e]⟩
  simp only [he]
  rcases p with _ | ⟨b, _ | o⟩ <;> rfl

section fits
variable {size align : Nat} (B : Build) (h : TypeLayout size align) (R : RawAlloc α)
include h

theorem Spec.TypeLayout.rep_lt {n : Nat} (hn : Representable size align n) : n < 2 ^ 63 := by
  have h1 : n * 1 ≤ n * size := Nat.mul_le_mul_left _ h.pos
  have h2 := h.align_pos
  unfold Representable at hn
  omega

theorem reserveM_eq {v : Vec} {m : Mem α} {len cap add : Nat} (hl : v.len = .ok len)
    (hc : v.capacity = .ok cap) (hcap : Representable size align cap)
    (hn : Representable size align (cap + add)) :
    v.reserveM B (byteAllocator B size align R.total) add m =
      v.reserve (defaultAllocator R) add m := by
  unfold Vec.reserveM Vec.reserve
  by_cases h0 : add = 0
  · simp only [h0, if_true]
  · have hlt := h.rep_lt hn
    simp only [h0, if_false, hl, hc, Exec.ok_bind, B.usize_ok (show cap + add < 2 ^ 64 by omega),
      byteAllocator_alloc B h R (show 0 < cap + add by omega) hn,
      byteAllocator_dealloc B h R.total R hcap]

theorem growM_eq {v : Vec} {m : Mem α} {len cap : Nat} (hl : v.len = .ok len)
    (hc : v.capacity = .ok cap) (hcap : Representable size align cap)
    (hn : Representable size align (Vec.calculateGrowCapacity cap)) :
    v.growM B (byteAllocator B size align R.total) m = v.grow (defaultAllocator R) m := by
  have hlt := h.rep_lt hn
  have hle : cap ≤ Vec.calculateGrowCapacity cap := by
    unfold Vec.calculateGrowCapacity; split <;> omega
  have hg : Vec.calculateGrowCapacityM B cap = .ok (Vec.calculateGrowCapacity cap) := by
    unfold Vec.calculateGrowCapacityM
    unfold Vec.calculateGrowCapacity at hlt ⊢
    by_cases h0 : cap = 0
    · simp only [h0, if_true]
    · simp only [h0, if_false] at hlt ⊢
      exact B.usize_ok (by omega)
  simp only [Vec.growM, Vec.grow, hc, Exec.ok_bind, hg, hle, if_true]
  refine reserveM_eq B h R hl hc hcap ?_
  rwa [show cap + (Vec.calculateGrowCapacity cap - cap) = Vec.calculateGrowCapacity cap by omega]

theorem stepM_eq (nd : Bool) (op : SeqOp α) {v : Vec} {m : Mem α} {w : Nat → Option (Block α)}
    {xs : List α} {cap : Nat} (hi : VInv (fun _ => False) defaultFits w m v xs cap)
    (hcap : Representable size align cap)
    (hn : ∀ o ys, op.step xs = .ok (o, ys) →
      Representable size align (op.capAfter xs.length cap)) :
    v.stepM B (byteAllocator B size align R.total) nd op m = v.step (defaultAllocator R) nd op m := by
  have hl := hi.len
  have hc := hi.capacity
  have hle := hi.len_le
  cases op with
  | pop => rfl
  | remove i => rfl
  | set i x => rfl
  | len => rfl
  | isEmpty => rfl
  | slice => rfl
  | clear =>
    simp only [Vec.stepM, Vec.step, Vec.clear, hc, Exec.ok_bind,
      byteAllocator_dealloc B h R.total R hcap]
  | push x =>
    have hn' := hn _ _ rfl
    simp only [SeqOp.capAfter] at hn'
    simp only [Vec.stepM, Vec.step, Vec.pushM, Vec.push, hi.isFull, Exec.ok_bind]
    by_cases hf : xs.length = cap
    · have : ¬ xs.length < cap := by omega
      rw [if_neg this] at hn'
      rw [growM_eq B h R hl hc hcap (by
        unfold Vec.calculateGrowCapacity
        by_cases h0 : cap = 0
        · simpa only [h0, if_true] using hn'
        · simpa only [h0, if_false, Nat.mul_comm 2 cap] using hn')]
    · simp only [beq_eq_false_iff_ne.2 hf, Bool.false_eq_true, if_false]
  | insert i x =>
    simp only [Vec.stepM, Vec.step, Vec.insertM, Vec.insert, hl, Exec.ok_bind]
    by_cases hix : i ≤ xs.length
    · have hn' := hn .unit (xs.take i ++ x :: xs.drop i) (by simp [SeqOp.step, hix])
      simp only [SeqOp.capAfter] at hn'
      simp only [hix, if_true, hi.isFull, Exec.ok_bind]
      by_cases hf : xs.length = cap
      · have : ¬ xs.length < cap := by omega
        rw [if_neg this] at hn'
        rw [growM_eq B h R hl hc hcap (by
          unfold Vec.calculateGrowCapacity
          by_cases h0 : cap = 0
          · simpa only [h0, if_true] using hn'
          · simpa only [h0, if_false, Nat.mul_comm 2 cap] using hn')]
      · simp only [beq_eq_false_iff_ne.2 hf, Bool.false_eq_true, if_false]
    · simp only [hix, if_false]
  | reserve n =>
    have hn' := hn _ _ rfl
    simp only [SeqOp.capAfter] at hn'
    simp only [Vec.stepM, Vec.step]
    rw [reserveM_eq B h R hl hc hcap hn']
  | append buf =>
    have hn' := hn _ _ rfl
    simp only [SeqOp.capAfter] at hn'
    have hlt := h.rep_lt hn'
    simp only [Vec.stepM, Vec.step, Vec.appendM, Vec.append, hl, hc, Exec.ok_bind,
      B.usize_ok (show xs.length + buf.length < 2 ^ 64 by omega)]
    by_cases hf : cap < xs.length + buf.length
    · rw [reserveM_eq B h R hl hc hcap (by
        rwa [show cap + (xs.length + buf.length - cap) = max cap (xs.length + buf.length) by
          omega])]
    · simp only [hf, if_false]
  | assign buf =>
    have hn' := hn _ _ rfl
    simp only [SeqOp.capAfter] at hn'
    simp only [Vec.stepM, Vec.step, Vec.assignM, Vec.assign, hc, Exec.ok_bind]
    by_cases hf : cap < buf.length
    · rw [reserveM_eq B h R hl hc hcap (by
        rwa [show cap + (buf.length - cap) = max cap buf.length by omega])]
    · simp only [hf, if_false]

theorem runM_eq (nd : Bool) (ops : List (SeqOp α)) :
    ∀ {v : Vec} {m : Mem α} {w : Nat → Option (Block α)} {xs : List α} {cap : Nat},
    (nd = true → ∀ op ∈ ops, op.isSlice = false) →
    VInv (fun _ => False) defaultFits w m v xs cap → Representable size align cap →
    (∀ c ∈ SeqOp.caps ops xs cap, Representable size align c) →
    Vec.runM B (byteAllocator B size align R.total) nd ops v m =
      Vec.run (defaultAllocator R) nd ops v m := by
  induction ops with
  | nil => intros; rfl
  | cons op ops ih =>
    intro v m w xs cap hops hi hcap hn
    have h1 := hi.step (defaultAllocator_lawful R) nd op (fun hnd => hops hnd op (by simp))
    simp only [Vec.runM, Vec.run]
    rw [stepM_eq B h R nd op hi hcap (by
      intro o ys hs
      exact hn _ (by simp [SeqOp.caps, hs]))]
    cases hs : op.step xs with
    | error e =>
      rw [hs] at h1
      simp only [] at h1
      rw [h1]
      rfl
    | ok r =>
      obtain ⟨o, ys⟩ := r
      rw [hs] at h1
      obtain ⟨v', m', ds, na, nc, he, hi', _, _⟩ := h1
      rw [he]
      simp only [Exec.ok_bind]
      rw [ih (fun hnd o ho => hops hnd o (by simp [ho])) hi'
        (hn _ (by simp [SeqOp.caps, hs]))
        (fun c hc => hn c (by simp [SeqOp.caps, hs, hc]))]

end fits

/-! ## Debug builds: the same result, or a panic -/

/-- `x` is `y`, unless it panics. -/
def OrPanic (x y : Exec β) : Prop := x = y ∨ x = .error .panic

theorem OrPanic.rfl {x : Exec β} : OrPanic x x := Or.inl (Eq.refl x)

theorem OrPanic.bind {x y : Exec β} {f g : β → Exec γ} (h : OrPanic x y)
    (hf : ∀ r, y = .ok r → OrPanic (f r) (g r)) : OrPanic (x >>= f) (y >>= g) := by
  rcases h with rfl | rfl
  · cases x with
    | error e => exact .inl (Eq.refl _)
    | ok r => exact hf r (Eq.refl _)
  · exact .inr (Eq.refl _)

theorem OrPanic.ite {c : Prop} [Decidable c] {x y x' y' : Exec β} (h1 : c → OrPanic x x')
    (h2 : ¬ c → OrPanic y y') : OrPanic (if c then x else y) (if c then x' else y') := by
  by_cases hc : c
  · simpa [hc] using h1 hc
  · simpa [hc] using h2 hc

theorem OrPanic.usize (x : Nat) : OrPanic (Build.debug.usize x) (.ok x) := by
  unfold Build.usize
  by_cases h : x < 2 ^ 64
  · exact .inl (by simp only [h, if_true])
  · exact .inr (by simp only [h, if_false])

theorem layout_cases (size align n : Nat) :
    (Build.debug.deallocLayout size align n = .error .panic) ∨
      ∃ a, Build.debug.deallocLayout size align n = .ok ⟨n * size, a⟩ := by
  unfold Build.deallocLayout Layout.bytes Layout.alignTo
  rcases OrPanic.usize (n * size) with h | h
  · rw [h]
    simp only [Exec.ok_bind]
    by_cases h1 : n * size < 2 ^ 63
    · simp only [h1, if_true, Exec.ok_bind]
      split
      · exact .inr ⟨_, rfl⟩
      · exact .inl rfl
    · exact .inl (by simp only [h1, if_false, Exec.error_bind])
  · exact .inl (by rw [h]; rfl)

theorem allocLayout_cases (size align n : Nat) :
    (Build.debug.allocLayout size align n = .error .panic) ∨
      (n * size ≠ 0 ∧ ∃ a, Build.debug.allocLayout size align n = .ok ⟨n * size, a⟩) := by
  unfold Build.allocLayout Layout.bytes Layout.alignTo
  rcases OrPanic.usize (n * size) with h | h
  · rw [h]
    simp only [Exec.ok_bind]
    by_cases h0 : n * size = 0
    · exact .inl (by simp only [h0, if_true])
    · simp only [h0, if_false]
      by_cases h1 : n * size < 2 ^ 63
      · simp only [h1, if_true, Exec.ok_bind]
        split
        · exact .inr ⟨h0, _, rfl⟩
        · exact .inl rfl
      · exact .inl (by simp only [h1, if_false, Exec.error_bind])
  · exact .inl (by rw [h]; rfl)

section debug
variable {size : Nat} (hsize : 0 < size) (align : Nat) (R : RawAlloc α)

local notation "AD" => byteAllocator Build.debug size align (RawAlloc.total R)

include hsize

theorem byteAlloc_orPanic (n : Nat) (m : Mem α) :
    OrPanic ((AD).alloc n m) ((defaultAllocator R).alloc n m) := by
  simp only [byteAllocator]
  rcases allocLayout_cases size align n with h | ⟨h0, a, h⟩
  · exact .inr (by rw [h]; rfl)
  · refine .inl ?_
    have hn : n ≠ 0 := by rintro rfl; simp at h0
    rw [h]
    simp only [Exec.ok_bind, RawAlloc.total, Bool.false_eq_true, if_false, defaultAllocator, hn,
      Nat.mul_div_cancel n hsize]

theorem byteDealloc_orPanic (p : Ptr) (n : Nat) (m : Mem α) :
    OrPanic ((AD).dealloc p n m) ((defaultAllocator R).dealloc p n m) := by
  simp only [byteAllocator]
  rcases layout_cases size align n with h | ⟨a, h⟩
  · exact .inr (by rw [h]; rfl)
  · refine .inl ?_
    have he : ∀ k : Nat, n * size = k * size ↔ k = n := fun k =>
      ⟨fun e => (Nat.eq_of_mul_eq_mul_right hsize e).symm, fun e => by rw [e]⟩
    rw [h]
    simp only [Exec.ok_bind, defaultAllocator, rawDealloc, he]
    rcases p with _ | ⟨b, _ | o⟩ <;> rfl

theorem reserveM_orPanic (add : Nat) (v : Vec) (m : Mem α) :
    OrPanic (v.reserveM .debug (AD) add m) (v.reserve (defaultAllocator R) add m) := by
  unfold Vec.reserveM Vec.reserve
  refine OrPanic.ite (fun _ => .rfl) fun _ => ?_
  refine OrPanic.bind .rfl fun size _ => OrPanic.bind .rfl fun cap _ => ?_
  rcases OrPanic.usize (cap + add) with h | h
  · rw [h]
    simp only [Exec.ok_bind]
    refine OrPanic.bind (byteAlloc_orPanic hsize align R _ m) fun r _ => ?_
    refine OrPanic.bind (OrPanic.ite (fun _ => .rfl) fun _ => ?_) fun m2 _ => .rfl
    exact OrPanic.bind .rfl fun m3 _ => OrPanic.bind .rfl fun c _ =>
      byteDealloc_orPanic hsize align R _ _ _
  · exact .inr (by rw [h]; rfl)

theorem growM_orPanic (v : Vec) (m : Mem α) :
    OrPanic (v.growM .debug (AD) m) (v.grow (defaultAllocator R) m) := by
  unfold Vec.growM Vec.grow
  refine OrPanic.bind .rfl fun c hc => ?_
  have hg : OrPanic (Vec.calculateGrowCapacityM .debug c) (.ok (Vec.calculateGrowCapacity c)) := by
    unfold Vec.calculateGrowCapacityM Vec.calculateGrowCapacity
    by_cases h0 : c = 0
    · exact .inl (by simp only [h0, if_true])
    · simp only [h0, if_false]
      exact OrPanic.usize _
  rcases hg with hg | hg
  · rw [hg, hc]
    have hle : c ≤ Vec.calculateGrowCapacity c := by
      unfold Vec.calculateGrowCapacity; split <;> omega
    simp only [Exec.ok_bind, hle, if_true]
    exact reserveM_orPanic hsize align R _ v m
  · exact .inr (by rw [hg]; rfl)

theorem stepM_orPanic (nd : Bool) (op : SeqOp α) (v : Vec) (m : Mem α) :
    OrPanic (v.stepM .debug (AD) nd op m) (v.step (defaultAllocator R) nd op m) := by
  cases op with
  | pop => exact .rfl
  | remove i => exact .rfl
  | set i x => exact .rfl
  | len => exact .rfl
  | isEmpty => exact .rfl
  | slice => exact .rfl
  | clear =>
    simp only [Vec.stepM, Vec.step]
    refine OrPanic.bind ?_ fun r _ => .rfl
    unfold Vec.clear
    refine OrPanic.bind (OrPanic.ite (fun _ => .rfl) fun _ => ?_) fun m2 _ => .rfl
    exact OrPanic.bind .rfl fun n _ => OrPanic.bind .rfl fun m3 _ => OrPanic.bind .rfl fun c _ =>
      byteDealloc_orPanic hsize align R _ _ _
  | push x =>
    simp only [Vec.stepM, Vec.step]
    refine OrPanic.bind ?_ fun r _ => .rfl
    unfold Vec.pushM Vec.push
    exact OrPanic.bind .rfl fun f _ => OrPanic.bind
      (OrPanic.ite (fun _ => growM_orPanic hsize align R v m) fun _ => .rfl) fun r _ => .rfl
  | insert i x =>
    simp only [Vec.stepM, Vec.step]
    refine OrPanic.bind ?_ fun r _ => .rfl
    unfold Vec.insertM Vec.insert
    refine OrPanic.bind .rfl fun n _ => OrPanic.ite (fun _ => ?_) fun _ => .rfl
    exact OrPanic.bind .rfl fun f _ => OrPanic.bind
      (OrPanic.ite (fun _ => growM_orPanic hsize align R v m) fun _ => .rfl) fun r _ => .rfl
  | reserve n =>
    simp only [Vec.stepM, Vec.step]
    exact OrPanic.bind (reserveM_orPanic hsize align R n v m) fun r _ => .rfl
  | append buf =>
    simp only [Vec.stepM, Vec.step]
    refine OrPanic.bind ?_ fun r _ => .rfl
    unfold Vec.appendM Vec.append
    refine OrPanic.bind .rfl fun n _ => ?_
    rcases OrPanic.usize (n + buf.length) with h | h
    · rw [h]
      simp only [Exec.ok_bind]
      exact OrPanic.bind .rfl fun c _ => OrPanic.bind
        (OrPanic.ite (fun _ => reserveM_orPanic hsize align R _ v m) fun _ => .rfl) fun r _ => .rfl
    · exact .inr (by rw [h]; rfl)
  | assign buf =>
    simp only [Vec.stepM, Vec.step]
    refine OrPanic.bind ?_ fun r _ => .rfl
    unfold Vec.assignM Vec.assign
    exact OrPanic.bind .rfl fun c _ => OrPanic.bind
        (OrPanic.ite (fun _ => reserveM_orPanic hsize align R _ v m) fun _ => .rfl) fun r _ => .rfl

theorem runM_orPanic (nd : Bool) (ops : List (SeqOp α)) : ∀ (v : Vec) (m : Mem α),
    OrPanic (Vec.runM .debug (AD) nd ops v m) (Vec.run (defaultAllocator R) nd ops v m) := by
  induction ops with
  | nil => intro v m; exact .rfl
  | cons op ops ih =>
    intro v m
    exact OrPanic.bind (stepM_orPanic hsize align R nd op v m) fun r _ =>
      OrPanic.bind (ih r.2.1 r.2.2) fun r2 _ => .rfl

end debug

end Verif
