import Verif.Machine.Text
import Verif.Machine.VectorProofs
import Verif.Text.Proofs
import Verif.Spec.TextLimits

/-! Machine-level strings behave like the strings of `Verif.Text.Model`. -/

set_option autoImplicit false

namespace Verif
open Spec

theorem byte_layout : TypeLayout 1 1 := ⟨by omega, ⟨0, by omega, rfl⟩, ⟨1, rfl⟩, by omega⟩

/-! ## Any two allocators that agree where it matters -/

section same
variable {α : Type} (B : Build) {A A' : Allocator α} {v : Vec} {len cap : Nat}
  (hl : v.len = .ok len) (hc : v.capacity = .ok cap)
  (hd : ∀ (p : Ptr) (m : Mem α), A.dealloc p cap m = A'.dealloc p cap m)
include hl hc hd

theorem reserveM_same {add : Nat} (hlt : cap + add < 2 ^ 64)
    (ha : ∀ m : Mem α, A.alloc (cap + add) m = A'.alloc (cap + add) m) (m : Mem α) :
    v.reserveM B A add m = v.reserve A' add m := by
  unfold Vec.reserveM Vec.reserve
  simp only [hl, hc, Exec.ok_bind, B.usize_ok hlt, ha, hd]

theorem growM_same (hlt : Vec.calculateGrowCapacity cap < 2 ^ 64)
    (ha : ∀ m : Mem α, A.alloc (Vec.calculateGrowCapacity cap) m =
      A'.alloc (Vec.calculateGrowCapacity cap) m) (m : Mem α) :
    v.growM B A m = v.grow A' m := by
  have hle : cap ≤ Vec.calculateGrowCapacity cap := by
    unfold Vec.calculateGrowCapacity; split <;> omega
  have hg : Vec.calculateGrowCapacityM B cap = .ok (Vec.calculateGrowCapacity cap) := by
    unfold Vec.calculateGrowCapacityM
    unfold Vec.calculateGrowCapacity at hlt ⊢
    by_cases h0 : cap = 0
    · simp only [h0, if_true]
    · simp only [h0, if_false] at hlt ⊢
      exact B.usize_ok hlt
  have he : cap + (Vec.calculateGrowCapacity cap - cap) = Vec.calculateGrowCapacity cap := by omega
  simp only [Vec.growM, Vec.grow, hc, Exec.ok_bind, hg, hle, if_true]
  exact reserveM_same B hl hc hd (by rw [he]; exact hlt) (by rw [he]; exact ha) m

theorem insertM_same (hf : v.isFull = .ok (len == cap)) (i : Nat) (x : α)
    (hlt : len = cap → Vec.calculateGrowCapacity cap < 2 ^ 64)
    (ha : len = cap → ∀ m : Mem α, A.alloc (Vec.calculateGrowCapacity cap) m =
      A'.alloc (Vec.calculateGrowCapacity cap) m) (m : Mem α) :
    v.insertM B A i x m = v.insert A' i x m := by
  unfold Vec.insertM Vec.insert
  simp only [hl, Exec.ok_bind, hf]
  by_cases h : len = cap
  · rw [growM_same B hl hc hd (hlt h) (ha h)]
  · simp only [beq_eq_false_iff_ne.2 h, Bool.false_eq_true, if_false]

theorem appendM_same (nd : Bool) (buf : List α) (hlt : len + buf.length < 2 ^ 64)
    (ha : cap < len + buf.length → ∀ m : Mem α, A.alloc (len + buf.length) m =
      A'.alloc (len + buf.length) m) (m : Mem α) :
    v.appendM B A nd buf m = v.append A' nd buf m := by
  unfold Vec.appendM Vec.append
  simp only [hl, hc, Exec.ok_bind, B.usize_ok hlt]
  by_cases h : cap < len + buf.length
  · have he : cap + (len + buf.length - cap) = len + buf.length := by omega
    rw [reserveM_same B hl hc hd (by omega) (by rw [he]; exact ha h)]
  · simp only [h, if_false]

end same

/-! ## While everything fits -/

theorem strAllocM_alloc (B : Build) (R : RawAlloc UInt8) {n : Nat} (hn : TextFits n)
    (m : Mem UInt8) :
    (strAllocM B R.total).alloc n m = (nullTermAllocator (defaultAllocator R)).alloc n m := by
  unfold TextFits at hn
  simp only [nullTermAllocatorM, nullTermAllocator, B.usize_ok (show n + 1 < 2 ^ 64 by omega),
    Exec.ok_bind, byteAllocator_alloc B byte_layout R (show 0 < n + 1 by omega)
      (show Representable 1 1 (n + 1) by unfold Representable; omega)]

theorem strAllocM_dealloc (B : Build) (S : SysAlloc UInt8) (R : RawAlloc UInt8) {n : Nat}
    (hn : TextFits n) (p : Ptr) (m : Mem UInt8) :
    (strAllocM B S).dealloc p n m = (nullTermAllocator (defaultAllocator R)).dealloc p n m := by
  unfold TextFits at hn
  simp only [nullTermAllocatorM, nullTermAllocator, B.usize_ok (show n + 1 < 2 ^ 64 by omega),
    Exec.ok_bind, byteAllocator_dealloc B byte_layout S R
      (show Representable 1 1 (n + 1) by unfold Representable; omega)]

theorem growCapacity_eq {len cap : Nat} (h : len = cap) :
    Vec.calculateGrowCapacity cap = if len < cap then cap else if cap = 0 then 1 else 2 * cap := by
  have : ¬ len < cap := by omega
  rw [if_neg this]
  unfold Vec.calculateGrowCapacity
  split
  · rfl
  · omega

variable {R : RawAlloc UInt8} {w : World UInt8} {m : Mem UInt8} {v : Vec} {bs : List UInt8}
  {cap : Nat}

theorem SInv.reserveM_eq (B : Build) (hi : SInv w m v bs cap) (hcap : TextFits cap) {n : Nat}
    (hn : TextFits (cap + n + 1)) :
    Str.reserveM B (strAllocM B R.total) n v m =
      Str.reserve (nullTermAllocator (defaultAllocator R)) n v m := by
  have hn' := hn
  unfold TextFits at hn'
  unfold Str.reserveM Str.reserve
  simp only [B.usize_ok (show n + 1 < 2 ^ 64 by omega), Exec.ok_bind]
  exact reserveM_same B hi.len hi.capacity
    (fun p m => strAllocM_dealloc B R.total R hcap p m) (by omega)
    (fun m => strAllocM_alloc B R (by rw [← Nat.add_assoc]; exact hn) m) m

theorem SInv.insertM_eq (B : Build) (hi : SInv w m v bs cap) (hcap : TextFits cap) (i : Nat)
    (c : Char)
    (hn : TextFits (if bs.length < cap then cap else if cap = 0 then 1 else 2 * cap)) :
    Str.insertM B (strAllocM B R.total) i c v m =
      Str.insert (nullTermAllocator (defaultAllocator R)) i c v m := by
  unfold Str.insertM Str.insert
  rw [insertM_same B hi.len hi.capacity (fun p m => strAllocM_dealloc B R.total R hcap p m)
    hi.isFull i (charToByte c)
    (fun h => by rw [growCapacity_eq h]; unfold TextFits at hn; omega)
    (fun h m => strAllocM_alloc B R (by rw [growCapacity_eq h]; exact hn) m)]

/-- One call. -/
theorem SInv.stepM_eq (B : Build) (op : StrOp) (hi : SInv w m v bs cap) (hcap : TextFits cap)
    (hn : op.panics bs.length = false → TextFits (op.capAfter bs.length cap)) :
    Str.stepM B (strAllocM B R.total) op v m =
      Str.step (nullTermAllocator (defaultAllocator R)) op v m := by
  cases op with
  | pop => rfl
  | remove i => rfl
  | len => rfl
  | isEmpty => rfl
  | push c =>
    simp only [Str.stepM, Str.step, Str.pushM, Str.push, hi.len, Exec.ok_bind]
    rw [hi.insertM_eq B hcap _ c (hn rfl)]
  | insert i c =>
    simp only [Str.stepM, Str.step]
    by_cases hle : i ≤ bs.length
    · rw [hi.insertM_eq B hcap i c (hn (by simp [StrOp.panics]; omega))]
    · simp only [Str.insertM, Str.insert, Vec.insertM, Vec.insert, hi.len, Exec.ok_bind, hle,
        if_false, Exec.error_bind]
  | reserve n =>
    simp only [Str.stepM, Str.step]
    rw [hi.reserveM_eq B hcap (hn rfl)]
  | assign s =>
    have hn' := hn rfl
    simp only [StrOp.capAfter] at hn'
    have hlen := hi.len_le
    simp only [Str.stepM, Str.step, Str.assignM, Str.assign]
    rw [hi.reserveM_eq B hcap hn']
    obtain ⟨v1, m1, he1, hi1, _⟩ := hi.reserve_any (nullTerm_lawful R) ((utf8 s).length + 1)
    simp only [Str.reserve, he1, Exec.ok_bind]
    have hf : TextFits (cap + ((utf8 s).length + 1)) := by rw [← Nat.add_assoc]; exact hn'
    have hlt : ¬ cap + ((utf8 s).length + 1) < bs.length + (utf8 s).length := by omega
    rw [appendM_same B hi1.len hi1.capacity (fun p m => strAllocM_dealloc B R.total R hf p m) false
      (utf8 s) (by unfold TextFits at hf; omega) (fun h => absurd h hlt)]

/-- The bytes and the capacity after a call. -/
theorem SInv.step_caps (op : StrOp) (h : SInv w m v bs cap) (hp : op.panics bs.length = false) :
    ∃ o v' m' bs', Str.step (nullTermAllocator (defaultAllocator R)) op v m = .ok (o, v', m') ∧
      SInv w m' v' bs' (op.capAfter bs.length cap) ∧ bs'.length = op.lenAfter bs.length := by
  have hA := nullTerm_lawful R
  have hins : ∀ (i : Nat) (c : Char), i ≤ bs.length → ∃ v' m',
      Str.insert (nullTermAllocator (defaultAllocator R)) i c v m = .ok (v', m') ∧
      SInv w m' v' (bs.insertIdx i (charToByte c))
        (if bs.length < cap then cap else if cap = 0 then 1 else 2 * cap) := by
    intro i c hi
    obtain ⟨v1, m1, b1, blk1, he, hB, _⟩ := h.insert hA (charToByte c) hi
    obtain ⟨m2, hn, h2, ht⟩ := SInv.nullTerminate hB.inv
    refine ⟨v1, m2, by simp [Str.insert, he, hn], ?_⟩
    have hlen := h.len_le
    have : growCap bs.length cap =
        if bs.length < cap then cap else if cap = 0 then 1 else 2 * cap := by
      unfold growCap
      by_cases hf : bs.length = cap
      · simp only [hf, if_true]
        rw [growCapacity_eq hf, hf]
      · have : bs.length < cap := by omega
        simp [hf, this]
    rw [← this]
    exact h2
  cases op with
  | push c =>
    obtain ⟨v', m', he, hi⟩ := hins bs.length c (Nat.le_refl _)
    exact ⟨.unit, v', m', _, by simp [Str.step, Str.push, h.len, he], hi, by
      simp [StrOp.lenAfter]⟩
  | pop =>
    rcases List.eq_nil_or_concat bs with hx | ⟨ys, x, hx⟩
    · subst hx
      obtain ⟨m2, hn, h2, ht⟩ := SInv.nullTerminate h
      exact ⟨_, v, m2, _, by simp [Str.step, Str.pop, h.pop_nil, hn]; rfl, h2, rfl⟩
    · rw [List.concat_eq_append] at hx
      subst hx
      obtain ⟨b, blk, hB⟩ := h.own (by simp)
      obtain ⟨v', he, hi⟩ := hB.pop
      obtain ⟨m2, hn, h2, ht⟩ := SInv.nullTerminate hi.inv
      exact ⟨_, v', m2, _, by simp [Str.step, Str.pop, he, hn]; rfl, h2, by simp [StrOp.lenAfter]⟩
  | insert i c =>
    have hi : i ≤ bs.length := by simpa [StrOp.panics] using hp
    obtain ⟨v', m', he, hinv⟩ := hins i c hi
    exact ⟨.unit, v', m', _, by simp [Str.step, he], hinv, by
      simp [StrOp.lenAfter, List.length_insertIdx, hi]⟩
  | remove i =>
    by_cases hi : i < bs.length
    · obtain ⟨b, blk, hB⟩ := h.own (by intro e; simp [e] at hi)
      obtain ⟨v', m', blk', he, hinv, _⟩ := hB.remove hi
      have hn : ¬ bs.length ≤ i := by omega
      exact ⟨_, v', m', _, by simp [Str.step, Str.remove, h.len, hn, he]; rfl, hinv.inv, by
        simp [StrOp.lenAfter, hi, List.length_eraseIdx]⟩
    · have hle : bs.length ≤ i := by omega
      exact ⟨_, v, m, bs, by simp [Str.step, Str.remove, h.len, hle]; rfl, h, by
        simp [StrOp.lenAfter, hi]⟩
  | reserve n =>
    obtain ⟨v', m', he, hi, _⟩ := h.reserve_any hA (n + 1)
    exact ⟨.unit, v', m', bs, by simp [Str.step, Str.reserve, he], by
      simpa only [StrOp.capAfter, Nat.add_assoc] using hi, rfl⟩
  | assign s =>
    obtain ⟨v1, m1, he1, hi1, _⟩ := h.reserve_any hA ((utf8 s).length + 1)
    obtain ⟨v2, m2, he2, hi2, _⟩ := hi1.append hA (utf8 s)
    obtain ⟨m3, hn, h3, ht⟩ := SInv.nullTerminate hi2
    have hlen := h.len_le
    refine ⟨.unit, v2, m3, bs ++ utf8 s, by simp [Str.step, Str.assign, Str.reserve, he1, he2, hn], ?_, by
      simp [StrOp.lenAfter]⟩
    rwa [show max (cap + ((utf8 s).length + 1)) (bs.length + (utf8 s).length) =
      cap + (utf8 s).length + 1 by omega] at h3
  | len => exact ⟨_, v, m, bs, by simp [Str.step, h.len]; rfl, h, rfl⟩
  | isEmpty => exact ⟨_, v, m, bs, by simp [Str.step, h.isEmpty]; rfl, h, rfl⟩

/-- A history whose capacities fit. -/
theorem strRunM_eq (B : Build) (ops : List StrOp) : ∀ {m : Mem UInt8} {v : Vec} {bs : List UInt8}
    {cap : Nat}, SInv w m v bs cap → TextFits cap →
    (∀ c ∈ StrOp.caps ops bs.length cap, TextFits c) →
    Str.runM B (strAllocM B R.total) ops v m =
      Str.run (nullTermAllocator (defaultAllocator R)) ops v m := by
  induction ops with
  | nil => intros; rfl
  | cons op ops ih =>
    intro m v bs cap hi hcap hn
    have hstep := hi.stepM_eq (R := R) B op hcap (fun hp => hn _ (by simp [StrOp.caps, hp]))
    simp only [Str.runM, Str.run, hstep]
    cases hp : op.panics bs.length with
    | true =>
      cases op with
      | insert i c =>
        have : ¬ i ≤ bs.length := by simpa [StrOp.panics] using hp
        simp [Str.step, Str.insert, hi.insert_panic _ this]
      | _ => simp [StrOp.panics] at hp
    | false =>
      obtain ⟨o, v', m', bs', he, hi', hlen⟩ := hi.step_caps (R := R) op hp
      simp only [he, Exec.ok_bind]
      rw [ih hi' (hn _ (by simp [StrOp.caps, hp]))
        (fun c hc => hn c (by
          rw [hlen] at hc
          simp only [StrOp.caps, hp, Bool.false_eq_true, if_false, List.mem_cons]
          exact .inr hc))]

/-! ## Debug builds: the same result, or a panic -/

section debug
variable {α : Type} {A A' : Allocator α}
  (ha : ∀ (n : Nat) (m : Mem α), OrPanic (A.alloc n m) (A'.alloc n m))
  (hd : ∀ (p : Ptr) (n : Nat) (m : Mem α), OrPanic (A.dealloc p n m) (A'.dealloc p n m))
include ha hd

theorem reserveM_debug (add : Nat) (v : Vec) (m : Mem α) :
    OrPanic (v.reserveM .debug A add m) (v.reserve A' add m) := by
  unfold Vec.reserveM Vec.reserve
  refine OrPanic.ite (fun _ => .rfl) fun _ => ?_
  refine OrPanic.bind .rfl fun size _ => OrPanic.bind .rfl fun cap _ => ?_
  rcases OrPanic.usize (cap + add) with h | h
  · rw [h]
    simp only [Exec.ok_bind]
    refine OrPanic.bind (ha _ m) fun r _ => ?_
    refine OrPanic.bind (OrPanic.ite (fun _ => .rfl) fun _ => ?_) fun m2 _ => .rfl
    exact OrPanic.bind .rfl fun m3 _ => OrPanic.bind .rfl fun c _ => hd _ _ _
  · exact .inr (by rw [h]; rfl)

theorem growM_debug (v : Vec) (m : Mem α) :
    OrPanic (v.growM .debug A m) (v.grow A' m) := by
  unfold Vec.growM Vec.grow
  refine OrPanic.bind .rfl fun c hc => ?_
  have hg : OrPanic (Vec.calculateGrowCapacityM .debug c) (.ok (Vec.calculateGrowCapacity c)) := by
    unfold Vec.calculateGrowCapacityM Vec.calculateGrowCapacity
    by_cases h0 : c = 0
    · exact .inl (by simp only [h0, if_true])
    · simp only [h0, if_false]
      exact OrPanic.usize _
  rcases hg with hg | hg
  · rw [hg, hc]
    have hle : c ≤ Vec.calculateGrowCapacity c := by
      unfold Vec.calculateGrowCapacity; split <;> omega
    simp only [Exec.ok_bind, hle, if_true]
    exact reserveM_debug ha hd _ v m
  · exact .inr (by rw [hg]; rfl)

theorem insertM_debug (i : Nat) (x : α) (v : Vec) (m : Mem α) :
    OrPanic (v.insertM .debug A i x m) (v.insert A' i x m) := by
  unfold Vec.insertM Vec.insert
  refine OrPanic.bind .rfl fun n _ => OrPanic.ite (fun _ => ?_) fun _ => .rfl
  exact OrPanic.bind .rfl fun f _ => OrPanic.bind
    (OrPanic.ite (fun _ => growM_debug ha hd v m) fun _ => .rfl) fun r _ => .rfl

theorem appendM_debug (nd : Bool) (buf : List α) (v : Vec) (m : Mem α) :
    OrPanic (v.appendM .debug A nd buf m) (v.append A' nd buf m) := by
  unfold Vec.appendM Vec.append
  refine OrPanic.bind .rfl fun n _ => ?_
  rcases OrPanic.usize (n + buf.length) with h | h
  · rw [h]
    simp only [Exec.ok_bind]
    exact OrPanic.bind .rfl fun c _ => OrPanic.bind
      (OrPanic.ite (fun _ => reserveM_debug ha hd _ v m) fun _ => .rfl) fun r _ => .rfl
  · exact .inr (by rw [h]; rfl)

end debug

theorem strAlloc_orPanic (R : RawAlloc UInt8) (n : Nat) (m : Mem UInt8) :
    OrPanic ((strAllocM .debug R.total).alloc n m)
      ((nullTermAllocator (defaultAllocator R)).alloc n m) := by
  simp only [nullTermAllocatorM, nullTermAllocator]
  rcases OrPanic.usize (n + 1) with h | h
  · rw [h]
    simp only [Exec.ok_bind]
    exact OrPanic.bind (byteAlloc_orPanic (by omega) 1 R _ m) fun r _ => .rfl
  · exact .inr (by rw [h]; rfl)

theorem strDealloc_orPanic (R : RawAlloc UInt8) (p : Ptr) (n : Nat) (m : Mem UInt8) :
    OrPanic ((strAllocM .debug R.total).dealloc p n m)
      ((nullTermAllocator (defaultAllocator R)).dealloc p n m) := by
  simp only [nullTermAllocatorM, nullTermAllocator]
  rcases OrPanic.usize (n + 1) with h | h
  · rw [h]
    simp only [Exec.ok_bind]
    exact byteDealloc_orPanic (by omega) 1 R p _ m
  · exact .inr (by rw [h]; rfl)

theorem strReserve_orPanic (R : RawAlloc UInt8) (n : Nat) (v : Vec) (m : Mem UInt8) :
    OrPanic (Str.reserveM .debug (strAllocM .debug R.total) n v m)
      (Str.reserve (nullTermAllocator (defaultAllocator R)) n v m) := by
  unfold Str.reserveM Str.reserve
  rcases OrPanic.usize (n + 1) with h | h
  · rw [h]
    simp only [Exec.ok_bind]
    exact reserveM_debug (strAlloc_orPanic R) (strDealloc_orPanic R) _ v m
  · exact .inr (by rw [h]; rfl)

theorem strInsert_orPanic (R : RawAlloc UInt8) (i : Nat) (c : Char) (v : Vec) (m : Mem UInt8) :
    OrPanic (Str.insertM .debug (strAllocM .debug R.total) i c v m)
      (Str.insert (nullTermAllocator (defaultAllocator R)) i c v m) := by
  unfold Str.insertM Str.insert
  exact OrPanic.bind (insertM_debug (strAlloc_orPanic R) (strDealloc_orPanic R) _ _ v m)
    fun r _ => .rfl

theorem strStep_orPanic (R : RawAlloc UInt8) (op : StrOp) (v : Vec) (m : Mem UInt8) :
    OrPanic (Str.stepM .debug (strAllocM .debug R.total) op v m)
      (Str.step (nullTermAllocator (defaultAllocator R)) op v m) := by
  cases op with
  | pop => exact .rfl
  | remove i => exact .rfl
  | len => exact .rfl
  | isEmpty => exact .rfl
  | push c =>
    simp only [Str.stepM, Str.step, Str.pushM, Str.push]
    refine OrPanic.bind (OrPanic.bind .rfl fun n _ => strInsert_orPanic R n c v m) fun r _ => .rfl
  | insert i c =>
    simp only [Str.stepM, Str.step]
    exact OrPanic.bind (strInsert_orPanic R i c v m) fun r _ => .rfl
  | reserve n =>
    simp only [Str.stepM, Str.step]
    exact OrPanic.bind (strReserve_orPanic R n v m) fun r _ => .rfl
  | assign s =>
    simp only [Str.stepM, Str.step, Str.assignM, Str.assign]
    refine OrPanic.bind (OrPanic.bind (strReserve_orPanic R _ v m) fun r _ => ?_) fun r _ => .rfl
    exact OrPanic.bind (appendM_debug (strAlloc_orPanic R) (strDealloc_orPanic R) false _ _ _)
      fun r _ => .rfl

theorem strRun_orPanic (R : RawAlloc UInt8) (ops : List StrOp) : ∀ (v : Vec) (m : Mem UInt8),
    OrPanic (Str.runM .debug (strAllocM .debug R.total) ops v m)
      (Str.run (nullTermAllocator (defaultAllocator R)) ops v m) := by
  induction ops with
  | nil => intro v m; exact .rfl
  | cons op ops ih =>
    intro v m
    exact OrPanic.bind (strStep_orPanic R op v m) fun r _ =>
      OrPanic.bind (ih r.2.1 r.2.2) fun r2 _ => .rfl

end Verif
