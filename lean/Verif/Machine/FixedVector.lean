import Verif.Machine.VectorProofs
import Verif.FixedVector.Proofs

/-!
# `FixedVector` with `usize` arithmetic and byte sizes
-/

set_option autoImplicit false

namespace Verif
open Spec

variable {α β γ : Type}

/-- `FixedVectorAllocator` (src/fixed_vector/allocator.rs:35-45) over `DefaultAllocator`, used for
elements of the given size and alignment (`allocate` and `deallocate`, src/allocator.rs:15-21,
47-53).  The byte count is computed before the pointer is compared with `pool_begin`. -/
def fixedAllocatorM (B : Build) (size align : Nat) (S : SysAlloc α) (pool : Ptr) :
    Allocator α where
  alloc := (byteAllocator B size align S).alloc
  dealloc p n m := do
    let _ ← B.usize (n * size)
    if p = pool then .ok m else (byteAllocator B size align S).dealloc p n m

namespace FVec

/-- A call that reaches the base vector through `Deref`/`DerefMut`
(src/fixed_vector/mod.rs:105-109, 119-135). -/
def stepM (B : Build) (size align : Nat) (S : SysAlloc α) (nd : Bool) (op : SeqOp α) (f : FVec)
    (m : Mem α) : Exec (Out α × FVec × Mem α) := do
  let (o, v, m) ← f.vec.stepM B (fixedAllocatorM B size align S f.pool) nd op m
  .ok (o, { f with vec := v }, m)

/-- A history of such calls (src/fixed_vector/mod.rs:105-109, 119-135). -/
def runM (B : Build) (size align : Nat) (S : SysAlloc α) (nd : Bool) :
    List (SeqOp α) → FVec → Mem α → Exec (List (Out α) × FVec × Mem α)
  | [], f, m => .ok ([], f, m)
  | op :: ops, f, m => do
    let (o, f, m) ← f.stepM B size align S nd op m
    let (os, f, m) ← runM B size align S nd ops f m
    .ok (o :: os, f, m)

/-- End of life of the object (`Drop for Vector`, src/vector/mod.rs:329-336; the inline buffer is
`MaybeUninit`, src/fixed_vector/mod.rs:20-24), then the storage disappears. -/
def destroyM (B : Build) (size align : Nat) (S : SysAlloc α) (nd : Bool) (f : FVec) (m : Mem α) :
    Exec (Mem α) := do
  let (_, m) ← f.vec.clear (fixedAllocatorM B size align S f.pool) nd m
  .ok (m.setBlock f.buf none)

end FVec

/-! ## Vectors over two allocators that agree on the capacities in `P` -/

section agree
variable (B : Build) {A A' : Allocator α} {P : Nat → Prop} (hP : ∀ c, P c → c < 2 ^ 63)
  (ha : ∀ c, 0 < c → P c → ∀ m : Mem α, A.alloc c m = A'.alloc c m)
  (hd : ∀ c, P c → ∀ (p : Ptr) (m : Mem α), A.dealloc p c m = A'.dealloc p c m)
include hP ha hd

theorem reserveM_agree {v : Vec} {m : Mem α} {len cap add : Nat} (hl : v.len = .ok len)
    (hc : v.capacity = .ok cap) (hcap : P cap) (hn : P (cap + add)) :
    v.reserveM B A add m = v.reserve A' add m := by
  unfold Vec.reserveM Vec.reserve
  by_cases h0 : add = 0
  · simp only [h0, if_true]
  · have hlt := hP _ hn
    simp only [h0, if_false, hl, hc, Exec.ok_bind, B.usize_ok (show cap + add < 2 ^ 64 by omega),
      ha _ (show 0 < cap + add by omega) hn, hd _ hcap]

theorem growM_agree {v : Vec} {m : Mem α} {len cap : Nat} (hl : v.len = .ok len)
    (hc : v.capacity = .ok cap) (hcap : P cap) (hn : P (Vec.calculateGrowCapacity cap)) :
    v.growM B A m = v.grow A' m := by
  have hlt := hP _ hn
  have hle : cap ≤ Vec.calculateGrowCapacity cap := by
    unfold Vec.calculateGrowCapacity; split <;> omega
  have hg : Vec.calculateGrowCapacityM B cap = .ok (Vec.calculateGrowCapacity cap) := by
    unfold Vec.calculateGrowCapacityM
    unfold Vec.calculateGrowCapacity at hlt ⊢
    by_cases h0 : cap = 0
    · simp only [h0, if_true]
    · simp only [h0, if_false] at hlt ⊢
      exact B.usize_ok (by omega)
  simp only [Vec.growM, Vec.grow, hc, Exec.ok_bind, hg, hle, if_true]
  refine reserveM_agree B hP ha hd hl hc hcap ?_
  rwa [show cap + (Vec.calculateGrowCapacity cap - cap) = Vec.calculateGrowCapacity cap by omega]

variable {keeps : Nat → Prop} {fits : Nat → Nat → Region → Nat → Prop} {init : Block α → Nat → Prop}
  {w : World α}

theorem insertM_agree {v : Vec} {m : Mem α} {xs : List α} {cap : Nat}
    (hi : VInv keeps fits w m v xs cap) (i : Nat) (x : α) (hcap : P cap)
    (hn : i ≤ xs.length → P (if xs.length < cap then cap else if cap = 0 then 1 else 2 * cap)) :
    v.insertM B A i x m = v.insert A' i x m := by
  have hle := hi.len_le
  simp only [Vec.insertM, Vec.insert, hi.len, Exec.ok_bind]
  by_cases hix : i ≤ xs.length
  · have hn' := hn hix
    simp only [hix, if_true, hi.isFull, Exec.ok_bind]
    by_cases hf : xs.length = cap
    · have : ¬ xs.length < cap := by omega
      rw [if_neg this] at hn'
      rw [growM_agree B hP ha hd hi.len hi.capacity hcap (by
        unfold Vec.calculateGrowCapacity
        by_cases h0 : cap = 0
        · simpa only [h0, if_true] using hn'
        · simpa only [h0, if_false, Nat.mul_comm 2 cap] using hn')]
    · simp only [beq_eq_false_iff_ne.2 hf, Bool.false_eq_true, if_false]
  · simp only [hix, if_false]

omit hP ha in
theorem clear_agree {v : Vec} {m : Mem α} {xs : List α} {cap : Nat} (nd : Bool)
    (hi : VInv keeps fits w m v xs cap) (hcap : P cap) : v.clear A nd m = v.clear A' nd m := by
  simp only [Vec.clear, hi.capacity, Exec.ok_bind, hd _ hcap]

theorem stepM_agree (nd : Bool) (op : SeqOp α) {v : Vec} {m : Mem α} {xs : List α} {cap : Nat}
    (hi : VInv keeps fits w m v xs cap) (hcap : P cap)
    (hn : ∀ o ys, op.step xs = .ok (o, ys) → P (op.capAfter xs.length cap)) :
    v.stepM B A nd op m = v.step A' nd op m := by
  have hl := hi.len
  have hc := hi.capacity
  have hle := hi.len_le
  cases op with
  | pop => rfl
  | remove i => rfl
  | set i x => rfl
  | len => rfl
  | isEmpty => rfl
  | slice => rfl
  | clear =>
    simp only [Vec.stepM, Vec.step]
    rw [clear_agree hd nd hi hcap]
  | push x =>
    have hn' := hn _ _ rfl
    simp only [SeqOp.capAfter] at hn'
    simp only [Vec.stepM, Vec.step, Vec.pushM, Vec.push, hi.isFull, Exec.ok_bind]
    by_cases hf : xs.length = cap
    · have : ¬ xs.length < cap := by omega
      rw [if_neg this] at hn'
      rw [growM_agree B hP ha hd hl hc hcap (by
        unfold Vec.calculateGrowCapacity
        by_cases h0 : cap = 0
        · simpa only [h0, if_true] using hn'
        · simpa only [h0, if_false, Nat.mul_comm 2 cap] using hn')]
    · simp only [beq_eq_false_iff_ne.2 hf, Bool.false_eq_true, if_false]
  | insert i x =>
    simp only [Vec.stepM, Vec.step]
    rw [insertM_agree B hP ha hd hi i x hcap (fun hix => by
      have hn' := hn .unit (xs.take i ++ x :: xs.drop i) (by simp [SeqOp.step, hix])
      simpa only [SeqOp.capAfter] using hn')]
  | reserve n =>
    have hn' := hn _ _ rfl
    simp only [SeqOp.capAfter] at hn'
    simp only [Vec.stepM, Vec.step]
    rw [reserveM_agree B hP ha hd hl hc hcap hn']
  | append buf =>
    have hn' := hn _ _ rfl
    simp only [SeqOp.capAfter] at hn'
    have hlt := hP _ hn'
    simp only [Vec.stepM, Vec.step, Vec.appendM, Vec.append, hl, hc, Exec.ok_bind,
      B.usize_ok (show xs.length + buf.length < 2 ^ 64 by omega)]
    by_cases hf : cap < xs.length + buf.length
    · rw [reserveM_agree B hP ha hd hl hc hcap (by
        rwa [show cap + (xs.length + buf.length - cap) = max cap (xs.length + buf.length) by
          omega])]
    · simp only [hf, if_false]
  | assign buf =>
    have hn' := hn _ _ rfl
    simp only [SeqOp.capAfter] at hn'
    simp only [Vec.stepM, Vec.step, Vec.assignM, Vec.assign, hc, Exec.ok_bind]
    by_cases hf : cap < buf.length
    · rw [reserveM_agree B hP ha hd hl hc hcap (by
        rwa [show cap + (buf.length - cap) = max cap buf.length by omega])]
    · simp only [hf, if_false]

theorem runM_agree (hA : Lawful A' fits keeps init) (nd : Bool) (ops : List (SeqOp α)) :
    ∀ {v : Vec} {m : Mem α} {xs : List α} {cap : Nat},
    (nd = true → ∀ op ∈ ops, op.isSlice = false) →
    VInv keeps fits w m v xs cap → P cap → (∀ c ∈ SeqOp.caps ops xs cap, P c) →
    Vec.runM B A nd ops v m = Vec.run A' nd ops v m ∧
      ∀ outs v' m', Vec.run A' nd ops v m = .ok (outs, v', m') →
        ∃ xs' cap', VInv keeps fits w m' v' xs' cap' ∧ P cap' := by
  induction ops with
  | nil =>
    intro v m xs cap _ hi hcap _
    refine ⟨rfl, fun outs v' m' he => ?_⟩
    cases he
    exact ⟨xs, cap, hi, hcap⟩
  | cons op ops ih =>
    intro v m xs cap hops hi hcap hn
    have h1 := hi.step hA nd op (fun hnd => hops hnd op (by simp))
    simp only [Vec.runM, Vec.run]
    rw [stepM_agree B hP ha hd nd op hi hcap (by
      intro o ys hs
      exact hn _ (by simp [SeqOp.caps, hs]))]
    cases hs : op.step xs with
    | error e =>
      rw [hs] at h1
      simp only [] at h1
      rw [h1]
      exact ⟨rfl, fun _ _ _ h => by cases h⟩
    | ok r =>
      obtain ⟨o, ys⟩ := r
      rw [hs] at h1
      obtain ⟨v', m', ds, na, nc, he, hi', _, _⟩ := h1
      rw [he]
      simp only [Exec.ok_bind]
      obtain ⟨h2, h3⟩ := ih (fun hnd o ho => hops hnd o (by simp [ho])) hi'
        (hn _ (by simp [SeqOp.caps, hs]))
        (fun c hc => hn c (by simp [SeqOp.caps, hs, hc]))
      rw [h2]
      refine ⟨rfl, fun outs v2 m2 h => ?_⟩
      cases hr : Vec.run A' nd ops v' m' with
      | error e => rw [hr] at h; cases h
      | ok r2 =>
        obtain ⟨a, b, c⟩ := r2
        rw [hr] at h
        cases h
        exact h3 _ _ _ hr

end agree

/-! ## Vectors over an allocator that sometimes panics -/

section cautious
variable {A A' : Allocator α} (ha : ∀ (n : Nat) (m : Mem α), OrPanic (A.alloc n m) (A'.alloc n m))
  (hd : ∀ (p : Ptr) (n : Nat) (m : Mem α), OrPanic (A.dealloc p n m) (A'.dealloc p n m))
include ha hd

theorem reserveM_cautious (add : Nat) (v : Vec) (m : Mem α) :
    OrPanic (v.reserveM .debug A add m) (v.reserve A' add m) := by
  unfold Vec.reserveM Vec.reserve
  refine OrPanic.ite (fun _ => .rfl) fun _ => ?_
  refine OrPanic.bind .rfl fun size _ => OrPanic.bind .rfl fun cap _ => ?_
  rcases OrPanic.usize (cap + add) with h | h
  · rw [h]
    simp only [Exec.ok_bind]
    refine OrPanic.bind (ha _ m) fun r _ => ?_
    refine OrPanic.bind (OrPanic.ite (fun _ => .rfl) fun _ => ?_) fun m2 _ => .rfl
    exact OrPanic.bind .rfl fun m3 _ => OrPanic.bind .rfl fun c _ => hd _ _ _
  · exact .inr (by rw [h]; rfl)

theorem growM_cautious (v : Vec) (m : Mem α) :
    OrPanic (v.growM .debug A m) (v.grow A' m) := by
  unfold Vec.growM Vec.grow
  refine OrPanic.bind .rfl fun c hc => ?_
  have hg : OrPanic (Vec.calculateGrowCapacityM .debug c) (.ok (Vec.calculateGrowCapacity c)) := by
    unfold Vec.calculateGrowCapacityM Vec.calculateGrowCapacity
    by_cases h0 : c = 0
    · exact .inl (by simp only [h0, if_true])
    · simp only [h0, if_false]
      exact OrPanic.usize _
  rcases hg with hg | hg
  · rw [hg, hc]
    have hle : c ≤ Vec.calculateGrowCapacity c := by
      unfold Vec.calculateGrowCapacity; split <;> omega
    simp only [Exec.ok_bind, hle, if_true]
    exact reserveM_cautious ha hd _ v m
  · exact .inr (by rw [hg]; rfl)

theorem insertM_cautious (i : Nat) (x : α) (v : Vec) (m : Mem α) :
    OrPanic (v.insertM .debug A i x m) (v.insert A' i x m) := by
  unfold Vec.insertM Vec.insert
  refine OrPanic.bind .rfl fun n _ => OrPanic.ite (fun _ => ?_) fun _ => .rfl
  exact OrPanic.bind .rfl fun f _ => OrPanic.bind
    (OrPanic.ite (fun _ => growM_cautious ha hd v m) fun _ => .rfl) fun r _ => .rfl

omit ha in
theorem clear_cautious (nd : Bool) (v : Vec) (m : Mem α) :
    OrPanic (v.clear A nd m) (v.clear A' nd m) := by
  unfold Vec.clear
  refine OrPanic.bind (OrPanic.ite (fun _ => .rfl) fun _ => ?_) fun m2 _ => .rfl
  exact OrPanic.bind .rfl fun n _ => OrPanic.bind .rfl fun m3 _ => OrPanic.bind .rfl fun c _ =>
    hd _ _ _

theorem stepM_cautious (nd : Bool) (op : SeqOp α) (v : Vec) (m : Mem α) :
    OrPanic (v.stepM .debug A nd op m) (v.step A' nd op m) := by
  cases op with
  | pop => exact .rfl
  | remove i => exact .rfl
  | set i x => exact .rfl
  | len => exact .rfl
  | isEmpty => exact .rfl
  | slice => exact .rfl
  | clear => exact OrPanic.bind (clear_cautious hd nd v m) fun r _ => .rfl
  | push x =>
    simp only [Vec.stepM, Vec.step]
    refine OrPanic.bind ?_ fun r _ => .rfl
    unfold Vec.pushM Vec.push
    exact OrPanic.bind .rfl fun f _ => OrPanic.bind
      (OrPanic.ite (fun _ => growM_cautious ha hd v m) fun _ => .rfl) fun r _ => .rfl
  | insert i x => exact OrPanic.bind (insertM_cautious ha hd i x v m) fun r _ => .rfl
  | reserve n => exact OrPanic.bind (reserveM_cautious ha hd n v m) fun r _ => .rfl
  | append buf =>
    simp only [Vec.stepM, Vec.step]
    refine OrPanic.bind ?_ fun r _ => .rfl
    unfold Vec.appendM Vec.append
    refine OrPanic.bind .rfl fun n _ => ?_
    rcases OrPanic.usize (n + buf.length) with h | h
    · rw [h]
      simp only [Exec.ok_bind]
      exact OrPanic.bind .rfl fun c _ => OrPanic.bind
        (OrPanic.ite (fun _ => reserveM_cautious ha hd _ v m) fun _ => .rfl) fun r _ => .rfl
    · exact .inr (by rw [h]; rfl)
  | assign buf =>
    simp only [Vec.stepM, Vec.step]
    refine OrPanic.bind ?_ fun r _ => .rfl
    unfold Vec.assignM Vec.assign
    exact OrPanic.bind .rfl fun c _ => OrPanic.bind
        (OrPanic.ite (fun _ => reserveM_cautious ha hd _ v m) fun _ => .rfl) fun r _ => .rfl

theorem runM_cautious (nd : Bool) (ops : List (SeqOp α)) : ∀ (v : Vec) (m : Mem α),
    OrPanic (Vec.runM .debug A nd ops v m) (Vec.run A' nd ops v m) := by
  induction ops with
  | nil => intro v m; exact .rfl
  | cons op ops ih =>
    intro v m
    exact OrPanic.bind (stepM_cautious ha hd nd op v m) fun r _ =>
      OrPanic.bind (ih r.2.1 r.2.2) fun r2 _ => .rfl

end cautious

/-! ## The fixed vector's allocator -/

theorem fixedAllocatorM_alloc (B : Build) {size align : Nat} (h : TypeLayout size align)
    (R : RawAlloc α) (pool : Ptr) {n : Nat} (hpos : 0 < n) (hn : Representable size align n)
    (m : Mem α) :
    (fixedAllocatorM B size align R.total pool).alloc n m = (fixedAllocator R pool).alloc n m :=
  byteAllocator_alloc B h R hpos hn m

theorem fixedAllocatorM_dealloc (B : Build) {size align : Nat} (h : TypeLayout size align)
    (S : SysAlloc α) (R : RawAlloc α) (pool : Ptr) {n : Nat} (hn : Representable size align n)
    (p : Ptr) (m : Mem α) :
    (fixedAllocatorM B size align S pool).dealloc p n m = (fixedAllocator R pool).dealloc p n m := by
  have h1 : n * size < 2 ^ 64 := by unfold Representable at hn; omega
  simp only [fixedAllocatorM, fixedAllocator, B.usize_ok h1, Exec.ok_bind,
    byteAllocator_dealloc B h S R hn]

theorem fixedAlloc_orPanic {size : Nat} (hsize : 0 < size) (align : Nat) (R : RawAlloc α)
    (pool : Ptr) (n : Nat) (m : Mem α) :
    OrPanic ((fixedAllocatorM .debug size align R.total pool).alloc n m)
      ((fixedAllocator R pool).alloc n m) :=
  byteAlloc_orPanic hsize align R n m

theorem fixedDealloc_orPanic {size : Nat} (hsize : 0 < size) (align : Nat) (R : RawAlloc α)
    (pool p : Ptr) (n : Nat) (m : Mem α) :
    OrPanic ((fixedAllocatorM .debug size align R.total pool).dealloc p n m)
      ((fixedAllocator R pool).dealloc p n m) := by
  simp only [fixedAllocatorM, fixedAllocator]
  rcases OrPanic.usize (n * size) with h | h
  · rw [h]
    simp only [Exec.ok_bind]
    exact OrPanic.ite (fun _ => .rfl) fun _ => byteDealloc_orPanic hsize align R p n m
  · exact .inr (by rw [h]; rfl)

theorem FVec.runM_eq_map (B : Build) (size align : Nat) (S : SysAlloc α) (nd : Bool)
    (ops : List (SeqOp α)) : ∀ (f : FVec) (m : Mem α), f.runM B size align S nd ops m =
      (f.vec.runM B (fixedAllocatorM B size align S f.pool) nd ops m).map
        (fun r => (r.1, { f with vec := r.2.1 }, r.2.2)) := by
  induction ops with
  | nil => intro f m; rfl
  | cons op ops ih =>
    intro f m
    simp only [FVec.runM, FVec.stepM, Vec.runM]
    cases h : f.vec.stepM B (fixedAllocatorM B size align S f.pool) nd op m with
    | error e => rfl
    | ok r =>
      simp only [Exec.ok_bind, ih]
      cases h2 : r.2.1.runM B (fixedAllocatorM B size align S f.pool) nd ops r.2.2 with
      | error e => rfl
      | ok r2 => rfl

end Verif
