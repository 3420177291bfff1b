import Verif.FixedVector.Move

/-! The vector inside a `FixedVector`, taken out of it.

`FixedVector` dereferences mutably to `Vector<T, FixedVectorAllocator<A>>`
(src/fixed_vector/mod.rs:119-135), a type whose values safe code may move, exchange and clone. -/

set_option autoImplicit false

namespace Verif
open Spec

variable {α : Type}

/-- A value of type `Vector<T, FixedVectorAllocator<A>>` (src/vector/mod.rs:20-30): the vector and the
`pool_begin` of its allocator (src/fixed_vector/allocator.rs:8-11). -/
structure BaseVec where
  vec : Vec
  pool : Ptr
  deriving DecidableEq, Repr

namespace BaseVec

/-- `Vector::default()` (src/vector/mod.rs:338-342) with `FixedVectorAllocator::default()`
(src/fixed_vector/allocator.rs:26-33), whose `pool_begin` is null; `Vector::new()` (32-36) is the
same. -/
def default : BaseVec := ⟨Vec.new, .null⟩

/-- A history of calls on such a vector (src/vector/mod.rs). -/
def run (R : RawAlloc α) (nd : Bool) (ops : List (SeqOp α)) (b : BaseVec) (m : Mem α) :
    Exec (List (Out α) × BaseVec × Mem α) := do
  let (os, v, m) ← b.vec.run (fixedAllocator R b.pool) nd ops m
  .ok (os, { b with vec := v }, m)

/-- `Drop for Vector` (src/vector/mod.rs:329-336). -/
def drop (R : RawAlloc α) (nd : Bool) (b : BaseVec) (m : Mem α) : Exec (Mem α) := do
  let (_, m) ← b.vec.clear (fixedAllocator R b.pool) nd m
  .ok m

end BaseVec

namespace FVec

/-- `std::mem::replace(&mut *f, b)`, through `DerefMut` (src/fixed_vector/mod.rs:129-135). -/
def replaceBase (f : FVec) (b : BaseVec) : BaseVec × FVec :=
  (⟨f.vec, f.pool⟩, { f with vec := b.vec, pool := b.pool })

/-- `std::mem::take(&mut *f)`, likewise. -/
def takeBase (f : FVec) : BaseVec × FVec := f.replaceBase BaseVec.default

/-- `std::mem::swap(&mut *f, &mut *g)`, likewise. -/
def swapBase (f g : FVec) : FVec × FVec :=
  ({ f with vec := g.vec, pool := g.pool }, { g with vec := f.vec, pool := f.pool })

/-- `std::mem::swap(&mut f, &mut g)` of whole objects of one type, which is `Unpin` as its fields are
(src/fixed_vector/mod.rs:19-24): besides the vectors the buffers change places. -/
def swapWhole (f g : FVec) (m : Mem α) : FVec × FVec × Mem α :=
  let (f', g') := f.swapBase g
  (f', g', (m.setBlock f.buf (m.live g.buf)).setBlock g.buf (m.live f.buf))

/-- `f.clone()`, which is `Clone for Vector` through `Deref` (src/vector/mod.rs:317-321;
src/fixed_vector/mod.rs:119-127); the allocator is copied with its `pool_begin`
(src/fixed_vector/allocator.rs:6-11). -/
def cloneBase (R : RawAlloc α) (nd : Bool) (f : FVec) (m : Mem α) : Exec (BaseVec × Mem α) := do
  let (v, m) ← f.vec.clone (fixedAllocator R f.pool) nd m
  .ok (⟨v, f.pool⟩, m)

end FVec

/-! ## Lemmas -/

/-- The allocator of a default vector is the overflow allocator. -/
theorem nullAllocator_lawful (R : RawAlloc α) :
    Lawful (fixedAllocator R .null) defaultFits (fun _ => False)
      (fun blk _ => blk.cells = fun _ => none) where
  alloc_ok := (defaultAllocator_lawful R).alloc_ok
  dealloc_free := by
    intro b n m blk h hf hk
    simpa [fixedAllocator] using (defaultAllocator_lawful R).dealloc_free b n m blk h hf hk
  dealloc_keep := by
    intro b n m blk _ _ h
    exact h.elim

section
variable {m : Mem α} {d : Nat}

theorem read_dead (h : m.live d = none) (o : Nat) : m.read (.loc d o) = .error .ub := by
  simp [Mem.read, Mem.cell, h]

theorem readRange_dead (h : m.live d = none) (o n : Nat) :
    m.readRange (.loc d o) (n + 1) = .error .ub := by
  simp [Mem.readRange, read_dead h]

theorem write_dead (h : m.live d = none) (o : Nat) (x : α) : m.write (.loc d o) x = .error .ub := by
  simp [Mem.write, h]

/-- A vector whose block is gone cannot be read, emptied, filled or dropped. -/
theorem dead_vec (A : Allocator α) (h : m.live d = none) (n c : Nat) :
    let v : Vec := ⟨.loc d 0, .loc d n, .loc d c⟩
    (0 < n → v.asSlice m = .error .ub ∧ v.pop m = .error .ub ∧
      v.clear A true m = .error .ub) ∧
    (n < c → ∀ x, v.push A x m = .error .ub) := by
  refine ⟨?_, ?_⟩
  · intro hn
    obtain ⟨k, rfl⟩ : ∃ k, n = k + 1 := ⟨n - 1, by omega⟩
    refine ⟨?_, ?_, ?_⟩
    · simp [Vec.asSlice, Vec.len, Ptr.offsetFrom, readRange_dead h]
    · simp [Vec.pop, Vec.isEmpty, Vec.len, Ptr.offsetFrom, Vec.decrementSize, Mem.ptrSub, h]
    · simp [Vec.clear, Vec.len, Ptr.offsetFrom, Mem.dropRange, Mem.dropCell, read_dead h]
  · intro hn x
    have hne : ¬ n = c := by omega
    simp [Vec.push, Vec.isFull, Vec.len, Vec.capacity, Ptr.offsetFrom, hne, write_dead h]

end

section
variable {R : RawAlloc α} {w0 : World α} {f : FVec} {m : Mem α} {xs : List α} {cap : Nat}

/-- Where an object that still uses its buffer has everything. -/
theorem FInvA.inline (h : FInvA w0 f m xs cap) (hin : f.hasOverflowed = false) :
    ∃ blk, f.vec = ⟨.loc f.buf 0, .loc f.buf xs.length, .loc f.buf f.count⟩ ∧
      m.live = Function.update w0 f.buf (some blk) ∧ xs.length ≤ f.count ∧ f.count ≤ blk.size ∧
      ∀ i, i < xs.length → blk.cells i = xs[i]? := by
  have hb : f.vec.beginPtr = .loc f.buf 0 := by simpa [FVec.hasOverflowed] using hin
  obtain ⟨blk, hB⟩ := h.inv.ownAt hb
  have hc := h.inl hb
  subst hc
  have hpt := hB.ptrs
  obtain ⟨hk, w', hw, ho⟩ := hB
  refine ⟨blk, hpt, ?_, ho.len_le, ho.cap_le, ho.cells⟩
  rw [ho.live]
  funext p
  by_cases hp : p = f.buf
  · simp [hp]
  · simp [hp, hw p hp]

/-- What is left of memory and of the vector when an object that left its buffer gives its vector away
and goes. -/
theorem FInvA.taken (h : FInvA w0 f m xs cap) (hov : f.hasOverflowed = true) :
    VInv (fun _ => False) (staleFits f.buf) w0 (m.setBlock f.buf none) f.vec xs cap := by
  have hb : f.vec.beginPtr ≠ .loc f.buf 0 := by simpa [FVec.hasOverflowed] using hov
  obtain ⟨hk, w', hw, hr⟩ := h.inv
  have hw0 : Function.update w' f.buf none = w0 := by
    funext p
    by_cases hp : p = f.buf
    · simp [hp, h.out]
    · simp [hp, hw p hp]
  refine ⟨fun _ h => h.elim, w0, fun _ _ => rfl, ?_⟩
  rcases hr with hr | ⟨b, blk, hr⟩
  · exact .inl ⟨by rw [Mem.setBlock_live, hr.live, hw0], hr.ptrs, hr.nil, hr.cap0⟩
  · have hbb : b ≠ f.buf := fun e => hb (by rw [hr.ptrs, e])
    refine .inr ⟨b, blk, ?_, ?_, ?_, hr.cap_le, hr.len_le, hr.cells, hr.ptrs⟩
    · rw [← hw b hbb]; exact hr.fresh
    · rw [Mem.setBlock_live, hr.live, Function.update_comm hbb, hw0]
    · obtain ⟨hs, ⟨e, _⟩ | ⟨_, hrg⟩⟩ := hr.fit
      · exact absurd e hbb
      · exact ⟨hs, hbb, hrg⟩

/-- A block allocated by somebody else does not touch the object. -/
theorem FInvA.other (h : FInvA w0 f m xs cap) {m' : Mem α} {c : Nat} {blk : Block α}
    (hc : m.live c = none) (hm : m'.live = Function.update m.live c (some blk)) :
    FInvA (Function.update w0 c (some blk)) f m' xs cap := by
  obtain ⟨hk, w', hw, hr⟩ := h.inv
  have hne : f.buf ≠ c := fun e => hk f.buf rfl (e ▸ hc)
  refine ⟨h.pool, h.pos, by simp [hne, h.out], ⟨?_, Function.update w' c (some blk), ?_, ?_⟩, h.inl⟩
  · rintro p rfl
    rw [hm]; simpa [hne] using hk f.buf rfl
  · intro p hp
    by_cases hpc : p = c
    · simp [hpc]
    · simp [hpc, hw p hp]
  · rcases hr with hr | ⟨b, blk', hr⟩
    · exact .inl ⟨by rw [hm, hr.live], hr.ptrs, hr.nil, hr.cap0⟩
    · have hbc : b ≠ c := by
        rintro rfl
        rw [hr.live_b] at hc
        cases hc
      exact .inr ⟨b, blk', by simp [hbc, hr.fresh],
        by rw [hm, hr.live, Function.update_comm hbc], hr.fit, hr.cap_le, hr.len_le, hr.cells,
        hr.ptrs⟩

end

end Verif
