import Verif.Deque.LimitsProofs

/-! The deque when the allocator has no memory left: `allocate` returns a null pointer
(src/allocator.rs:105-113) and `deallocate` works.  The functions that allocate are modelled again
with that outcome. -/

set_option autoImplicit false

namespace Verif
open Spec

variable {α : Type}

/-- `new_in` with `init` (src/deque/mod.rs:101-111, 310-331): `from_raw_parts_mut` gets a null
pointer and `fill_with` writes through it. -/
def Deque.newInN (E : DEnv α) (m : DMem α) : Exec (Deque × DMem α) := do
  let p ← m.p.fillNull .null 8
  let slot ← p.ptrAdd .null 3
  let p ← p.write slot .null
  let m := { m with p := p }
  let b ← DIt.null.setSubarray E m slot
  let e ← DIt.null.setSubarray E m slot
  .ok (⟨.null, 8, { b with current := b.first }, { e with current := e.first }⟩, m)

/-- `realloc_ptr_array` (src/deque/mod.rs:348-421): moving the pointers inside the array needs no
memory; a new array is a null pointer, and `copy_from_slice` writes through it. -/
def Deque.reallocN (E : DEnv α) (d : Deque) (m : DMem α) (addl : Nat) (front : Bool) :
    Exec (Deque × DMem α) := do
  let unusedFront ← d.b.arr.offsetFrom d.ptrs
  let used ← (do let n ← d.e.arr.offsetFrom d.b.arr; .ok (n + 1))
  let unusedBack := d.size - unusedFront - used
  if (front = false ∧ addl ≤ unusedFront) ∨ (front = true ∧ addl ≤ unusedBack) then
    d.realloc E m addl front
  else do
    let src ← m.p.ptrAdd d.ptrs unusedFront
    let newStart := unusedFront + (if front then addl else 0)
    let dst ← m.p.ptrAdd .null newStart
    let p ← m.p.copy src dst used
    .ok (d, { m with p := p })

/-- `push_back` (src/deque/mod.rs:171-195). -/
def Deque.pushBackN (E : DEnv α) (d : Deque) (x : α) (m : DMem α) : Exec (Deque × DMem α) := do
  let l ← m.t.ptrSub d.e.last 1
  if d.e.current ≠ l then do
    let t ← m.t.write d.e.current x
    let c ← t.ptrAdd d.e.current 1
    .ok ({ d with e := { d.e with current := c } }, { m with t := t })
  else do
    let lastSlot ← m.p.ptrAdd d.ptrs (d.size - 1)
    let (d, m) ← (if d.e.arr = lastSlot then d.reallocN E m 1 false else .ok (d, m))
    let t ← m.t.write d.e.current x
    let slot ← m.p.ptrAdd d.e.arr 1
    let p ← m.p.write slot .null
    let m : DMem α := ⟨t, p⟩
    let e ← d.e.setSubarray E m slot
    .ok ({ d with e := { e with current := e.first } }, m)

/-- `push_front` (src/deque/mod.rs:202-226). -/
def Deque.pushFrontN (E : DEnv α) (d : Deque) (x : α) (m : DMem α) : Exec (Deque × DMem α) := do
  let (d, m) ← (
    if d.b.current ≠ d.b.first then do
      let c ← m.t.ptrSub d.b.current 1
      .ok ({ d with b := { d.b with current := c } }, m)
    else do
      let (d, m) ← (if d.b.arr = d.ptrs then d.reallocN E m 1 true else .ok (d, m))
      let slot ← m.p.ptrSub d.b.arr 1
      let p ← m.p.write slot .null
      let m := { m with p := p }
      let b ← d.b.setSubarray E m slot
      let c ← m.t.ptrSub b.last 1
      .ok ({ d with b := { b with current := c } }, m))
  let t ← m.t.write d.b.current x
  .ok (d, { m with t := t })

/-- One public call.  Calls that are no pushes allocate nothing and are as before. -/
def Deque.stepN (E : DEnv α) (op : DeqOp α) (d : Deque) (m : DMem α) :
    Exec (Out α × Deque × DMem α) :=
  match op with
  | .pushBack x => do let (d, m) ← d.pushBackN E x m; .ok (.unit, d, m)
  | .pushFront x => do let (d, m) ← d.pushFrontN E x m; .ok (.unit, d, m)
  | op => d.step E op m

/-- A history of public calls. -/
def Deque.runN (E : DEnv α) : List (DeqOp α) → Deque → DMem α →
    Exec (List (Out α) × Deque × DMem α)
  | [], d, m => .ok ([], d, m)
  | op :: ops, d, m => do
    let (o, d, m) ← d.stepN E op m
    let (os, d, m) ← Deque.runN E ops d m
    .ok (o :: os, d, m)

theorem Mem.write_allocs {β : Type} {m m' : Mem β} {p : Ptr} {x : β} (h : m.write p x = .ok m') :
    m'.allocs = m.allocs := by
  unfold Mem.write at h
  split at h
  · cases h
  · split at h
    · cases h
    · split at h
      · simp only [Except.ok.injEq] at h
        rw [← h]; rfl
      · cases h

theorem setSubarray_null {E : DEnv α} (hS : 0 < E.S) {m : DMem α} {it : DIt} {p : Ptr}
    (h : m.p.read p = .ok .null) : it.setSubarray E m p = .error .ub := by
  have : E.S ≠ 0 := by omega
  simp [DIt.setSubarray, h, Mem.ptrAdd, this]

section
variable {E : DEnv α} {wt : World α} {wp : World Ptr} {m : DMem α} {d : Deque}
  {pb lo bo : Nat} {bl : List Nat} {xs : List α}

/-- Making room for pointers works if it needs no new array, and is undefined otherwise. -/
theorem DRep.reallocN (h : DRep E wt wp m d pb lo bo bl xs) (front : Bool) :
    d.reallocN E m 1 front = d.realloc E m 1 front ∨ d.reallocN E m 1 front = .error .ub := by
  have hu1 : (bo + xs.length) / E.S + 1 = bl.length := h.len.symm
  unfold Deque.reallocN
  simp only [h.unusedFront, h.usedPtrs, Exec.ok_bind, hu1, h.srcPtr]
  by_cases c : (front = false ∧ 1 ≤ lo) ∨ (front = true ∧ 1 ≤ d.size - lo - bl.length)
  · exact .inl (by rw [if_pos c])
  · right
    rw [if_neg c]
    by_cases h0 : lo + (if front then 1 else 0) = 0
    · have : m.p.copy (.loc pb lo) .null bl.length = .error .ub := by
        unfold Mem.copy; rfl
      simp only [h0, Mem.ptrAdd, if_true, Exec.ok_bind, this, Exec.error_bind]
    · simp only [Mem.ptrAdd, if_neg h0, Exec.error_bind]

theorem DRep.writeSlot (h : DRep E wt wp m d pb lo bo bl xs) {i : Nat} (hi : i < d.size) :
    ∃ p, m.p.write (.loc pb i) .null = .ok p ∧ p.read (.loc pb i) = .ok .null := by
  obtain ⟨blk, hb, hs, _⟩ := h.p.ins
  have hw := Mem.write_loc (x := Ptr.null) hb (show i < blk.size by omega)
  exact ⟨_, hw, Mem.write_read_self hw⟩

end

end Verif
