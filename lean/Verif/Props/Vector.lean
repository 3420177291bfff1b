import Verif.Vector.Exact
import Mathlib.Data.Nat.Log

/-!
# Properties C01-C10 of `Vector`

`R : RawAlloc α` ranges over every way the global allocator may choose addresses, `m0` over
every memory the program may already have.  `nd` says whether the element type has a
destructor.
-/

set_option autoImplicit false

namespace Verif
open Spec

variable {α : Type}

/-! ## C01 -/

/-- C01.  Every history of calls on an empty `Vector` returns what the same history on a
mathematical sequence returns, the final contents agree, and if the sequence panics so does
the vector; in particular undefined behaviour never happens.  Slice copies (`append`,
`assign`) are covered for element types without destructor; see C07 for the others. -/
theorem C01_vector_refines_sequence (R : RawAlloc α) (nd : Bool) (m0 : Mem α)
    (ops : List (SeqOp α)) (hops : nd = true → ∀ op ∈ ops, op.isSlice = false) :
    match SeqOp.run ops [] with
    | .error e => Vec.run (defaultAllocator R) nd ops Vec.new m0 = .error e
    | .ok (outs, xs) => ∃ v m, Vec.run (defaultAllocator R) nd ops Vec.new m0 = .ok (outs, v, m) ∧
        v.asSlice m = .ok xs ∧ v.len = .ok xs.length := by
  have h := VInv.run (defaultAllocator_lawful R) nd ops hops (VInv.new defaultFits m0)
  cases hr : SeqOp.run ops [] with
  | error e => rw [hr] at h; exact h
  | ok r =>
    obtain ⟨os, xs⟩ := r
    rw [hr] at h
    obtain ⟨v, m, ds, cap, he, hi, _, _⟩ := h
    exact ⟨v, m, he, hi.slice, hi.len⟩

/-- A history that grows, shifts both ways, copies slices and clears. -/
def demoOps : List (SeqOp Nat) :=
  [.push 1, .push 2, .insert 0 3, .append [4, 5, 6], .remove 1, .set 0 9, .slice, .pop, .len,
   .assign [7], .slice, .clear, .push 8, .slice]

example : (Vec.run (defaultAllocator RawAlloc.bump) false demoOps Vec.new Mem.empty).map (·.1) =
    .ok [.unit, .unit, .unit, .unit, .elem (some 1), .unit, .list [9, 2, 4, 5, 6], .elem (some 6),
      .nat 4, .unit, .list [7], .unit, .unit, .list [8]] := rfl

example : Vec.run (defaultAllocator RawAlloc.bump) true [.push 1, .insert 2 5] Vec.new Mem.empty =
    .error .panic := rfl

/-- Reachable vectors satisfy the representation invariant (used below). -/
theorem reachable_inv (R : RawAlloc α) (nd : Bool) (m0 : Mem α) (ops : List (SeqOp α))
    (hops : nd = true → ∀ op ∈ ops, op.isSlice = false) {outs : List (Out α)} {v : Vec} {m : Mem α}
    (hrun : Vec.run (defaultAllocator R) nd ops Vec.new m0 = .ok (outs, v, m)) :
    ∃ xs ds cap, SeqOp.run ops [] = .ok (outs, xs) ∧
      VInv (fun _ => False) defaultFits m0.live m v xs cap ∧ m.dropped = m0.dropped ++ ds ∧
      (nd = true → (ops.flatMap SeqOp.movedIn).Perm (outs.flatMap Out.movedOut ++ ds ++ xs)) := by
  have h := VInv.run (defaultAllocator_lawful R) nd ops hops (VInv.new defaultFits m0)
  cases hr : SeqOp.run ops [] with
  | error e => rw [hr] at h; simp only [] at h; rw [h] at hrun; cases hrun
  | ok r =>
    obtain ⟨os, xs⟩ := r
    rw [hr] at h
    obtain ⟨v', m', ds, cap, he, hi, hd, hp⟩ := h
    rw [he] at hrun
    cases hrun
    exact ⟨xs, ds, cap, rfl, hi, hd, by simpa using hp⟩

/-! ## C02 -/

/-- C02.  In every reachable vector the length is at most the capacity, and each call leaves
the capacity given by `SeqOp.capAfter` (unchanged when there is room, doubled when full,
exactly `+n` for `reserve(n)`, 0 for `clear`). -/
theorem C02_vector_capacity_law (R : RawAlloc α) (nd : Bool) (m0 : Mem α) (ops : List (SeqOp α))
    (op : SeqOp α) (hops : nd = true → ∀ o ∈ op :: ops, o.isSlice = false)
    {outs : List (Out α)} {v : Vec} {m : Mem α}
    (hrun : Vec.run (defaultAllocator R) nd ops Vec.new m0 = .ok (outs, v, m)) :
    ∃ len cap, v.len = .ok len ∧ v.capacity = .ok cap ∧ len ≤ cap ∧
      v.isFull = .ok (len == cap) ∧
      ∀ o v' m', v.step (defaultAllocator R) nd op m = .ok (o, v', m') →
        v'.capacity = .ok (op.capAfter len cap) := by
  obtain ⟨xs, ds, cap, _, hi, _, _⟩ := reachable_inv R nd m0 ops
    (fun hn o ho => hops hn o (by simp [ho])) hrun
  refine ⟨xs.length, cap, hi.len, hi.capacity, hi.len_le, hi.isFull, ?_⟩
  intro o v' m' hstep
  have h := hi.step (defaultAllocator_lawful R) nd op (fun hn => hops hn op (by simp))
  cases hs : op.step xs with
  | error e => rw [hs] at h; simp only [] at h; rw [h] at hstep; cases hstep
  | ok r =>
    obtain ⟨o', ys⟩ := r
    rw [hs] at h
    obtain ⟨v1, m1, ds, na, nc, he, hi1, _, _⟩ := h
    rw [he] at hstep
    cases hstep
    exact hi1.capacity

example : (do
    let (_, v, _) ← Vec.run (defaultAllocator RawAlloc.bump) true
      [.push 1, .push 2, .push (3 : Nat), .reserve 5, .pop] Vec.new Mem.empty
    v.capacity) = .ok 9 := rfl

/-! ## C03 -/

/-- Invariant of a run of pushes: the capacity is a power of two `2^k ≥ n`, less than `2n`,
`k + 1` allocations were made and `2^k - 1` elements copied. -/
theorem pushes_cost (R : RawAlloc α) (m0 : Mem α) (xs : List α) (hne : xs ≠ []) :
    ∃ v m k, Vec.pushAll (defaultAllocator R) Vec.new m0 xs = .ok (v, m) ∧
      VInv (fun _ => False) defaultFits m0.live m v xs (2 ^ k) ∧ 2 ^ k < 2 * xs.length ∧
      m.allocs = m0.allocs + (k + 1) ∧ m.copied + 1 = m0.copied + 2 ^ k := by
  have key : ∀ (ys : List α) (v : Vec) (m : Mem α) (zs : List α) (k : Nat), zs ≠ [] →
      VInv (fun _ => False) defaultFits m0.live m v zs (2 ^ k) → 2 ^ k < 2 * zs.length →
      m.allocs = m0.allocs + (k + 1) → m.copied + 1 = m0.copied + 2 ^ k →
      ∃ v' m' k', Vec.pushAll (defaultAllocator R) v m ys = .ok (v', m') ∧
        VInv (fun _ => False) defaultFits m0.live m' v' (zs ++ ys) (2 ^ k') ∧
        2 ^ k' < 2 * (zs ++ ys).length ∧
        m'.allocs = m0.allocs + (k' + 1) ∧ m'.copied + 1 = m0.copied + 2 ^ k' := by
    intro ys
    induction ys with
    | nil => intro v m zs k _ h1 h2 h3 h4; exact ⟨v, m, k, rfl, by simpa using h1,
        by simpa using h2, h3, h4⟩
    | cons y ys ih =>
      intro v m zs k hz h1 h2 h3 h4
      obtain ⟨v1, m1, b, blk, he, hi, ef⟩ := h1.push (defaultAllocator_lawful R) y
      have hpos : 0 < 2 ^ k := Nat.two_pow_pos k
      have hnext : ∃ k', growCap zs.length (2 ^ k) = 2 ^ k' ∧ 2 ^ k' < 2 * (zs.length + 1) ∧
          m1.allocs = m0.allocs + (k' + 1) ∧ m1.copied + 1 = m0.copied + 2 ^ k' := by
        by_cases hf : zs.length = 2 ^ k
        · refine ⟨k + 1, ?_, ?_, ?_, ?_⟩
          · have : 2 ^ k ≠ 0 := by omega
            simp [growCap, hf, Vec.calculateGrowCapacity, Nat.pow_succ]
          · rw [Nat.pow_succ]; omega
          · have := ef.allocs; simp [hf] at this; omega
          · have := ef.copied; simp [hf] at this; rw [Nat.pow_succ]; omega
        · refine ⟨k, by simp [growCap, hf], by omega, ?_, ?_⟩
          · have := ef.allocs; simp [hf] at this; omega
          · have := ef.copied; simp [hf] at this; omega
      obtain ⟨k', e1, e2, e3, e4⟩ := hnext
      have hinv := hi.inv
      rw [e1] at hinv
      obtain ⟨v2, m2, k2, hp, hr1, hr2, hr3, hr4⟩ := ih v1 m1 (zs ++ [y]) k' (by simp) hinv
        (by simpa using e2) e3 e4
      exact ⟨v2, m2, k2, by simp [Vec.pushAll, he, hp], by simpa using hr1, by simpa using hr2,
        hr3, hr4⟩
  cases xs with
  | nil => exact absurd rfl hne
  | cons x xs =>
    obtain ⟨v1, m1, b, blk, he, hi, ef⟩ :=
      (VInv.new defaultFits m0).push (defaultAllocator_lawful R) x
    have hinv := hi.inv
    have ha := ef.allocs
    have hc := ef.copied
    simp at ha hc
    obtain ⟨v2, m2, k2, hp, hr1, hr2, hr3, hr4⟩ := key xs v1 m1 [x] 0 (by simp)
      (by simpa [growCap, Vec.calculateGrowCapacity] using hinv) (by simp) (by omega) (by simp [hc])
    exact ⟨v2, m2, k2, by simp [Vec.pushAll, he, hp], by simpa using hr1, by simpa using hr2,
      hr3, hr4⟩

/-- C03.  Pushing `n` elements into an empty vector moves fewer than `2n` stored elements in
total and calls the allocator at most `log2 n + 2` times. -/
theorem C03_vector_push_amortised (R : RawAlloc α) (m0 : Mem α) (xs : List α) (hne : xs ≠ []) :
    ∃ v m, Vec.pushAll (defaultAllocator R) Vec.new m0 xs = .ok (v, m) ∧
      v.asSlice m = .ok xs ∧
      m.copied - m0.copied < 2 * xs.length ∧
      m.allocs - m0.allocs ≤ Nat.log 2 xs.length + 2 := by
  obtain ⟨v, m, k, he, hi, hk, ha, hc⟩ := pushes_cost R m0 xs hne
  have hl : 0 < xs.length := List.length_pos_of_ne_nil hne
  refine ⟨v, m, he, hi.slice, by omega, ?_⟩
  have hlog : k ≤ Nat.log 2 xs.length + 1 := by
    by_contra hcon
    have h1 : Nat.log 2 xs.length + 1 + 1 ≤ k := by omega
    have h2 : 2 ^ (Nat.log 2 xs.length + 1 + 1) ≤ 2 ^ k := Nat.pow_le_pow_right (by omega) h1
    have h3 : xs.length < 2 ^ (Nat.log 2 xs.length + 1) := Nat.lt_pow_succ_log_self (by omega) _
    rw [Nat.pow_succ] at h2
    omega
  omega

example : (do
    let (_, m) ← Vec.pushAll (defaultAllocator RawAlloc.bump) Vec.new Mem.empty (List.range 9)
    .ok (m.copied, m.allocs)) = (.ok (15, 5) : Exec (Nat × Nat)) := rfl

/-! ## C04 -/

/-- C04.  On every reachable vector: `insert(i)` panics exactly when `i > len`; `remove(i)`
returns `None` exactly when `i ≥ len` and `pop` returns `None` exactly when the vector is
empty, and then neither vector nor memory changes. -/
theorem C04_vector_bounds (R : RawAlloc α) (nd : Bool) (m0 : Mem α) (ops : List (SeqOp α))
    (hops : nd = true → ∀ o ∈ ops, o.isSlice = false)
    {outs : List (Out α)} {v : Vec} {m : Mem α}
    (hrun : Vec.run (defaultAllocator R) nd ops Vec.new m0 = .ok (outs, v, m)) :
    ∃ len, v.len = .ok len ∧
      (∀ i x, v.insert (defaultAllocator R) i x m = .error .panic ↔ len < i) ∧
      (∀ i v' m', v.remove i m = .ok (none, v', m') ↔ (len ≤ i ∧ v' = v ∧ m' = m)) ∧
      (∀ v', v.pop m = .ok (none, v') ↔ (len = 0 ∧ v' = v)) := by
  obtain ⟨xs, ds, cap, _, hi, _, _⟩ := reachable_inv R nd m0 ops hops hrun
  refine ⟨xs.length, hi.len, ?_, ?_, ?_⟩
  · intro i x
    constructor
    · intro h
      by_contra hle
      obtain ⟨v', m', b, blk, he, _⟩ := hi.insert (defaultAllocator_lawful R) x
        (show i ≤ xs.length by omega)
      rw [he] at h
      cases h
    · intro h
      exact hi.insert_panic x (by omega)
  · intro i v' m'
    constructor
    · intro h
      by_cases hlt : i < xs.length
      · obtain ⟨b, blk, hB⟩ := hi.own (by intro e; simp [e] at hlt)
        obtain ⟨v1, m1, blk1, he, _⟩ := hB.remove hlt
        rw [he] at h
        simp [hlt] at h
      · have hle : xs.length ≤ i := by omega
        rw [hi.remove_none hle] at h
        cases h
        exact ⟨hle, rfl, rfl⟩
    · rintro ⟨h, rfl, rfl⟩
      exact hi.remove_none h
  · intro v'
    constructor
    · intro h
      rcases List.eq_nil_or_concat xs with hx | ⟨ys, x, hx⟩
      · subst hx
        rw [hi.pop_nil] at h
        cases h
        exact ⟨rfl, rfl⟩
      · rw [List.concat_eq_append] at hx
        subst hx
        obtain ⟨b, blk, hB⟩ := hi.own (by simp)
        obtain ⟨v1, he, _⟩ := hB.pop
        rw [he] at h
        cases h
    · rintro ⟨h, rfl⟩
      have hx : xs = [] := List.length_eq_zero_iff.1 h
      subst hx
      exact hi.pop_nil

example : ∃ v m, Vec.run (defaultAllocator RawAlloc.bump) true [.push 1, .push (2 : Nat)]
    Vec.new Mem.empty = .ok ([.unit, .unit], v, m) := ⟨_, _, rfl⟩

/-! ## C05 -/

/-- C05.  After any history memory is what it was before plus at most one block, which belongs
to the vector and is sized for exactly its capacity; dropping the vector gives memory back
exactly as it was.  (Freeing with a wrong size, freeing twice or touching another block would
be `Fault.ub`, which C01 excludes.) -/
theorem C05_vector_memory (R : RawAlloc α) (nd : Bool) (m0 : Mem α) (ops : List (SeqOp α))
    (hops : nd = true → ∀ o ∈ ops, o.isSlice = false)
    {outs : List (Out α)} {v : Vec} {m : Mem α}
    (hrun : Vec.run (defaultAllocator R) nd ops Vec.new m0 = .ok (outs, v, m)) :
    (∃ cap, v.capacity = .ok cap ∧
      ((cap = 0 ∧ m.live = m0.live) ∨
       ∃ b blk, m0.live b = none ∧ m.live = Function.update m0.live b (some blk) ∧
         v.beginPtr = .loc b 0 ∧ blk.region = .heap ∧ blk.size = cap)) ∧
    ∃ m', v.clear (defaultAllocator R) nd m = .ok (Vec.new, m') ∧ m'.live = m0.live := by
  obtain ⟨xs, ds, cap, _, hi, _, _⟩ := reachable_inv R nd m0 ops hops hrun
  constructor
  · refine ⟨cap, hi.capacity, ?_⟩
    rcases hi.default_rep with h | ⟨b, blk, h⟩
    · exact .inl ⟨h.cap0, h.live⟩
    · exact .inr ⟨b, blk, h.fresh, h.live, by rw [h.ptrs], h.fit.1, h.fit.2⟩
  · obtain ⟨m', he, _, hw, _, _, _⟩ := hi.clear (defaultAllocator_lawful R) nd
    exact ⟨m', he, funext fun p => hw p not_false⟩

/-- A case with a block: capacity 4, and nothing left after the drop. -/
example : (do
    let (_, v, m) ← Vec.run (defaultAllocator RawAlloc.bump) true
      [.push 1, .push 2, .push 3, .remove (0 : Nat)] Vec.new (Mem.empty (α := Nat))
    let (_, m') ← v.clear (defaultAllocator RawAlloc.bump) true m
    .ok (v.capacity, (List.range 4).map fun b => ((m.live b).map Block.size, (m'.live b).isSome))) =
  (.ok (.ok 4, [(none, false), (none, false), (some 4, false), (none, false)]) : Exec _) := rfl

/-! ## C06 -/

/-- C06.  For an element type with destructor and any history of moving calls followed by
dropping the vector: the values moved in are, up to order, exactly the values returned to the
caller together with the values dropped. -/
theorem C06_vector_drop_exactly_once (R : RawAlloc α) (m0 : Mem α) (ops : List (SeqOp α))
    (hops : ∀ o ∈ ops, o.isSlice = false)
    {outs : List (Out α)} {v : Vec} {m : Mem α}
    (hrun : Vec.run (defaultAllocator R) true ops Vec.new m0 = .ok (outs, v, m)) :
    ∃ m' drops, v.clear (defaultAllocator R) true m = .ok (Vec.new, m') ∧
      m'.dropped = m0.dropped ++ drops ∧
      (ops.flatMap SeqOp.movedIn).Perm (outs.flatMap Out.movedOut ++ drops) := by
  obtain ⟨xs, ds, cap, _, hi, hd, hp⟩ := reachable_inv R true m0 ops (fun _ => hops) hrun
  obtain ⟨m', he, _, _, _, _, hef⟩ := hi.clear (defaultAllocator_lawful R) true
  refine ⟨m', ds ++ xs, he, ?_, ?_⟩
  · rw [hef.dropped, hd]; simp
  · simpa using hp rfl

example : (do
    let (os, v, m) ← Vec.run (defaultAllocator RawAlloc.bump) true
      [.push 1, .push 2, .insert 1 3, .remove 0, .set 0 4, .push (5 : Nat)] Vec.new Mem.empty
    let (_, m) ← v.clear (defaultAllocator RawAlloc.bump) true m
    .ok (os.flatMap Out.movedOut, m.dropped)) = (.ok ([1], [3, 4, 2, 5]) : Exec _) := rfl

/-! ## C07: slice operations and destructors -/

/-- C07 is false: `append` of any non-empty slice to a fresh vector of a type with destructor
drops uninitialised memory, whatever the allocator and the memory. -/
theorem C07_append_drops_uninitialised (R : RawAlloc α) (m0 : Mem α) (x : α) (buf : List α) :
    Vec.append (defaultAllocator R) true (x :: buf) Vec.new m0 = .error .ub := by
  have h0 := VInv.new defaultFits m0
  obtain ⟨v', m', b', blk', fr, hr, ho, _, hi, hc, _, _⟩ :=
    h0.reserve (defaultAllocator_lawful R) (add := buf.length + 1) (by omega)
  have hcell : blk'.cells 0 = none := by rw [hc 0 (by simp), hi]
  have hb := ho.live_b
  have hcl := ho.cap_le
  have hpt := ho.ptrs
  unfold Vec.append
  rw [h0.len, h0.capacity]
  have : 0 < 0 + (buf.length + 1) := by omega
  simp only [Exec.ok_bind, List.length_nil, List.length_cons, Nat.zero_add,
    Nat.sub_zero, hr]
  subst hpt
  have hsz : 0 < blk'.size := by omega
  simp [Mem.ptrAdd_loc hb (show 0 + (buf.length + 1) ≤ blk'.size by omega),
    Mem.ptrAdd_loc hb (show 0 + 0 ≤ blk'.size by omega), Mem.cloneFrom, Mem.dropCell, Mem.read,
    Mem.cell_loc hb hsz, hcell]

/-- C07 is false: so does `From<&[T]>` (and therefore `Clone`) for a non-empty slice. -/
theorem C07_from_slice_drops_uninitialised (R : RawAlloc α) (m0 : Mem α) (x : α) (buf : List α) :
    Vec.fromSlice (defaultAllocator R) true (x :: buf) m0 = .error .ub := by
  have h0 := VInv.new defaultFits m0
  obtain ⟨v', m', b', blk', fr, hr, ho, _, hi, hc, _, _⟩ :=
    h0.reserve (defaultAllocator_lawful R) (add := buf.length + 1) (by omega)
  have hcell : blk'.cells 0 = none := by rw [hc 0 (by simp), hi]
  have hb := ho.live_b
  have hcl := ho.cap_le
  have hpt := ho.ptrs
  unfold Vec.fromSlice Vec.assign
  rw [h0.capacity]
  have : 0 < buf.length + 1 := by omega
  simp only [Exec.ok_bind, List.length_cons, this, if_true, Nat.sub_zero, hr]
  subst hpt
  have hsz : 0 < blk'.size := by omega
  simp [Mem.ptrAdd_loc hb (show 0 + (buf.length + 1) ≤ blk'.size by omega),
    Mem.cloneFrom, Mem.dropCell, Mem.read, Mem.cell_loc hb hsz, hcell]

/-- Cloning any non-empty vector of a type with destructor is undefined behaviour. -/
theorem C07_clone_drops_uninitialised (R : RawAlloc α) {v : Vec} {m : Mem α} {x : α} {xs : List α}
    (hx : v.asSlice m = .ok (x :: xs)) :
    v.clone (defaultAllocator R) true m = .error .ub := by
  unfold Vec.clone
  rw [hx]
  exact C07_from_slice_drops_uninitialised R m x xs

/-- C07 is false: assigning a shorter slice to a reachable vector of a type with destructor
forgets the tail.  Once the vector is dropped, what was dropped since are the overwritten values and
the slice; the values `xs.drop buf.length` were neither returned nor dropped. -/
theorem C07_assign_leaks (R : RawAlloc α) (m0 : Mem α) (ops : List (SeqOp α))
    (hops : ∀ o ∈ ops, o.isSlice = false)
    {outs : List (Out α)} {v : Vec} {m : Mem α} {xs : List α}
    (hrun : Vec.run (defaultAllocator R) true ops Vec.new m0 = .ok (outs, v, m))
    (hx : v.asSlice m = .ok xs) (buf : List α) (hbuf : buf.length < xs.length) :
    xs.drop buf.length ≠ [] ∧
    ∃ v' m' m'', v.assign (defaultAllocator R) true buf m = .ok (v', m') ∧
      v'.clear (defaultAllocator R) true m' = .ok (Vec.new, m'') ∧ m''.live = m0.live ∧
      m''.dropped = m.dropped ++ (xs.take buf.length ++ buf) := by
  obtain ⟨ys, ds, cap, _, hi, _, _⟩ := reachable_inv R true m0 ops (fun _ => hops) hrun
  have : ys = xs := by
    have h := hi.slice
    rw [hx] at h
    cases h; rfl
  subst this
  refine ⟨fun h => by have := congrArg List.length h; simp at this; omega, ?_⟩
  obtain ⟨v', m', he, hi', hef⟩ :=
    hi.assign (defaultAllocator_lawful R) true buf (fun _ => Nat.le_of_lt hbuf)
  obtain ⟨m2, hc, _, hw, _, _, hef2⟩ := hi'.clear (defaultAllocator_lawful R) true
  refine ⟨v', m', m2, he, hc, funext fun p => hw p not_false, ?_⟩
  rw [hef2.dropped, hef.dropped]
  simp

example : (do
    let (os, v, m) ← Vec.run (defaultAllocator RawAlloc.bump) true
      [.push 1, .push 2, .push (3 : Nat), .assign [4]] Vec.new Mem.empty
    let (_, m) ← v.clear (defaultAllocator RawAlloc.bump) true m
    .ok (os.flatMap Out.movedOut, m.dropped)) = (.ok ([], [1, 4]) : Exec _) := rfl

/-- What remains of C07: on a reachable vector of a type with destructor, assigning a slice of
at most its length never faults and drops exactly the values it overwrites.  Missing: the
values beyond the slice are leaked, and longer slices or `append` are undefined behaviour
(theorems above). -/
theorem C07_vector_assign_drops_partial (R : RawAlloc α) (m0 : Mem α) (ops : List (SeqOp α))
    (hops : ∀ o ∈ ops, o.isSlice = false)
    {outs : List (Out α)} {v : Vec} {m : Mem α} {xs : List α}
    (hrun : Vec.run (defaultAllocator R) true ops Vec.new m0 = .ok (outs, v, m))
    (hx : v.asSlice m = .ok xs) (buf : List α) (hbuf : buf.length ≤ xs.length) :
    ∃ v' m', v.assign (defaultAllocator R) true buf m = .ok (v', m') ∧
      v'.asSlice m' = .ok buf ∧ m'.dropped = m.dropped ++ xs.take buf.length := by
  obtain ⟨ys, ds, cap, _, hi, _, _⟩ := reachable_inv R true m0 ops (fun _ => hops) hrun
  have : ys = xs := by
    have h := hi.slice
    rw [hx] at h
    cases h; rfl
  subst this
  obtain ⟨v', m', he, hi', hef⟩ := hi.assign (defaultAllocator_lawful R) true buf (fun _ => hbuf)
  exact ⟨v', m', he, hi'.slice, by simpa using hef.dropped⟩

/-- A shorter slice over three elements. -/
example : (do
    let (_, v, m) ← Vec.run (defaultAllocator RawAlloc.bump) true
      [.push 1, .push 2, .push (3 : Nat)] Vec.new Mem.empty
    let xs ← v.asSlice m
    let (v, m) ← v.assign (defaultAllocator RawAlloc.bump) true [4, 5] m
    let ys ← v.asSlice m
    .ok (xs, ys, m.dropped)) = (.ok ([1, 2, 3], [4, 5], [1, 2]) : Exec _) := rfl

/-- What remains of C07, whole histories: if every slice call replaces exactly what the vector
holds (`append` of nothing, `assign` of as many values as there are), a vector of a type with
destructor behaves as the sequence does, and every value put in, moved or cloned, is returned or
dropped exactly once by the time the vector is dropped.  Missing: all other slice calls, which
break this (next theorem). -/
theorem C07_exact_histories_partial (R : RawAlloc α) (m0 : Mem α) (ops : List (SeqOp α))
    (hops : SeqOp.allExact ops [] = true) :
    match SeqOp.run ops [] with
    | .error e => Vec.run (defaultAllocator R) true ops Vec.new m0 = .error e
    | .ok (outs, xs) => ∃ v m m' drops,
        Vec.run (defaultAllocator R) true ops Vec.new m0 = .ok (outs, v, m) ∧
        v.asSlice m = .ok xs ∧ v.len = .ok xs.length ∧
        v.clear (defaultAllocator R) true m = .ok (Vec.new, m') ∧ m'.live = m0.live ∧
        m'.dropped = m0.dropped ++ drops ∧
        (ops.flatMap SeqOp.putIn).Perm (outs.flatMap Out.movedOut ++ drops) := by
  have h := VInv.run_exact (defaultAllocator_lawful R) ops hops (VInv.new defaultFits m0)
  cases hr : SeqOp.run ops [] with
  | error e => rw [hr] at h; exact h
  | ok r =>
    obtain ⟨os, xs⟩ := r
    rw [hr] at h
    obtain ⟨v, m, ds, cap, he, hi, hd, hp⟩ := h
    obtain ⟨m2, hc, _, hw, _, _, hef⟩ := hi.clear (defaultAllocator_lawful R) true
    refine ⟨v, m, m2, ds ++ xs, he, hi.slice, hi.len, hc, funext fun p => hw p not_false, ?_, ?_⟩
    · rw [hef.dropped, hd]; simp
    · simpa using hp

/-- C07, exactly which slice calls are sound: after any history as above, a slice call on a vector
of a type with destructor goes through and leaves every value accounted for (each one put in is
returned or dropped exactly once by the time the vector is dropped) if and only if it replaces
exactly what the vector holds.  In particular every non-empty `append`, and every `assign` of
another length, is undefined behaviour, drops a value twice or loses one. -/
theorem C07_slice_call_exact_iff (R : RawAlloc α) (m0 : Mem α) (ops : List (SeqOp α))
    (hops : SeqOp.allExact ops [] = true)
    {outs : List (Out α)} {v : Vec} {m : Mem α} {xs : List α}
    (hrun : Vec.run (defaultAllocator R) true ops Vec.new m0 = .ok (outs, v, m))
    (hx : v.asSlice m = .ok xs) (op : SeqOp α) (hop : op.isSlice = true) :
    (∃ o v' m' m'' drops, v.step (defaultAllocator R) true op m = .ok (o, v', m') ∧
      v'.clear (defaultAllocator R) true m' = .ok (Vec.new, m'') ∧
      m''.dropped = m0.dropped ++ drops ∧
      (ops.flatMap SeqOp.putIn ++ op.putIn).Perm
        (outs.flatMap Out.movedOut ++ o.movedOut ++ drops)) ↔
    op.exact xs = true := by
  have hA := defaultAllocator_lawful R
  have h := VInv.run_exact hA ops hops (VInv.new defaultFits m0)
  cases hr : SeqOp.run ops [] with
  | error e => rw [hr] at h; rw [h] at hrun; cases hrun
  | ok r =>
  obtain ⟨os, ys⟩ := r
  rw [hr] at h
  obtain ⟨v0, m1, ds, cap, he, hi, hd, hp⟩ := h
  rw [hrun] at he
  cases he
  have : ys = xs := by
    have h := hi.slice
    rw [hx] at h
    cases h; rfl
  subst this
  have hpl := hp.length_eq
  simp only [List.append_nil, List.length_append] at hpl
  constructor
  · rintro ⟨o, v', m', m'', drops, h1, h2, h3, h4⟩
    have hl := h4.length_eq
    cases op with
    | append buf =>
      rcases hi.append_or hA buf with hub | ⟨v2, m2, ds2, e1, e2, e3, e4⟩
      · simp [Vec.step, hub] at h1
      · simp only [Vec.step, e1, Exec.ok_bind, Except.ok.injEq, Prod.mk.injEq] at h1
        obtain ⟨rfl, rfl, rfl⟩ := h1
        obtain ⟨m3, hc, _, _, _, _, hef⟩ := e2.clear hA true
        rw [h2] at hc
        cases hc
        rw [hef.dropped, e4, hd] at h3
        have : drops = ds ++ (ds2 ++ (ys ++ buf)) := by simpa using h3.symm
        subst this
        simp only [SeqOp.putIn, Out.movedOut, List.length_append, List.length_nil] at hl
        have : buf = [] := List.length_eq_zero_iff.1 (by omega)
        simp [SeqOp.exact, this]
    | assign buf =>
      rcases hi.assign_or hA buf with hub | ⟨v2, m2, ds2, e1, e2, e3, e4⟩
      · simp [Vec.step, hub] at h1
      · simp only [Vec.step, e1, Exec.ok_bind, Except.ok.injEq, Prod.mk.injEq] at h1
        obtain ⟨rfl, rfl, rfl⟩ := h1
        obtain ⟨m3, hc, _, _, _, _, hef⟩ := e2.clear hA true
        rw [h2] at hc
        cases hc
        rw [hef.dropped, e4, hd] at h3
        have : drops = ds ++ (ds2 ++ buf) := by simpa using h3.symm
        subst this
        simp only [SeqOp.putIn, Out.movedOut, List.length_append, List.length_nil] at hl
        have : buf.length = ys.length := by omega
        simp [SeqOp.exact, this]
    | _ => cases hop
  · intro hex
    have h1 := hi.step_exact hA op hex
    have hok : ∃ o zs, op.step ys = .ok (o, zs) := by
      cases op with
      | append buf => exact ⟨_, _, rfl⟩
      | assign buf => exact ⟨_, _, rfl⟩
      | _ => cases hop
    obtain ⟨o, zs, hz⟩ := hok
    rw [hz] at h1
    obtain ⟨v', m', d2, cap', e1, e2, e3, e4⟩ := h1
    obtain ⟨m3, hc, _, _, _, _, hef⟩ := e2.clear hA true
    refine ⟨o, v', m', m3, ds ++ (d2 ++ zs), e1, hc, by rw [hef.dropped, e3, hd]; simp, ?_⟩
    have p1 : (ops.flatMap SeqOp.putIn ++ op.putIn).Perm
        (outs.flatMap Out.movedOut ++ ds ++ (op.putIn ++ ys)) := by
      have := (List.append_nil _ ▸ hp).append_right op.putIn
      refine this.trans ?_
      rw [List.append_assoc (outs.flatMap Out.movedOut ++ ds)]
      exact List.perm_append_comm.append_left _
    refine p1.trans ((e4.append_left _).trans ?_)
    simp only [List.append_assoc]
    refine List.Perm.append_left _ ?_
    rw [← List.append_assoc, ← List.append_assoc o.movedOut]
    exact List.perm_append_comm.append_right _

/-- Exact assignments, then one that is too short and one that is too long. -/
example : SeqOp.allExact [.push 1, .push 2, .assign [3, 4], .append [], .pop, .assign [(5 : Nat)]] []
    = true := by decide

example : (do
    let (os, v, m) ← Vec.run (defaultAllocator RawAlloc.bump) true
      [.push 1, .push 2, .assign [3, 4], .append [], .pop, .assign [(5 : Nat)]] Vec.new Mem.empty
    let xs ← v.asSlice m
    let (_, m) ← v.clear (defaultAllocator RawAlloc.bump) true m
    .ok (xs, os.flatMap Out.movedOut, m.dropped)) = (.ok ([5], [4], [1, 2, 3, 5]) : Exec _) := rfl

example : SeqOp.exact (.assign []) [(5 : Nat)] = false ∧ SeqOp.exact (.append [6]) [(5 : Nat)] = false :=
  by decide

/-! ## C08 -/

/-- C08.  Consuming a reachable vector: any interleaving of `next` and `next_back` returns what
taking from the two ends of the sequence returns, `len` and `as_slice` describe what is left,
and dropping the iterator at that point drops exactly what is left and restores memory. -/
theorem C08_vector_into_iter (R : RawAlloc α) (nd : Bool) (m0 : Mem α) (ops : List (SeqOp α))
    (hops : nd = true → ∀ o ∈ ops, o.isSlice = false)
    {outs : List (Out α)} {v : Vec} {m : Mem α} {xs : List α}
    (hrun : Vec.run (defaultAllocator R) nd ops Vec.new m0 = .ok (outs, v, m))
    (hx : v.asSlice m = .ok xs) (calls : List IterOp) :
    ∃ it, VIntoIter.run calls v.intoIter m = .ok ((IterOp.run calls xs).1, it) ∧
      it.len = .ok (IterOp.run calls xs).2.length ∧
      it.asSlice m = .ok (IterOp.run calls xs).2 ∧
      ∃ m', it.drop (defaultAllocator R) nd m = .ok m' ∧ m'.live = m0.live ∧
        m'.dropped = m.dropped ++ (if nd then (IterOp.run calls xs).2 else []) := by
  obtain ⟨ys, ds, cap, _, hi, _, _⟩ := reachable_inv R nd m0 ops hops hrun
  have : ys = xs := by
    have h := hi.slice
    rw [hx] at h
    cases h; rfl
  subst this
  obtain ⟨it, h1, h2⟩ := ItRep.run calls hi.default_rep.intoIter
  obtain ⟨m', h3, h4, h5⟩ := h2.drop R nd
  exact ⟨it, h1, h2.len, h2.slice, m', h3, h4, h5⟩

/-- The calls return a partition: what came from the front, what is left, what came from the
back (in reverse) is the original sequence. -/
theorem IterOp.partition (calls : List IterOp) : ∀ (xs : List α),
    ∃ front back : List α, xs = front ++ (IterOp.run calls xs).2 ++ back ∧
      ((IterOp.run calls xs).1.filterMap id).Perm (front ++ back) := by
  induction calls with
  | nil => intro xs; exact ⟨[], [], by simp [IterOp.run], by simp [IterOp.run]⟩
  | cons op calls ih =>
    intro xs
    cases op with
    | next =>
      cases xs with
      | nil =>
        obtain ⟨f, b, h1, h2⟩ := ih []
        exact ⟨f, b, by simpa [IterOp.run, IterOp.step] using h1,
          by simpa [IterOp.run, IterOp.step] using h2⟩
      | cons x xs =>
        obtain ⟨f, b, h1, h2⟩ := ih xs
        refine ⟨x :: f, b, by simpa [IterOp.run, IterOp.step] using h1, ?_⟩
        simpa [IterOp.run, IterOp.step] using h2
    | nextBack =>
      rcases List.eq_nil_or_concat xs with hx | ⟨ys, y, hx⟩
      · subst hx
        obtain ⟨f, b, h1, h2⟩ := ih []
        exact ⟨f, b, by simpa [IterOp.run, IterOp.step] using h1,
          by simpa [IterOp.run, IterOp.step] using h2⟩
      · rw [List.concat_eq_append] at hx
        subst hx
        obtain ⟨f, b, h1, h2⟩ := ih ys
        refine ⟨f, b ++ [y], ?_, ?_⟩
        · simp only [IterOp.run, IterOp.step, List.dropLast_concat]
          conv_lhs => rw [h1]
          simp
        · simp only [IterOp.run, IterOp.step, List.dropLast_concat, List.getLast?_concat]
          simp only [List.filterMap_cons, id]
          have := (h2.cons y).trans (List.perm_append_singleton y (f ++ b)).symm
          simpa using this

example : (do
    let (_, v, m) ← Vec.run (defaultAllocator RawAlloc.bump) true
      [.push 1, .push 2, .push 3, .push (4 : Nat)] Vec.new Mem.empty
    let (os, it) ← VIntoIter.run [.next, .nextBack, .next] v.intoIter m
    let m ← it.drop (defaultAllocator RawAlloc.bump) true m
    .ok (os, m.dropped)) = (.ok ([some 1, some 4, some 2], [3]) : Exec _) := rfl

/-! ## C09 -/

theorem VInv.freed (R : RawAlloc α) (nd : Bool) {w : World α} {m : Mem α} {v : Vec} {xs : List α}
    {cap : Nat} (hi : VInv (fun _ => False) defaultFits w m v xs cap) :
    ∃ m', v.clear (defaultAllocator R) nd m = .ok (Vec.new, m') ∧ m'.live = w ∧
      m'.dropped = m.dropped ++ (if nd then xs else []) := by
  obtain ⟨m', he, _, hw, _, _, hef⟩ := hi.clear (defaultAllocator_lawful R) nd
  exact ⟨m', he, funext fun p => hw p id, hef.dropped⟩

/-- C09, `with_capacity`; dropping the vector leaves nothing behind (as below). -/
theorem C09_with_capacity (R : RawAlloc α) (m0 : Mem α) (n : Nat) :
    ∃ v m, Vec.withCapacity (defaultAllocator R) n m0 = .ok (v, m) ∧
      v.asSlice m = .ok [] ∧ v.capacity = .ok n ∧
      ∀ nd, ∃ m', v.clear (defaultAllocator R) nd m = .ok (Vec.new, m') ∧ m'.live = m0.live ∧
        m'.dropped = m0.dropped := by
  obtain ⟨v, m, he, hi, hef⟩ := (VInv.new defaultFits m0).reserve_any (defaultAllocator_lawful R) n
  refine ⟨v, m, he, hi.slice, by simpa using hi.capacity, fun nd => ?_⟩
  obtain ⟨m', h1, h2, h3⟩ := hi.freed R nd
  exact ⟨m', h1, h2, by simp [h3, hef.dropped]⟩

/-- C09, `From<&[T]>`, `from_in`: contents and exact capacity (for types without destructor,
see C07). -/
theorem C09_from_slice (R : RawAlloc α) (m0 : Mem α) (buf : List α) :
    ∃ v m, Vec.fromSlice (defaultAllocator R) false buf m0 = .ok (v, m) ∧
      v.asSlice m = .ok buf ∧ v.capacity = .ok buf.length ∧
      ∃ m', v.clear (defaultAllocator R) false m = .ok (Vec.new, m') ∧ m'.live = m0.live := by
  obtain ⟨v, m, he, hi, _⟩ :=
    (VInv.new defaultFits m0).assign (defaultAllocator_lawful R) false buf (by simp)
  obtain ⟨m', h1, h2, _⟩ := hi.freed R false
  exact ⟨v, m, he, hi.slice, by simpa using hi.capacity, m', h1, h2⟩

/-- C09, `From<[T; N]>`: contents and exact capacity. -/
theorem C09_from_array (R : RawAlloc α) (m0 : Mem α) (buf : List α) :
    ∃ v m, Vec.fromArray (defaultAllocator R) buf m0 = .ok (v, m) ∧
      v.asSlice m = .ok buf ∧ v.capacity = .ok buf.length ∧
      ∀ nd, ∃ m', v.clear (defaultAllocator R) nd m = .ok (Vec.new, m') ∧ m'.live = m0.live ∧
        m'.dropped = m0.dropped ++ (if nd then buf else []) := by
  obtain ⟨v, m, he, hi, hef⟩ :=
    (VInv.new defaultFits m0).reserve_any (defaultAllocator_lawful R) buf.length
  obtain ⟨v2, m2, cap2, he2, hi2, hd, _, hc⟩ := hi.pushAll (defaultAllocator_lawful R) buf
  have hcap := hc (by simp)
  refine ⟨v2, m2, by simp [Vec.fromArray, Vec.withCapacity, he, he2], by simpa using hi2.slice, ?_,
    fun nd => ?_⟩
  · rw [hi2.capacity, hcap]; simp
  · obtain ⟨m', h1, h2, h3⟩ := hi2.freed R nd
    exact ⟨m', h1, h2, by simp [h3, hd, hef.dropped]⟩

/-- C09, `FromIterator`: contents, whatever the iterator claims as lower size hint; and if the
hint is right the capacity is exact. -/
theorem C09_from_iter (R : RawAlloc α) (m0 : Mem α) (hint : Nat) (items : List α) :
    ∃ v m cap, Vec.fromIter (defaultAllocator R) hint items m0 = .ok (v, m) ∧
      v.asSlice m = .ok items ∧ v.capacity = .ok cap ∧ hint ≤ cap ∧
      (items.length ≤ hint → cap = hint) ∧
      ∀ nd, ∃ m', v.clear (defaultAllocator R) nd m = .ok (Vec.new, m') ∧ m'.live = m0.live ∧
        m'.dropped = m0.dropped ++ (if nd then items else []) := by
  obtain ⟨v, m, he, hi, hef⟩ :=
    (VInv.new defaultFits m0).reserve_any (defaultAllocator_lawful R) hint
  obtain ⟨v2, m2, cap2, he2, hi2, hd, hle, hc⟩ := hi.pushAll (defaultAllocator_lawful R) items
  refine ⟨v2, m2, cap2, by simp [Vec.fromIter, Vec.withCapacity, he, he2], by
    simpa using hi2.slice, hi2.capacity, by omega, ?_, fun nd => ?_⟩
  · intro h
    have := hc (by simpa using h)
    omega
  · obtain ⟨m', h1, h2, h3⟩ := hi2.freed R nd
    exact ⟨m', h1, h2, by simp [h3, hd, hef.dropped]⟩

/-- C09, `Clone`: the clone of any reachable vector has its contents, and the original keeps
them (for types without destructor, see C07). -/
theorem C09_clone (R : RawAlloc α) (m0 : Mem α) (ops : List (SeqOp α))
    {outs : List (Out α)} {v : Vec} {m : Mem α} {xs : List α}
    (hrun : Vec.run (defaultAllocator R) false ops Vec.new m0 = .ok (outs, v, m))
    (hx : v.asSlice m = .ok xs) :
    ∃ c m', v.clone (defaultAllocator R) false m = .ok (c, m') ∧ c.asSlice m' = .ok xs ∧
      v.asSlice m' = .ok xs ∧ c.capacity = .ok xs.length := by
  obtain ⟨ys, ds, cap, _, hi, _, _⟩ := reachable_inv R false m0 ops (by simp) hrun
  have : ys = xs := by
    have h := hi.slice
    rw [hx] at h
    cases h; rfl
  subst this
  obtain ⟨c, m', he, hi', _⟩ :=
    (VInv.new defaultFits m).assign (defaultAllocator_lawful R) false ys (by simp)
  have hP := hi'.default_rep.toP
  obtain ⟨wb, hP1, _⟩ := PRep.swap hP hi.default_rep.toP
  obtain ⟨cp, hV⟩ := hP1.toV
  exact ⟨c, m', by simp only [Vec.clone, hx, Exec.ok_bind]; exact he, hi'.slice, hV.slice,
    by simpa using hi'.capacity⟩

/-- All the constructors, the iterator with a hint that is too small. -/
example : (do
    let (v1, m) ← Vec.withCapacity (defaultAllocator RawAlloc.bump) 3 (Mem.empty (α := Nat))
    let (v2, m) ← Vec.fromSlice (defaultAllocator RawAlloc.bump) false [1, 2] m
    let (v3, m) ← Vec.fromArray (defaultAllocator RawAlloc.bump) [3, 4, 5] m
    let (v4, m) ← Vec.fromIter (defaultAllocator RawAlloc.bump) 1 [6, 7, 8] m
    let (v5, m) ← v4.clone (defaultAllocator RawAlloc.bump) false m
    .ok ([v1, v2, v3, v4, v5].map fun v => (v.asSlice m, v.capacity))) =
  (.ok [(.ok [], .ok 3), (.ok [1, 2], .ok 2), (.ok [3, 4, 5], .ok 3), (.ok [6, 7, 8], .ok 4),
    (.ok [6, 7, 8], .ok 3)] : Exec _) := rfl

/-! ## C10 -/

/-- Calls interleaved on two vectors `(first?, call)`. -/
def Vec.run2 (A : Allocator α) (nd : Bool) : List (Bool × SeqOp α) → Vec → Vec → Mem α →
    Exec (List (Out α) × Vec × Vec × Mem α)
  | [], v, c, m => .ok ([], v, c, m)
  | (true, op) :: ops, v, c, m => do
    let (o, v, m) ← v.step A nd op m
    let (os, v, c, m) ← Vec.run2 A nd ops v c m
    .ok (o :: os, v, c, m)
  | (false, op) :: ops, v, c, m => do
    let (o, c, m) ← c.step A nd op m
    let (os, v, c, m) ← Vec.run2 A nd ops v c m
    .ok (o :: os, v, c, m)

/-- The same on two unrelated mathematical sequences. -/
def Spec.run2 : List (Bool × SeqOp α) → List α → List α →
    Except Fault (List (Out α) × List α × List α)
  | [], xs, ys => .ok ([], xs, ys)
  | (true, op) :: ops, xs, ys =>
    match op.step xs with
    | .error e => .error e
    | .ok (o, xs) =>
      match Spec.run2 ops xs ys with
      | .error e => .error e
      | .ok (os, xs, ys) => .ok (o :: os, xs, ys)
  | (false, op) :: ops, xs, ys =>
    match op.step ys with
    | .error e => .error e
    | .ok (o, ys) =>
      match Spec.run2 ops xs ys with
      | .error e => .error e
      | .ok (os, xs, ys) => .ok (o :: os, xs, ys)

theorem run2_refines (R : RawAlloc α) (nd : Bool) (ops : List (Bool × SeqOp α))
    (hops : nd = true → ∀ o ∈ ops, o.2.isSlice = false) :
    ∀ (w : World α) (m : Mem α) (v c : Vec) (xs ys : List α),
    (∃ wa, PRep m.live wa v xs ∧ PRep wa w c ys) →
    match Spec.run2 ops xs ys with
    | .error e => Vec.run2 (defaultAllocator R) nd ops v c m = .error e
    | .ok (os, xs', ys') => ∃ v' c' m',
        Vec.run2 (defaultAllocator R) nd ops v c m = .ok (os, v', c', m') ∧
        ∃ wa, PRep m'.live wa v' xs' ∧ PRep wa w c' ys' := by
  induction ops with
  | nil => intro w m v c xs ys h; exact ⟨v, c, m, rfl, h⟩
  | cons bop ops ih =>
    obtain ⟨b, op⟩ := bop
    have ih := ih (fun hn o ho => hops hn o (by simp [ho]))
    have hop : nd = true → op.isSlice = false := fun hn => hops hn (b, op) (by simp)
    intro w m v c xs ys h
    cases b with
    | true =>
      obtain ⟨wa, h1, h2⟩ := h
      obtain ⟨cap, hV⟩ := h1.toV
      have hs := hV.default_inv.step (defaultAllocator_lawful R) nd op hop
      cases hso : op.step xs with
      | error e =>
        rw [hso] at hs; simp only [] at hs
        simp [Spec.run2, hso, Vec.run2, hs]
      | ok r =>
        obtain ⟨o, xs1⟩ := r
        rw [hso] at hs
        obtain ⟨v1, m1, _, _, _, he, hi, _, _⟩ := hs
        have h3 := ih w m1 v1 c xs1 ys ⟨wa, hi.default_rep.toP, h2⟩
        cases hr : Spec.run2 ops xs1 ys with
        | error e =>
          rw [hr] at h3; simp only [] at h3
          simp [Spec.run2, hso, hr, Vec.run2, he, h3]
        | ok r =>
          obtain ⟨os, xs2, ys2⟩ := r
          rw [hr] at h3
          obtain ⟨v2, c2, m2, he2, hp⟩ := h3
          simp only [Spec.run2, hso, hr]
          exact ⟨v2, c2, m2, by simp [Vec.run2, he, he2], hp⟩
    | false =>
      obtain ⟨wa0, h10, h20⟩ := h
      obtain ⟨wa, h1, h2⟩ := PRep.swap h10 h20
      obtain ⟨cap, hV⟩ := h1.toV
      have hs := hV.default_inv.step (defaultAllocator_lawful R) nd op hop
      cases hso : op.step ys with
      | error e =>
        rw [hso] at hs; simp only [] at hs
        simp [Spec.run2, hso, Vec.run2, hs]
      | ok r =>
        obtain ⟨o, ys1⟩ := r
        rw [hso] at hs
        obtain ⟨c1, m1, _, _, _, he, hi, _, _⟩ := hs
        have h3 := ih w m1 v c1 xs ys1 (PRep.swap hi.default_rep.toP h2)
        cases hr : Spec.run2 ops xs ys1 with
        | error e =>
          rw [hr] at h3; simp only [] at h3
          simp [Spec.run2, hso, hr, Vec.run2, he, h3]
        | ok r =>
          obtain ⟨os, xs2, ys2⟩ := r
          rw [hr] at h3
          obtain ⟨v2, c2, m2, he2, hp⟩ := h3
          simp only [Spec.run2, hso, hr]
          exact ⟨v2, c2, m2, by simp [Vec.run2, he, he2], hp⟩

theorem drop_two (R : RawAlloc α) (nd : Bool) {w : World α} {m : Mem α} {v c : Vec} {xs ys : List α}
    (h : ∃ wa, PRep m.live wa v xs ∧ PRep wa w c ys) :
    ∃ m1 m2, v.clear (defaultAllocator R) nd m = .ok (Vec.new, m1) ∧
      c.clear (defaultAllocator R) nd m1 = .ok (Vec.new, m2) ∧ m2.live = w ∧
      m2.dropped = m.dropped ++ (if nd then xs ++ ys else []) := by
  obtain ⟨wa, h1, h2⟩ := h
  obtain ⟨_, hV⟩ := h1.toV
  obtain ⟨m1, he1, hl1, hd1⟩ := hV.default_inv.freed R nd
  rw [← hl1] at h2
  obtain ⟨_, hV2⟩ := h2.toV
  obtain ⟨m2, he2, hl2, hd2⟩ := hV2.default_inv.freed R nd
  refine ⟨m1, m2, he1, he2, hl2, ?_⟩
  rw [hd2, hd1]
  cases nd <;> simp

/-- C10.  Clone a reachable vector, then apply calls to the original and to the clone in any
interleaving: results and final contents are those of two unrelated sequences that start
equal, and dropping both in either order leaves memory as it was.  (Element types without destructor;
for the others `clone` itself is undefined, C07.) -/
theorem C10_clone_independent (R : RawAlloc α) (m0 : Mem α) (ops : List (SeqOp α))
    {outs : List (Out α)} {v : Vec} {m : Mem α} {xs : List α}
    (hrun : Vec.run (defaultAllocator R) false ops Vec.new m0 = .ok (outs, v, m))
    (hx : v.asSlice m = .ok xs) (later : List (Bool × SeqOp α)) :
    ∃ c m1, v.clone (defaultAllocator R) false m = .ok (c, m1) ∧
      match Spec.run2 later xs xs with
      | .error e => Vec.run2 (defaultAllocator R) false later v c m1 = .error e
      | .ok (os, xs', ys') => ∃ v' c' m',
          Vec.run2 (defaultAllocator R) false later v c m1 = .ok (os, v', c', m') ∧
          v'.asSlice m' = .ok xs' ∧ c'.asSlice m' = .ok ys' ∧
          (∃ m1 m2, v'.clear (defaultAllocator R) false m' = .ok (Vec.new, m1) ∧
            c'.clear (defaultAllocator R) false m1 = .ok (Vec.new, m2) ∧ m2.live = m0.live) ∧
          ∃ m1 m2, c'.clear (defaultAllocator R) false m' = .ok (Vec.new, m1) ∧
            v'.clear (defaultAllocator R) false m1 = .ok (Vec.new, m2) ∧ m2.live = m0.live := by
  obtain ⟨ys, ds, cap, _, hi, _, _⟩ := reachable_inv R false m0 ops (by simp) hrun
  have : ys = xs := by
    have h := hi.slice
    rw [hx] at h
    cases h; rfl
  subst this
  obtain ⟨c, m1, he, hi', _⟩ :=
    (VInv.new defaultFits m).assign (defaultAllocator_lawful R) false ys (by simp)
  refine ⟨c, m1, by simp only [Vec.clone, hx, Exec.ok_bind]; exact he, ?_⟩
  have h := run2_refines R false later (by simp) m0.live m1 v c ys ys
    (PRep.swap hi'.default_rep.toP hi.default_rep.toP)
  cases hr : Spec.run2 later ys ys with
  | error e => rw [hr] at h; exact h
  | ok r =>
    obtain ⟨os, xs2, ys2⟩ := r
    rw [hr] at h
    obtain ⟨v2, c2, m2, he2, wa, hp1, hp2⟩ := h
    obtain ⟨wb, hp3, hp4⟩ := PRep.swap hp1 hp2
    obtain ⟨_, hV1⟩ := hp1.toV
    obtain ⟨_, hV2⟩ := hp3.toV
    obtain ⟨m3, m4, h1, h2, h3, _⟩ := drop_two R false ⟨wa, hp1, hp2⟩
    obtain ⟨m5, m6, h4, h5, h6, _⟩ := drop_two R false ⟨wb, hp3, hp4⟩
    exact ⟨v2, c2, m2, he2, hV1.slice, hV2.slice, ⟨m3, m4, h1, h2, h3⟩, m5, m6, h4, h5, h6⟩

example : (do
    let (_, v, m) ← Vec.run (defaultAllocator RawAlloc.bump) false [.push 1, .push (2 : Nat)]
      Vec.new Mem.empty
    let (c, m) ← v.clone (defaultAllocator RawAlloc.bump) false m
    let (_, v, c, m) ← Vec.run2 (defaultAllocator RawAlloc.bump) false
      [(true, .push 3), (false, .set 0 9), (true, .remove 0), (false, .push 4)] v c m
    let a ← v.asSlice m
    let b ← c.asSlice m
    .ok (a, b)) = (.ok ([2, 3], [9, 2, 4]) : Exec _) := rfl

end Verif
