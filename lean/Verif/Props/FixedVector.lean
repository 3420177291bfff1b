import Verif.FixedVector.Move

/-!
# Properties C11-C15 of `FixedVector`

`n` is `NODE_COUNT`, `d` the place of the object (any storage not in use), `R` the overflow
allocator, `m0` the memory before.
-/

set_option autoImplicit false

namespace Verif
open Spec

variable {α : Type}

/-! ## C11 -/

/-- At no point of the history does the sequence hold more than `n` elements. -/
def Spec.NeverExceeds (n : Nat) (ops : List (SeqOp α)) : Prop :=
  ∀ pre, pre <+: ops → ∀ os ys, SeqOp.run pre [] = .ok (os, ys) → ys.length ≤ n

/-- Histories without `clear` and in which nothing is reserved. -/
def Spec.Plain (ops : List (SeqOp α)) : Prop :=
  ∀ op ∈ ops, op ≠ .clear ∧ ∀ k, 0 < k → op ≠ .reserve k

theorem capAfter_of_fits {op : SeqOp α} {xs ys : List α} {o : Out α} {n : Nat}
    (hs : op.step xs = .ok (o, ys)) (hx : xs.length ≤ n) (hy : ys.length ≤ n)
    (h1 : op ≠ .clear) (h2 : ∀ k, 0 < k → op ≠ .reserve k) : op.capAfter xs.length n = n := by
  cases op with
  | push x => cases hs; simp at hy; simp [SeqOp.capAfter]; omega
  | insert i x =>
    simp only [SeqOp.step] at hs
    split_ifs at hs with hi
    cases hs
    simp [List.length_take, Nat.min_eq_left hi] at hy
    simp [SeqOp.capAfter]; omega
  | append buf => cases hs; simp at hy; simp [SeqOp.capAfter]; omega
  | assign buf => cases hs; simp [SeqOp.capAfter]; omega
  | reserve k =>
    rcases Nat.eq_zero_or_pos k with rfl | hk
    · rfl
    · exact absurd rfl (h2 k hk)
  | clear => exact absurd rfl h1
  | pop | remove | set | len | isEmpty | slice => rfl

theorem inline_run (R : RawAlloc α) (nd : Bool) (n : Nat) (ops : List (SeqOp α)) :
    ∀ {w0 : World α} {f : FVec} {m : Mem α} {xs : List α} {blk : Block α},
    f.pool = .loc f.buf 0 →
    VInvB (fun b => b = f.buf) (fixedFits f.buf) w0 m f.vec f.buf blk xs n →
    (nd = true → ∀ op ∈ ops, op.isSlice = false) → Plain ops →
    (∀ pre, pre <+: ops → ∀ os ys, SeqOp.run pre xs = .ok (os, ys) → ys.length ≤ n) →
    ∀ os ys, SeqOp.run ops xs = .ok (os, ys) →
    ∃ f' m' blk', f.run R nd ops m = .ok (os, f', m') ∧ f'.buf = f.buf ∧ f'.count = f.count ∧
      f'.pool = f.pool ∧
      VInvB (fun b => b = f.buf) (fixedFits f.buf) w0 m' f'.vec f.buf blk' ys n ∧
      m'.allocs = m.allocs := by
  induction ops with
  | nil =>
    intro w0 f m xs blk _ h _ _ _ os ys hr
    cases hr
    exact ⟨f, m, blk, rfl, rfl, rfl, rfl, h, rfl⟩
  | cons op ops ih =>
    intro w0 f m xs blk hp h hops hpl hfit os ys hr
    have hA := fixedAllocator_lawful R f.buf
    rw [← hp] at hA
    simp only [SeqOp.run] at hr
    cases hs : op.step xs with
    | error e => rw [hs] at hr; cases hr
    | ok r =>
      obtain ⟨o, zs⟩ := r
      rw [hs] at hr
      simp only at hr
      have hz : zs.length ≤ n := hfit [op] ⟨ops, rfl⟩ [o] zs (by simp [SeqOp.run, hs])
      have hx : xs.length ≤ n := hfit [] ⟨op :: ops, rfl⟩ [] xs rfl
      obtain ⟨h1, h2⟩ := hpl op (by simp)
      have hst := h.step_room hA nd op (fun hn => hops hn op (by simp)) h1
        (capAfter_of_fits hs hx hz h1 h2)
      rw [hs] at hst
      obtain ⟨v1, m1, blk1, ds, nc, he, hB, hef⟩ := hst
      cases hr2 : SeqOp.run ops zs with
      | error e => rw [hr2] at hr; cases hr
      | ok r2 =>
        obtain ⟨os2, ys2⟩ := r2
        rw [hr2] at hr
        cases hr
        obtain ⟨f2, m2, blk2, he2, hb2, hc2, hp2, hB2, ha2⟩ := ih (f := { f with vec := v1 }) hp hB
          (fun hn op' hop' => hops hn op' (by simp [hop']))
          (fun op' hop' => hpl op' (by simp [hop']))
          (fun pre hpre os' ys' hrun => hfit (op :: pre) (List.prefix_cons_inj op |>.2 hpre)
            (o :: os') ys' (by simp [SeqOp.run, hs, hrun])) os2 _ hr2
        refine ⟨f2, m2, blk2, ?_, hb2, hc2, hp2, hB2, ?_⟩
        · simp [FVec.run, FVec.step, he, he2]
        · rw [ha2, hef.allocs, Nat.add_zero]

/-- C11, staying inside.  While a `FixedVector` never holds more than `n` elements, the
overflow allocator is never called, the capacity stays `n` and `has_overflowed` is false. -/
theorem C11_fixed_vector_stays_inline (R : RawAlloc α) (nd : Bool) (n d : Nat) (hn : 0 < n)
    (m0 : Mem α) (hd : m0.live d = none) (ops : List (SeqOp α))
    (hops : nd = true → ∀ op ∈ ops, op.isSlice = false) (hplain : Plain ops)
    (hfit : NeverExceeds n ops) {outs : List (Out α)} {xs : List α}
    (hspec : SeqOp.run ops [] = .ok (outs, xs)) :
    ∃ f1 m1 f m, FVec.newIn n d m0 = .ok (f1, m1) ∧ f1.run R nd ops m1 = .ok (outs, f, m) ∧
      m.allocs = m0.allocs ∧ f.vec.capacity = .ok n ∧ f.hasOverflowed = false ∧
      f.vec.asSlice m = .ok xs := by
  obtain ⟨f1, m1, he1, hi1, hb1, hc1, ho1, _, ha1⟩ := FInvA.new hn m0 hd
  have hbeg : f1.vec.beginPtr = .loc f1.buf 0 := by simpa [FVec.hasOverflowed] using ho1
  obtain ⟨blk, hB⟩ := hi1.inv.ownAt hbeg
  obtain ⟨f, m, blk', he, hb, _, _, hB', ha⟩ :=
    inline_run R nd n ops hi1.pool hB hops hplain hfit outs xs hspec
  refine ⟨f1, m1, f, m, he1, he, by rw [ha, ha1], hB'.inv.capacity, ?_, hB'.inv.slice⟩
  simp [FVec.hasOverflowed, hB'.ptrs, hb]

/-- C11, spilling.  When such a vector holds exactly `n` elements, the next `push` or `insert`
calls the overflow allocator once, moves everything out in order, doubles the capacity and
makes `has_overflowed` true. -/
theorem C11_fixed_vector_spills (R : RawAlloc α) (nd : Bool) (n d : Nat) (hn : 0 < n)
    (m0 : Mem α) (hd : m0.live d = none) (ops : List (SeqOp α))
    (hops : nd = true → ∀ op ∈ ops, op.isSlice = false) (hplain : Plain ops)
    (hfit : NeverExceeds n ops) {outs : List (Out α)} {xs : List α}
    (hspec : SeqOp.run ops [] = .ok (outs, xs)) (hfull : xs.length = n)
    (x : α) (i : Nat) (hi : i ≤ n) (op : SeqOp α) (hop : op = .push x ∨ op = .insert i x) :
    ∃ f1 m1 f m ys, FVec.newIn n d m0 = .ok (f1, m1) ∧
      f1.run R nd (ops ++ [op]) m1 = .ok (outs ++ [.unit], f, m) ∧
      op.step xs = .ok (.unit, ys) ∧ f.vec.asSlice m = .ok ys ∧
      m.allocs = m0.allocs + 1 ∧ f.vec.capacity = .ok (2 * n) ∧ f.hasOverflowed = true := by
  obtain ⟨f1, m1, he1, hi1, hb1, hc1, ho1, _, ha1⟩ := FInvA.new hn m0 hd
  have hbeg : f1.vec.beginPtr = .loc f1.buf 0 := by simpa [FVec.hasOverflowed] using ho1
  obtain ⟨blk, hB⟩ := hi1.inv.ownAt hbeg
  obtain ⟨f, m, blk', he, hb, _, hp, hB', ha⟩ :=
    inline_run R nd n ops hi1.pool hB hops hplain hfit outs xs hspec
  have hA := fixedAllocator_lawful R f1.buf
  have hrun : ∀ (v' : Vec) (m' : Mem α),
      f.vec.step (fixedAllocator R f.pool) nd op m = .ok (.unit, v', m') →
      f1.run R nd (ops ++ [op]) m1 = .ok (outs ++ [.unit], { f with vec := v' }, m') := by
    intro v' m' hs
    have happ : ∀ (l : List (SeqOp α)) (g : FVec) (mm : Mem α) (os : List (Out α)),
        g.run R nd l mm = .ok (os, f, m) →
        g.run R nd (l ++ [op]) mm = .ok (os ++ [.unit], { f with vec := v' }, m') := by
      intro l
      induction l with
      | nil =>
        intro g mm os h
        cases h
        simp [FVec.run, FVec.step, hs]
      | cons a l ih =>
        intro g mm os h
        simp only [FVec.run] at h
        obtain ⟨⟨o1, g1, mm1⟩, h1, h2⟩ := Exec.bind_ok h
        obtain ⟨⟨os2, g2, mm2⟩, h3, h4⟩ := Exec.bind_ok h2
        cases h4
        simp [FVec.run, h1, ih g1 mm1 os2 h3]
    exact happ ops f1 m1 outs he
  have hnn : n ≠ 0 := by omega
  rcases hop with rfl | rfl
  · obtain ⟨v', m', b', bk, hpush, hinv, hef⟩ := hB'.inv.push hA x
    have hs : f.vec.step (fixedAllocator R f.pool) nd (.push x) m = .ok (.unit, v', m') := by
      rw [hp, hi1.pool]; simp [Vec.step, hpush]
    refine ⟨f1, m1, _, m', xs ++ [x], he1, hrun v' m' hs, rfl, hinv.inv.slice, ?_, ?_, ?_⟩
    · rw [hef.allocs, ha, ha1]; simp [hfull]
    · rw [hinv.inv.capacity]
      simp [growCap, hfull, Vec.calculateGrowCapacity, hnn, Nat.mul_comm]
    · have := hB'.inv.step_grown hA nd (.push x) (.inr (by simp [SeqOp.capAfter, hfull, hnn]; omega))
        (by rw [← hi1.pool, ← hp]; exact hs) (b := f1.buf) rfl
      simpa [FVec.hasOverflowed, hb] using this
  · have hi' : i ≤ xs.length := by omega
    obtain ⟨v', m', b', bk, hpush, hinv, hef⟩ := hB'.inv.insert hA x hi'
    have hs : f.vec.step (fixedAllocator R f.pool) nd (.insert i x) m = .ok (.unit, v', m') := by
      rw [hp, hi1.pool]; simp [Vec.step, hpush]
    rw [insertIdx_eq_take_drop x xs i hi'] at hinv
    refine ⟨f1, m1, _, m', xs.take i ++ x :: xs.drop i, he1, hrun v' m' hs, by
      simp [SeqOp.step, hi'], hinv.inv.slice, ?_, ?_, ?_⟩
    · rw [hef.allocs, ha, ha1]; simp [hfull]
    · rw [hinv.inv.capacity]
      simp [growCap, hfull, Vec.calculateGrowCapacity, hnn, Nat.mul_comm]
    · have := hB'.inv.step_grown hA nd (.insert i x)
        (.inr (by simp [SeqOp.capAfter, hfull, hnn]; omega))
        (by rw [← hi1.pool, ← hp]; exact hs) (b := f1.buf) rfl
      simpa [FVec.hasOverflowed, hb] using this

/-- The property asks for `n > 0` because constructing a `FixedVector` of 0 elements panics. -/
theorem fixed_vector_zero_panics (d : Nat) (m0 : Mem α) :
    FVec.newIn 0 d m0 = .error .panic := rfl

/-- A concrete case: two slots, filled, emptied by one, filled again, then spilled. -/
example : (do
    let (f, m) ← FVec.newIn 2 7 (Mem.empty : Mem Nat)
    let (_, f, m) ← f.run RawAlloc.bump true [.push 1, .insert 0 2, .pop, .push 3] m
    let a := f.hasOverflowed
    let (_, f, m) ← f.run RawAlloc.bump true [.insert 1 4] m
    let s ← f.vec.asSlice m
    .ok (a, f.hasOverflowed, s, m.allocs)) = (.ok (false, true, [2, 4, 3], 1) : Exec _) := rfl

example : NeverExceeds 2 ([.push 1, .insert 0 2, .pop, .push 3] : List (SeqOp Nat)) := by
  intro pre hpre os ys h
  simp only [List.prefix_cons_iff, List.prefix_nil] at hpre
  rcases hpre with rfl | ⟨_, rfl, rfl | ⟨_, rfl, rfl | ⟨_, rfl, rfl | ⟨_, rfl, rfl⟩⟩⟩⟩ <;>
    · cases h; decide

/-! ## C12 -/

/-- C12.  Whatever the history, before and after spilling, a `FixedVector` returns what the
mathematical sequence returns. -/
theorem C12_fixed_vector_refines_sequence (R : RawAlloc α) (nd : Bool) (n d : Nat) (hn : 0 < n)
    (m0 : Mem α) (hd : m0.live d = none) (ops : List (SeqOp α))
    (hops : nd = true → ∀ op ∈ ops, op.isSlice = false) :
    ∃ f1 m1, FVec.newIn n d m0 = .ok (f1, m1) ∧
      match SeqOp.run ops [] with
      | .error e => f1.run R nd ops m1 = .error e
      | .ok (outs, xs) => ∃ f m, f1.run R nd ops m1 = .ok (outs, f, m) ∧
          f.vec.asSlice m = .ok xs ∧ f.vec.len = .ok xs.length := by
  obtain ⟨f1, m1, he1, hi1, _⟩ := FInvA.new hn m0 hd
  refine ⟨f1, m1, he1, ?_⟩
  have hA := fixedAllocator_lawful R f1.buf
  rw [← hi1.pool] at hA
  have h := VInv.run hA nd ops hops hi1.inv
  rw [FVec.run_eq]
  cases hr : SeqOp.run ops [] with
  | error e => rw [hr] at h; simp only at h; simp [h, Except.map]
  | ok r =>
    obtain ⟨os, xs⟩ := r
    rw [hr] at h
    obtain ⟨v, m, ds, cap, he, hi, _, _⟩ := h
    exact ⟨_, m, by rw [he]; rfl, hi.slice, hi.len⟩

/-- A history across the overflow of a vector with two inline elements. -/
example : (Mem.empty : Mem Nat).live 7 = none ∧ (do
    let (f, m) ← FVec.newIn 2 7 (Mem.empty : Mem Nat)
    let (os, f, m) ← f.run RawAlloc.bump true
      [.push 1, .push 2, .insert 1 3, .pop, .push 4, .len, .remove 0] m
    let s ← f.vec.asSlice m
    .ok (os, s, f.hasOverflowed)) =
  (.ok ([.unit, .unit, .unit, .elem (some 2), .unit, .nat 3, .elem (some 1)], [3, 4], true) :
    Exec _) ∧
  SeqOp.run ([.push 1, .push 2, .insert 1 3, .pop, .push 4, .len, .remove 0] : List (SeqOp Nat)) [] =
    .ok ([.unit, .unit, .unit, .elem (some 2), .unit, .nat 3, .elem (some 1)], [3, 4]) :=
  ⟨rfl, rfl, rfl⟩

/-! ## C13 -/

/-- C13.  After any history the inline storage is still live (never handed to the overflow
allocator), and destroying the vector succeeds, drops exactly the remaining values and leaves
memory exactly as it was before the vector was created. -/
theorem C13_fixed_vector_memory (R : RawAlloc α) (nd : Bool) (n d : Nat) (hn : 0 < n)
    (m0 : Mem α) (hd : m0.live d = none) (ops : List (SeqOp α))
    (hops : nd = true → ∀ op ∈ ops, op.isSlice = false) {outs : List (Out α)} {xs : List α}
    (hspec : SeqOp.run ops [] = .ok (outs, xs)) :
    ∃ f1 m1 f m, FVec.newIn n d m0 = .ok (f1, m1) ∧ f1.run R nd ops m1 = .ok (outs, f, m) ∧
      m.live d ≠ none ∧
      ∃ m' drops, f.destroy R nd m = .ok m' ∧ m'.live = m0.live ∧
        m'.dropped = m0.dropped ++ drops ∧
        (nd = true → (ops.flatMap SeqOp.movedIn).Perm (outs.flatMap Out.movedOut ++ drops)) := by
  obtain ⟨f1, m1, he1, hi1, hb1, _, _, hdr1, _⟩ := FInvA.new hn m0 hd
  have hA := fixedAllocator_lawful R f1.buf
  rw [← hi1.pool] at hA
  have h := VInv.run hA nd ops hops hi1.inv
  rw [hspec] at h
  obtain ⟨v, m, ds, cap, he, hi, hds, hp⟩ := h
  have hrun : f1.run R nd ops m1 = .ok (outs, { f1 with vec := v }, m) := by
    rw [FVec.run_eq, he]; rfl
  refine ⟨f1, m1, { f1 with vec := v }, m, he1, hrun, by rw [← hb1]; exact hi.1 f1.buf rfl, ?_⟩
  obtain ⟨m2, hc, _, hw, _, _, hef⟩ := hi.clear hA nd
  refine ⟨m2.setBlock f1.buf none, ds ++ (if nd then xs else []), ?_, ?_, ?_, ?_⟩
  · simp [FVec.destroy, hc]
  · funext p
    by_cases hpb : p = f1.buf
    · subst hpb; simp [hi1.out]
    · simpa [hpb] using hw p hpb
  · simp [hef.dropped, hds, hdr1]
  · intro hnd
    subst hnd
    simpa using hp rfl

/-- C12 and C13 in a case: two slots, spilled, emptied, destroyed. -/
example : (do
    let (f, m) ← FVec.newIn 2 7 (Mem.empty : Mem Nat)
    let (os, f, m) ← f.run RawAlloc.bump true [.push 1, .push 2, .push 3, .pop, .remove 0, .slice] m
    let m' ← f.destroy RawAlloc.bump true m
    .ok (os, (m.live 7).isSome, (m'.live 7).isSome, m'.dropped)) =
  (.ok ([.unit, .unit, .unit, .elem (some 3), .elem (some 1), .list [2]], true, false, [2]) :
    Exec _) := rfl

/-! ## C14 -/

/-- C14 is false: whatever was done before and whatever is done later, a `clear` makes
`has_overflowed` true for good, although the vector need never have held an element. -/
theorem C14_clear_reports_overflow (R : RawAlloc α) (nd : Bool) (n d : Nat) (hn : 0 < n)
    (m0 : Mem α) (hd : m0.live d = none) (before later : List (SeqOp α))
    (hops : nd = true → ∀ op ∈ before ++ .clear :: later, op.isSlice = false)
    {outs : List (Out α)} {xs : List α}
    (hspec : SeqOp.run (before ++ .clear :: later) [] = .ok (outs, xs)) :
    ∃ f1 m1 f m, FVec.newIn n d m0 = .ok (f1, m1) ∧
      f1.run R nd (before ++ .clear :: later) m1 = .ok (outs, f, m) ∧ f.hasOverflowed = true := by
  obtain ⟨f1, m1, he1, hi1, hb1, hc1, ho1, _, ha1⟩ := FInvA.new hn m0 hd
  have hA := fixedAllocator_lawful R f1.buf
  rw [← hi1.pool] at hA
  have h := VInv.run hA nd _ hops hi1.inv
  rw [hspec] at h
  obtain ⟨v, m, ds, cap, he, hi, _, _⟩ := h
  refine ⟨f1, m1, { f1 with vec := v }, m, he1, by rw [FVec.run_eq, he]; rfl, ?_⟩
  have key : ∀ (ops : List (SeqOp α)) {v v' : Vec} {m m' : Mem α} {xs : List α} {cap : Nat}
      {outs : List (Out α)}, (nd = true → ∀ op ∈ ops, op.isSlice = false) →
      VInv (fun b => b = f1.buf) (fixedFits f1.buf) m0.live m v xs cap →
      v.run (fixedAllocator R f1.pool) nd ops m = .ok (outs, v', m') →
      (v.beginPtr ≠ .loc f1.buf 0 ∨ .clear ∈ ops) → v'.beginPtr ≠ .loc f1.buf 0 := by
    intro ops
    induction ops with
    | nil =>
      intro v v' m m' xs cap outs _ _ hr hc
      cases hr
      simpa using hc
    | cons op ops ih =>
      intro v v' m m' xs cap outs hops hi hr hc
      obtain ⟨⟨o, v1, m1⟩, h1, h2⟩ := Exec.bind_ok hr
      obtain ⟨⟨os, v2, m2⟩, h3, h4⟩ := Exec.bind_ok h2
      cases h4
      have hst := hi.step hA nd op (fun hn => hops hn op (by simp))
      cases hs : op.step xs with
      | error e => rw [hs] at hst; simp only at hst; rw [hst] at h1; cases h1
      | ok r =>
        obtain ⟨o', ys⟩ := r
        rw [hs] at hst
        obtain ⟨v3, m3, _, _, _, he3, hi3, _, _⟩ := hst
        rw [h1] at he3
        cases he3
        refine ih (fun hn op' h => hops hn op' (by simp [h])) hi3 h3 ?_
        by_cases hv : v1.beginPtr = .loc f1.buf 0
        · obtain ⟨g1, g2, _⟩ := hi.step_inline hA nd op (fun hn => hops hn op (by simp)) h1
            (b := f1.buf) rfl hv
          rcases hc with hc | hc
          · exact absurd g1 hc
          · rcases List.mem_cons.1 hc with rfl | hc
            · exact absurd rfl g2
            · exact .inr hc
        · exact .inl hv
  have := key _ hops hi1.inv he (.inr (by simp))
  simpa [FVec.hasOverflowed] using this

/-- The hypotheses are met by a vector that never holds more than one of four elements. -/
example : (do
    let (f, m) ← FVec.newIn 4 7 (Mem.empty : Mem Nat)
    let (_, f, m) ← f.run RawAlloc.bump true [.push 1, .clear] m
    let (_, f', _) ← f.run RawAlloc.bump true [.push 2] m
    .ok (f.hasOverflowed, f'.hasOverflowed)) = (.ok (true, true) : Exec _) := rfl

/-- What remains of C14: in a history without `clear`, `has_overflowed` is true only if at some
point the vector held more than `n` elements or room was reserved, which always takes the capacity
beyond `n`.  Missing: histories with `clear`, for which the claim is false. -/
theorem C14_has_overflowed_partial (R : RawAlloc α) (nd : Bool) (n d : Nat) (hn : 0 < n)
    (m0 : Mem α) (hd : m0.live d = none) (ops : List (SeqOp α))
    (hops : nd = true → ∀ op ∈ ops, op.isSlice = false) (hclear : .clear ∉ ops)
    {outs : List (Out α)} {xs : List α} (hspec : SeqOp.run ops [] = .ok (outs, xs))
    {f1 f : FVec} {m1 m : Mem α} (hnew : FVec.newIn n d m0 = .ok (f1, m1))
    (hrun : f1.run R nd ops m1 = .ok (outs, f, m)) (hov : f.hasOverflowed = true) :
    (∃ pre os ys, pre <+: ops ∧ SeqOp.run pre [] = .ok (os, ys) ∧ n < ys.length) ∨
      ∃ k, 0 < k ∧ .reserve k ∈ ops := by
  by_contra hcon
  have hplain : Plain ops := fun op hop => ⟨fun e => hclear (e ▸ hop),
    fun k hk e => hcon (.inr ⟨k, hk, e ▸ hop⟩)⟩
  have hfit : NeverExceeds n ops := by
    intro pre hpre os ys h
    by_contra hlt
    exact hcon (.inl ⟨pre, os, ys, hpre, h, by omega⟩)
  obtain ⟨f2, m2, f3, m3, h1, h2, _, _, h3, _⟩ :=
    C11_fixed_vector_stays_inline R nd n d hn m0 hd ops hops hplain hfit hspec
  rw [hnew] at h1
  cases h1
  rw [hrun] at h2
  cases h2
  rw [hov] at h3
  cases h3

/-- C14, exactly when `has_overflowed` is true: the vector once held more than `n` elements, or room
was reserved, or it was cleared.  The last is what the property excludes. -/
theorem C14_has_overflowed_iff (R : RawAlloc α) (nd : Bool) (n d : Nat) (hn : 0 < n)
    (m0 : Mem α) (hd : m0.live d = none) (ops : List (SeqOp α))
    (hops : nd = true → ∀ op ∈ ops, op.isSlice = false)
    {outs : List (Out α)} {xs : List α} (hspec : SeqOp.run ops [] = .ok (outs, xs)) :
    ∃ f1 m1 f m, FVec.newIn n d m0 = .ok (f1, m1) ∧ f1.run R nd ops m1 = .ok (outs, f, m) ∧
      (f.hasOverflowed = true ↔
        (∃ pre os ys, pre <+: ops ∧ SeqOp.run pre [] = .ok (os, ys) ∧ n < ys.length) ∨
        (∃ k, 0 < k ∧ .reserve k ∈ ops) ∨ .clear ∈ ops) := by
  obtain ⟨f1, m1, he1, hi1, hb1, hc1, ho1, _, ha1⟩ := FInvA.new hn m0 hd
  have hA := fixedAllocator_lawful R f1.buf
  rw [← hi1.pool] at hA
  have h := VInv.run hA nd _ hops hi1.inv
  rw [hspec] at h
  obtain ⟨v, m, ds, cap, he, hi, _, _⟩ := h
  have hrun : f1.run R nd ops m1 = .ok (outs, { f1 with vec := v }, m) := by
    rw [FVec.run_eq, he]; rfl
  refine ⟨f1, m1, { f1 with vec := v }, m, he1, hrun, ?_⟩
  -- a vector still inside has capacity `n`, and no call took it out
  have key : ∀ (ops : List (SeqOp α)) {v v' : Vec} {m m' : Mem α} {xs : List α}
      {outs : List (Out α)}, (nd = true → ∀ op ∈ ops, op.isSlice = false) →
      VInv (fun b => b = f1.buf) (fixedFits f1.buf) m0.live m v xs n →
      v.run (fixedAllocator R f1.pool) nd ops m = .ok (outs, v', m') →
      v'.beginPtr = .loc f1.buf 0 →
      (∀ pre os ys, pre <+: ops → SeqOp.run pre xs = .ok (os, ys) → ys.length ≤ n) ∧
      (∀ k, 0 < k → .reserve k ∉ ops) ∧ .clear ∉ ops := by
    intro ops
    induction ops with
    | nil =>
      intro v v' m m' xs outs _ hi _ _
      refine ⟨?_, by simp, by simp⟩
      intro pre os ys hpre hr
      rw [List.prefix_nil.1 hpre] at hr
      cases hr
      exact hi.len_le
    | cons op ops ih =>
      intro v v' m m' xs outs hops hi hr hv
      obtain ⟨⟨o, v1, m1⟩, h1, h2⟩ := Exec.bind_ok hr
      obtain ⟨⟨os, v2, m2⟩, h3, h4⟩ := Exec.bind_ok h2
      cases h4
      have hst := hi.step hA nd op (fun hn => hops hn op (by simp))
      cases hs : op.step xs with
      | error e => rw [hs] at hst; simp only at hst; rw [hst] at h1; cases h1
      | ok r =>
        obtain ⟨o', ys⟩ := r
        rw [hs] at hst
        obtain ⟨v3, m3, _, _, _, he3, hi3, _, _⟩ := hst
        rw [h1] at he3
        cases he3
        have hops' : nd = true → ∀ op ∈ ops, op.isSlice = false :=
          fun hn op' h => hops hn op' (by simp [h])
        have hv1 : v1.beginPtr = .loc f1.buf 0 := by
          by_contra hne
          exact VInv.run_out hA nd ops hops' hi3 (b := f1.buf) rfl h3 hne hv
        obtain ⟨g1, g2, g3⟩ := hi.step_inline hA nd op (fun hn => hops hn op (by simp)) h1
          (b := f1.buf) rfl hv1
        rw [g3] at hi3
        obtain ⟨q1, q2, q3⟩ := ih hops' hi3 h3 hv
        refine ⟨?_, ?_, ?_⟩
        · intro pre os' zs hpre hpr
          cases pre with
          | nil => cases hpr; exact hi.len_le
          | cons op' pre =>
            obtain ⟨rfl, hpre'⟩ := List.cons_prefix_cons.1 hpre
            simp only [SeqOp.run, hs] at hpr
            cases hq : SeqOp.run pre ys with
            | error e => rw [hq] at hpr; cases hpr
            | ok r =>
              rw [hq] at hpr
              cases hpr
              exact q1 pre _ _ hpre' hq
        · intro k hk hmem
          rcases List.mem_cons.1 hmem with rfl | hmem
          · simp [SeqOp.capAfter] at g3; omega
          · exact q2 k hk hmem
        · intro hmem
          rcases List.mem_cons.1 hmem with rfl | hmem
          · exact g2 rfl
          · exact q3 hmem
  constructor
  · intro hov
    by_cases hcl : .clear ∈ ops
    · exact .inr (.inr hcl)
    · rcases C14_has_overflowed_partial R nd n d hn m0 hd ops hops hcl hspec he1 hrun hov with h | h
      · exact .inl h
      · exact .inr (.inl h)
  · intro hcase
    by_contra hov
    have hv : v.beginPtr = .loc f1.buf 0 := by simpa [FVec.hasOverflowed] using hov
    obtain ⟨q1, q2, q3⟩ := key ops hops hi1.inv he hv
    rcases hcase with ⟨pre, os, ys, hp, hr, hl⟩ | ⟨k, hk, hm⟩ | hc
    · have := q1 pre os ys hp hr; omega
    · exact q2 k hk hm
    · exact q3 hc

/-- Two slots and three elements. -/
example : (do
    let (f, m) ← FVec.newIn 2 7 (Mem.empty : Mem Nat)
    let (_, f, m) ← f.run RawAlloc.bump true [.push 1, .push 2] m
    let (_, f', _) ← f.run RawAlloc.bump true [.push 3, .pop] m
    .ok (f.hasOverflowed, f'.hasOverflowed)) = (.ok (false, true) : Exec _) := rfl

/-- Reserving a single slot is enough. -/
example : (do
    let (f, m) ← FVec.newIn 2 7 (Mem.empty : Mem Nat)
    let (_, f, m) ← f.run RawAlloc.bump true [.push 1, .reserve 0] m
    let (_, f', _) ← f.run RawAlloc.bump true [.reserve 1] m
    .ok (f.hasOverflowed, f'.hasOverflowed)) = (.ok (false, true) : Exec _) := rfl

/-! ## C15 -/

/-- A fresh block from the default allocator is where the allocator chose. -/
theorem Vec.reserve_begin {R : RawAlloc α} {k cap : Nat} {v v' : Vec} {m m' : Mem α} (hk : 0 < k)
    (hc : v.capacity = .ok cap) (h : v.reserve (defaultAllocator R) k m = .ok (v', m')) :
    v'.beginPtr = .loc (R.pick m (cap + k)) 0 := by
  have h0 : k ≠ 0 := by omega
  have h1 : cap + k ≠ 0 := by omega
  unfold Vec.reserve at h
  rw [if_neg h0] at h
  obtain ⟨size, _, h⟩ := Exec.bind_ok h
  obtain ⟨cap', h2, h⟩ := Exec.bind_ok h
  rw [hc] at h2
  cases h2
  obtain ⟨⟨nb, m1⟩, h2, h⟩ := Exec.bind_ok h
  simp only [defaultAllocator, if_neg h1, Except.ok.injEq] at h2
  cases h2
  obtain ⟨m2, _, h⟩ := Exec.bind_ok h
  obtain ⟨e, _, h⟩ := Exec.bind_ok h
  obtain ⟨c, _, h⟩ := Exec.bind_ok h
  cases h
  rfl

/-- C15 is false.  Take any vector that has overflowed and was moved, the old object being gone.
If it has to grow and the overflow allocator returns the address where the old buffer was (`d`,
which is free), then that block is taken for the inline buffer and never freed: it is still live
after the vector was destroyed. -/
theorem C15_moved_vector_leaks (R : RawAlloc α) (nd : Bool) (n d : Nat) (hn : 0 < n)
    (m0 : Mem α) (hd : m0.live d = none) (ops : List (SeqOp α)) (g : Ptr)
    (hops : nd = true → ∀ op ∈ ops, op.isSlice = false)
    {outs : List (Out α)} {xs : List α} (hspec : SeqOp.run ops [] = .ok (outs, xs))
    {f1 f f' : FVec} {m1 m m' : Mem α} (hnew : FVec.newIn n d m0 = .ok (f1, m1))
    (hrun : f1.run R nd ops m1 = .ok (outs, f, m)) (hov : f.hasOverflowed = true)
    (d' : Nat) (hd' : m.live d' = none) (hmove : f.moveTo R nd g d' m = .ok (f', m'))
    {cap k : Nat} (hcap : f'.vec.capacity = .ok cap) (hk : 0 < k)
    (hpick : R.pick m' (cap + k) = d) :
    m'.live d = none ∧
    ∃ f'' m'' m3 blk, f'.run R nd [.reserve k] m' = .ok ([.unit], f'', m'') ∧
      f''.vec.asSlice m'' = .ok xs ∧ f''.destroy R nd m'' = .ok m3 ∧
      m3.dropped = m.dropped ++ (if nd then xs else []) ∧
      m3.live d = some blk ∧ blk.region = .heap ∧ blk.size = cap + k := by
  refine ⟨hpick ▸ R.fresh m' (cap + k), ?_⟩
  obtain ⟨f0, m0', he1, hi1, hb1, hc1, _, _, _⟩ := FInvA.new hn m0 hd
  rw [hnew] at he1
  cases he1
  have h := hi1.run R nd ops hops
  rw [hspec] at h
  obtain ⟨f2, m2, ds, cap0, he, hb, hc, hi, _, _⟩ := h
  rw [hrun] at he
  cases he
  have hfd : f.buf = d := by rw [hb, hb1]
  have hbp : f.vec.beginPtr ≠ .loc f.buf 0 := by simpa [FVec.hasOverflowed] using hov
  rw [moveTo_overflowed R nd g d' f m hov] at hmove
  cases hmove
  obtain ⟨hkeep, w', hw, hr⟩ := hi.inv
  have hne : d' ≠ f.buf := fun e => hkeep f.buf rfl (e ▸ hd')
  have hbuf : w' f.buf ≠ none := by
    rcases hr with hr | ⟨b, blk, hr⟩
    · rw [← hr.live]; exact hkeep _ rfl
    · have hbb : f.buf ≠ b := fun e => hbp (by rw [hr.ptrs, e])
      have := hkeep f.buf rfl
      rw [hr.live] at this
      simpa [hbb] using this
  have hst := overflowed_update (n := f.count) (e := f.buf) (s := f.buf) hr hd' hbuf (by
    rintro b size region n ⟨hs, ⟨rfl, hrg⟩ | ⟨hx, hrg⟩⟩ hv
    · exact absurd hv hbp
    · exact ⟨hs, hx, hrg⟩)
  have hcc : cap0 = cap := by
    have := hst.capacity
    rw [show f.vec.capacity = .ok cap from hcap] at this
    cases this
    rfl
  subst hcc
  -- growing works as with the default allocator
  have hst2 : VInv (fun _ => False) defaultFits (Function.update (Function.update w' d'
      (some ⟨f.count, .inline, fun _ => none⟩)) f.buf none)
      ((FVec.storage f.count d' m).setBlock f.buf none) f.vec xs cap0 := by
    obtain ⟨h1, w2, h2, h3 | ⟨b, blk, h3⟩⟩ := hst
    · exact ⟨h1, w2, h2, .inl h3⟩
    · exact ⟨h1, w2, h2, .inr ⟨b, blk, h3.fresh, h3.live, ⟨h3.fit.2.2, h3.fit.1⟩, h3.cap_le,
        h3.len_le, h3.cells, h3.ptrs⟩⟩
  have hA : ∀ mm : Mem α, f.vec.reserve (fixedAllocator R f.pool) k mm =
      f.vec.reserve (defaultAllocator R) k mm := by
    intro mm
    unfold Vec.reserve fixedAllocator
    rw [hi.pool]
    simp only [hbp, if_false]
  obtain ⟨v2, m2, b', blk', fr, hre, hB, _, _, _, hfree, hef⟩ :=
    hst2.reserve (defaultAllocator_lawful R) hk
  have hv2 := Vec.reserve_begin hk hcap hre
  obtain ⟨_, w3, hw3, hown⟩ := hB
  have hb' : b' = f.buf := by
    rw [hown.ptrs] at hv2
    have := (Ptr.loc.inj hv2).1
    rw [this, hpick, hfd]
  subst hb'
  have hdrop := Mem.dropRange_ok nd xs 0 m2 hown.live_b
    (by have := hown.len_le; have := hown.cap_le; omega) (by simpa using hown.cells)
  have hfit := hown.fit
  refine ⟨⟨v2, f.pool, d', f.count⟩, m2,
    ({ m2 with dropped := m2.dropped ++ if nd then xs else [] } : Mem α).setBlock d' none, blk', ?_, hown.slice, ?_, ?_, ?_, hfit.1, hfit.2⟩
  · simp [FVec.run, FVec.step, Vec.step, hA, hre]
  · simp only [FVec.destroy, Vec.clear, hown.rep.len, hown.rep.capacity, hown.begin_ne, if_false,
      Exec.ok_bind]
    rw [show v2.beginPtr = .loc f.buf 0 by rw [hown.ptrs], hdrop]
    simp only [Exec.ok_bind, fixedAllocator, hi.pool, if_true]
  · show m2.dropped ++ _ = _
    rw [hef.dropped]
    simp [FVec.storage]
  · rw [← hfd]
    simpa [hne, hne.symm] using hown.live_b

/-- Such an allocator: it returns 7 whenever 7 is free.  A vector of one slot overflows, is moved
from 7 to 20, grows, and is destroyed: block 7 is still live. -/
example :
    ∃ R : RawAlloc Nat, (do
      let (f, m) ← FVec.newIn 1 7 (Mem.empty : Mem Nat)
      let (_, f, m) ← f.run R true [.push 1, .push 2] m
      let (f, m) ← f.moveTo R true .null 20 m
      let (_, f, m) ← f.run R true [.reserve 2] m
      let s ← f.vec.asSlice m
      let m ← f.destroy R true m
      .ok (s, (m.live 7).isSome, m.dropped)) = (.ok ([1, 2], true, [1, 2]) : Exec _) := by
  refine ⟨⟨fun m _ => if m.live 7 = none then 7 else m.bound, ?_⟩, ?_⟩
  · intro m n
    by_cases h : m.live 7 = none
    · simp [h]
    · simpa [h] using m.bound_ok m.bound (Nat.le_refl _)
  · rfl

/-- C15 for a vector that still uses its inline storage: it can be moved to any free storage,
contents, capacity and `has_overflowed = false` are preserved, ending the source's life does
nothing but release its storage, and after any later history everything is released exactly
once. -/
theorem C15_move_inline_partial (R : RawAlloc α) (nd : Bool) (n d : Nat) (hn : 0 < n)
    (m0 : Mem α) (hd : m0.live d = none) (ops later : List (SeqOp α)) (g : Ptr)
    (hops : nd = true → ∀ op ∈ ops ++ later, op.isSlice = false)
    {outs : List (Out α)} {xs : List α} (hspec : SeqOp.run ops [] = .ok (outs, xs))
    {f1 f : FVec} {m1 m : Mem α} (hnew : FVec.newIn n d m0 = .ok (f1, m1))
    (hrun : f1.run R nd ops m1 = .ok (outs, f, m)) (hin : f.hasOverflowed = false)
    (d' : Nat) (hd' : m.live d' = none)
    {outs' : List (Out α)} {ys : List α} (hspec' : SeqOp.run later xs = .ok (outs', ys)) :
    ∃ f' m', f.moveTo R nd g d' m = .ok (f', m') ∧ f'.vec.asSlice m' = .ok xs ∧
      f'.vec.capacity = .ok n ∧ f'.hasOverflowed = false ∧ m'.dropped = m.dropped ∧
      ∃ f'' m'' m3 drops, f'.run R nd later m' = .ok (outs', f'', m'') ∧
        f''.vec.asSlice m'' = .ok ys ∧ f''.destroy R nd m'' = .ok m3 ∧ m3.live = m0.live ∧
        m3.dropped = m'.dropped ++ drops ∧
        (nd = true → (xs ++ later.flatMap SeqOp.movedIn).Perm
          (outs'.flatMap Out.movedOut ++ drops)) := by
  obtain ⟨f0, m0', he1, hi1, hb1, hc1, _, _, _⟩ := FInvA.new hn m0 hd
  rw [hnew] at he1
  cases he1
  have h := hi1.run R nd ops (fun hnd op ho => hops hnd op (by simp [ho]))
  rw [hspec] at h
  obtain ⟨f2, m2, ds, cap, he, hb, hc, hi, _, _⟩ := h
  rw [hrun] at he
  cases he
  have hcap : cap = n := by
    rw [hi.inl (by simpa [FVec.hasOverflowed] using hin), hc, hc1]
  subst hcap
  obtain ⟨f', m', hm, hi', hb', hc', ho', hd2⟩ := hi.move_inline R nd g hd' hin
  refine ⟨f', m', hm, hi'.inv.slice, hi'.inv.capacity, ho', hd2, ?_⟩
  have h := hi'.run R nd later (fun hnd op ho => hops hnd op (by simp [ho]))
  rw [hspec'] at h
  obtain ⟨f3, m3, ds3, cap3, he3, hb3, hc3, hi3, hds3, hp3⟩ := h
  obtain ⟨m4, hde, hl, hdd⟩ := FInv.destroy (R := R) nd (.inl hi3)
  refine ⟨f3, m3, m4, ds3 ++ (if nd then ys else []), he3, hi3.inv.slice, hde, hl, ?_, ?_⟩
  · rw [hdd, hds3, List.append_assoc]
  · intro hnd
    subst hnd
    have := List.perm_append_comm.trans (hp3 rfl)
    simpa using this

/-- C15 for whole lives: calls and moves in any order, to any free storage.  If the overflow
allocator never returns the address of a current or former inline buffer, then the results
are those of the mathematical sequence, and destroying the vector at the end releases exactly
what is left.  Missing: without that assumption an overflowed and moved vector can leak
(`C15_moved_vector_leaks`). -/
theorem C15_fixed_vector_life_partial (R P : RawAlloc α) (nd : Bool) (n d : Nat) (hn : 0 < n)
    (m0 : Mem α) (hd : m0.live d = none) (g : Ptr) (evs : List (FVec.Ev α))
    (hops : nd = true → ∀ op ∈ FVec.Ev.calls evs, op.isSlice = false)
    (hRd : ∀ m k, R.pick m k ≠ d) (hRP : ∀ m k m' k', R.pick m k ≠ P.pick m' k') :
    ∃ f1 m1, FVec.newIn n d m0 = .ok (f1, m1) ∧
      match SeqOp.run (FVec.Ev.calls evs) [] with
      | .error e => FVec.live R P nd g evs f1 m1 = .error e
      | .ok (outs, xs) => ∃ f m, FVec.live R P nd g evs f1 m1 = .ok (outs, f, m) ∧
          f.vec.asSlice m = .ok xs ∧
          ∃ m' drops, f.destroy R nd m = .ok m' ∧ m'.live = m0.live ∧
            m'.dropped = m0.dropped ++ drops ∧
            (nd = true → ((FVec.Ev.calls evs).flatMap SeqOp.movedIn).Perm
              (outs.flatMap Out.movedOut ++ drops)) := by
  obtain ⟨f1, m1, he1, hi1, hb1, _, _, hdr1, _⟩ := FInvA.new hn m0 hd
  refine ⟨f1, m1, he1, ?_⟩
  have h := FInv.life (R := R) P nd g hRP evs hops (by rw [hb1]; exact hRd) (.inl hi1)
  cases hr : SeqOp.run (FVec.Ev.calls evs) [] with
  | error e => rw [hr] at h; exact h
  | ok r =>
    obtain ⟨os, xs⟩ := r
    rw [hr] at h
    obtain ⟨f, m, ds, cap, he, hi, hds, hp⟩ := h
    obtain ⟨m', hde, hl, hdd⟩ := hi.destroy nd
    refine ⟨f, m, he, hi.slice, m', ds ++ (if nd then xs else []), hde, hl, ?_, ?_⟩
    · rw [hdd, hds, hdr1, List.append_assoc]
    · intro hnd
      subst hnd
      simpa using hp rfl

/-- Heap and object storage from disjoint ranges of addresses: even and odd. -/
def evenAlloc : RawAlloc α :=
  ⟨fun m _ => 2 * m.bound, fun m _ => m.bound_ok _ (by omega)⟩
def oddAlloc : RawAlloc α :=
  ⟨fun m _ => 2 * m.bound + 1, fun m _ => m.bound_ok _ (by omega)⟩

example : (∀ (m : Mem Nat) k, evenAlloc.pick m k ≠ 7) ∧
    ∀ (m : Mem Nat) k (m' : Mem Nat) k', evenAlloc.pick m k ≠ oddAlloc.pick m' k' := by
  refine ⟨fun m k => ?_, fun m k m' k' => ?_⟩ <;> simp only [evenAlloc, oddAlloc] <;> omega

/-- Moved while inline, overflowed, moved again, used again. -/
example : (do
    let (f, m) ← FVec.newIn 2 7 (Mem.empty : Mem Nat)
    let (_, f, m) ← FVec.live evenAlloc oddAlloc true .null
      [.call (.push 1), .move, .call (.push 2), .call (.push 3), .move, .call (.remove 0),
       .call (.push 4), .call (.push 5), .call (.push 6)] f m
    let s ← f.vec.asSlice m
    let m ← f.destroy evenAlloc true m
    .ok (s, m.dropped)) = (.ok ([2, 3, 4, 5, 6], [2, 3, 4, 5, 6]) : Exec _) := rfl

end Verif
