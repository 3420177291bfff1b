import Verif.Machine.VectorProofs
import Verif.Machine.FixedVector
import Verif.Vector.Iter
import Verif.FixedVector.Proofs

/-!
# Properties C83-C86: `Vector` on a 64-bit machine

`size` and `align` are the layout of the element type, `B` is the build mode.  The system
allocator never runs out of memory in C83 and C84 (`R.total`) and does in C85.
-/

set_option autoImplicit false

namespace Verif
open Spec

variable {α : Type}

/-! ## C83 -/

/-- C83.  As long as every capacity asked for can exist in the address space, every history on
an empty vector, compiled with or without overflow checks, with byte sizes and `usize`
arithmetic, returns what the history on a mathematical sequence returns; dropping the vector afterwards
succeeds, leaves memory as it was, and drops every element that was not handed out, once. -/
theorem C83_machine_vector (B : Build) {size align : Nat} (hT : TypeLayout size align)
    (R : RawAlloc α) (nd : Bool) (m0 : Mem α) (ops : List (SeqOp α))
    (hops : nd = true → ∀ op ∈ ops, op.isSlice = false)
    (hfit : ∀ c ∈ SeqOp.caps ops [] 0, Representable size align c) :
    match SeqOp.run ops [] with
    | .error e =>
      Vec.runM B (byteAllocator B size align R.total) nd ops Vec.new m0 = .error e
    | .ok (outs, xs) => ∃ v m,
        Vec.runM B (byteAllocator B size align R.total) nd ops Vec.new m0 = .ok (outs, v, m) ∧
        v.asSlice m = .ok xs ∧ v.len = .ok xs.length ∧
        ∃ v' m' drops, v.clear (byteAllocator B size align R.total) nd m = .ok (v', m') ∧
          m'.live = m0.live ∧ m'.dropped = m0.dropped ++ drops ∧
          (nd = true → (ops.flatMap SeqOp.movedIn).Perm (outs.flatMap Out.movedOut ++ drops)) := by
  have h := VInv.run (defaultAllocator_lawful R) nd ops hops (VInv.new defaultFits m0)
  have hdl : ∀ c, Representable size align c → ∀ (p : Ptr) (m : Mem α),
      (byteAllocator B size align R.total).dealloc p c m = (defaultAllocator R).dealloc p c m :=
    fun c hc p m => byteAllocator_dealloc B hT R.total R hc p m
  obtain ⟨heq, hend⟩ := runM_agree B (P := Representable size align) (fun c hc => hT.rep_lt hc)
    (fun c h0 hc m => byteAllocator_alloc B hT R h0 hc m) hdl (defaultAllocator_lawful R) nd ops hops
    (VInv.new defaultFits m0) (by simp [Representable]) hfit
  rw [heq]
  cases hr : SeqOp.run ops [] with
  | error e => rw [hr] at h; exact h
  | ok r =>
    obtain ⟨os, xs⟩ := r
    rw [hr] at h
    obtain ⟨v, m, ds, cap, he, hi, hds, hp⟩ := h
    refine ⟨v, m, he, hi.slice, hi.len, ?_⟩
    obtain ⟨xs', cap', hi', hcap'⟩ := hend _ _ _ he
    obtain ⟨m2, hc, _, hw, _, _, hef⟩ := hi.clear (defaultAllocator_lawful R) nd
    refine ⟨⟨.null, .null, .null⟩, m2, ds ++ (if nd then xs else []), ?_, ?_, ?_, ?_⟩
    · rw [clear_agree hdl nd hi' hcap', hc]
    · funext p
      exact hw p id
    · simp [hef.dropped, hds]
    · intro hnd
      subst hnd
      simpa using hp rfl

/-- C83, sizes.  A typed allocation that does not panic in a debug build asks the system for
exactly `n` elements' worth of bytes with the element's alignment, and a typed deallocation of
the same `n` elements gives back that very layout. -/
theorem C83_layouts_agree {size align : Nat} (n : Nat) {l : Layout}
    (h : Build.debug.allocLayout size align n = .ok l) :
    l.size = n * size ∧ l.align = align ∧ Build.debug.deallocLayout size align n = .ok l := by
  unfold Build.allocLayout at h
  unfold Build.deallocLayout
  rcases OrPanic.usize (n * size) with h1 | h1
  · rw [h1] at h ⊢
    simp only [Exec.ok_bind] at h ⊢
    by_cases h0 : n * size = 0
    · simp [h0] at h
    · simp only [h0, if_false] at h
      refine ⟨?_, ?_, h⟩
      all_goals
        unfold Layout.bytes Layout.alignTo at h
        by_cases h2 : n * size < 2 ^ 63
        · simp only [h2, if_true, Exec.ok_bind] at h
          split at h
          · rename_i h3
            obtain ⟨⟨k, _, hk⟩, _⟩ := h3
            have : 0 < align := by rw [hk]; exact Nat.pow_pos (by omega)
            cases h
            first | rfl | (show max 1 align = align; omega)
          · cases h
        · simp only [h2, if_false, Exec.error_bind] at h
          cases h
  · rw [h1] at h
    cases h

/-- C83 without the limit, in a debug build: the history returns what the sequence returns or
panics, and so does dropping the vector.  There is never undefined behaviour. -/
theorem C83_debug_vector {size : Nat} (hsize : 0 < size) (align : Nat) (R : RawAlloc α)
    (nd : Bool) (m0 : Mem α) (ops : List (SeqOp α))
    (hops : nd = true → ∀ op ∈ ops, op.isSlice = false) :
    Vec.runM .debug (byteAllocator .debug size align R.total) nd ops Vec.new m0 = .error .panic ∨
    ∃ outs xs v m, SeqOp.run ops [] = .ok (outs, xs) ∧
      Vec.runM .debug (byteAllocator .debug size align R.total) nd ops Vec.new m0 =
        .ok (outs, v, m) ∧ v.asSlice m = .ok xs ∧
      (v.clear (byteAllocator .debug size align R.total) nd m = .error .panic ∨
        ∃ v' m' drops, v.clear (byteAllocator .debug size align R.total) nd m = .ok (v', m') ∧
          m'.live = m0.live ∧ m'.dropped = m0.dropped ++ drops ∧
          (nd = true → (ops.flatMap SeqOp.movedIn).Perm (outs.flatMap Out.movedOut ++ drops))) := by
  have h := VInv.run (defaultAllocator_lawful R) nd ops hops (VInv.new defaultFits m0)
  rcases runM_orPanic hsize align R nd ops Vec.new m0 with h1 | h1
  · cases hr : SeqOp.run ops [] with
    | error e =>
      rw [hr] at h
      refine .inl (h1.trans (Eq.trans h ?_))
      have : ∀ (ops : List (SeqOp α)) (xs : List α), SeqOp.run ops xs = .error e → e = .panic := by
        intro ops
        induction ops with
        | nil => intro xs hx; cases hx
        | cons op ops ih =>
          intro xs hx
          unfold SeqOp.run at hx
          cases hs : op.step xs with
          | error e' =>
            rw [hs] at hx
            cases hx
            cases op <;> simp only [SeqOp.step] at hs <;> try cases hs
            all_goals
              split at hs <;> cases hs
              rfl
          | ok r =>
            obtain ⟨o, ys⟩ := r
            rw [hs] at hx
            simp only [] at hx
            cases hr2 : SeqOp.run ops ys with
            | error e' => rw [hr2] at hx; cases hx; exact ih ys hr2
            | ok r2 => rw [hr2] at hx; cases hx
      rw [this ops [] hr]
    | ok r =>
      obtain ⟨os, xs⟩ := r
      rw [hr] at h
      obtain ⟨v, m, ds, cap, he, hi, hds, hp⟩ := h
      refine .inr ⟨os, xs, v, m, rfl, h1.trans he, hi.slice, ?_⟩
      rcases clear_cautious (fun p n m => byteDealloc_orPanic hsize align R p n m) nd v m with h2 | h2
      · obtain ⟨m2, hc, _, hw, _, _, hef⟩ := hi.clear (defaultAllocator_lawful R) nd
        refine .inr ⟨⟨.null, .null, .null⟩, m2, ds ++ (if nd then xs else []), h2.trans hc, ?_, ?_, ?_⟩
        · funext p
          exact hw p id
        · simp [hef.dropped, hds]
        · intro hnd
          subst hnd
          simpa using hp rfl
      · exact .inl h2
  · exact .inl h1

/-- `u64`. -/
theorem u64_layout : TypeLayout 8 8 := ⟨by omega, ⟨3, by omega, rfl⟩, ⟨1, rfl⟩, by omega⟩

/-- The history of C01 fits for `u64` elements, with capacities up to 6. -/
example : SeqOp.caps
    [.push 1, .push 2, .insert 0 3, .append [4, 5, 6], .remove 1, .assign [7], .clear, .push 8]
    ([] : List Nat) 0 = [1, 2, 4, 6, 6, 6, 0, 1] := rfl
example : ∀ c ∈ [1, 2, 4, 6, 6, 6, 0, 1], Representable 8 8 c := by
  unfold Representable; decide

example : (do
    let (_, v, m) ← Vec.runM .release (byteAllocator .release 8 8 RawAlloc.bump.total) false
      [.push 1, .push 2, .insert 0 3, .append [4, 5, 6], .remove 1] Vec.new Mem.empty
    v.asSlice m) = .ok [3, 2, 4, 5, 6] := by decide +kernel

/-- A request too large for the address space panics in a debug build. -/
example : (Vec.runM .debug (byteAllocator .debug 8 8 RawAlloc.bump.total) false
    [.push 1, .reserve (2 ^ 60)] Vec.new (Mem.empty (α := Nat))).map (fun _ => ()) = .error .panic := by
  decide +kernel

/-! ## C84 -/

/-- The wrapped product of an element count and an element size: as many elements as make the
byte count pass `2^64` by as little as possible. -/
theorem wrapping_count {size : Nat} (h2 : 2 ≤ size) (hs : size ≤ 2 ^ 62) :
    ∃ n < 2 ^ 64, 2 ^ 64 ≤ n * size ∧ 0 < n * size % 2 ^ 64 ∧ n * size % 2 ^ 64 ≤ size := by
  have hd := Nat.div_add_mod (2 ^ 64) size
  have hm := Nat.mod_lt (2 ^ 64) (show 0 < size by omega)
  have hq : 2 ^ 64 / size ≤ 2 ^ 63 := by
    have := Nat.div_le_div_left h2 (show 0 < 2 by omega) (a := 2 ^ 64)
    omega
  refine ⟨2 ^ 64 / size + 1, by omega, ?_, ?_, ?_⟩
  all_goals
    rw [Nat.add_mul, Nat.mul_comm, Nat.one_mul]
    generalize size * (2 ^ 64 / size) = p at *
  · omega
  · rw [show p + size = (size - 2 ^ 64 % size) + 2 ^ 64 by omega, Nat.add_mod_right,
      Nat.mod_eq_of_lt (by omega)]
    omega
  · rw [show p + size = (size - 2 ^ 64 % size) + 2 ^ 64 by omega, Nat.add_mod_right,
      Nat.mod_eq_of_lt (by omega)]
    omega

/-- C84 fails in release builds.  For every element type of at least two bytes there is a
capacity for which `with_capacity` does not panic: the byte count wraps around, the system is
asked for at most one element's worth of memory, and the vector's capacity pointer leaves the
block, which is undefined behaviour. -/
theorem C84_release_with_capacity_ub {size align : Nat} (hT : TypeLayout size align)
    (h2 : 2 ≤ size) (hs : size ≤ 2 ^ 62) (R : RawAlloc α) (m : Mem α) :
    ∃ n < 2 ^ 64, ¬ Representable size align n ∧
      (∃ l, Build.release.allocLayout size align n = .ok l ∧ l.size ≤ size) ∧
      Vec.withCapacityM .release (byteAllocator .release size align R.total) n m = .error .ub := by
  obtain ⟨n, hn, hover, hpos, hle⟩ := wrapping_count h2 hs
  have ha := hT.align_le
  have ha0 := hT.align_pos
  have hn0 : n ≠ 0 := by rintro rfl; omega
  have hlay : Build.release.allocLayout size align n = .ok ⟨n * size % 2 ^ 64, align⟩ := by
    have h1 : ¬ n * size < 2 ^ 64 := by omega
    have h3 : n * size % 2 ^ 64 ≠ 0 := by omega
    simp only [Build.allocLayout, Build.usize, h1, if_false, Exec.ok_bind, h3]
    exact layout_ok hT (by omega)
  have hn2 : 2 ≤ n := by
    rcases Nat.lt_or_ge n 2 with h | h
    · have : n * size ≤ 1 * size := Nat.mul_le_mul_right _ (by omega)
      omega
    · exact h
  refine ⟨n, hn, ?_, ⟨_, hlay, hle⟩, ?_⟩
  · unfold Representable; omega
  · have hq : n * size % 2 ^ 64 / size ≤ 1 :=
      Nat.div_le_of_le_mul (by omega)
    have hcap : ¬ n ≤ n * size % 2 ^ 64 / size := by omega
    simp only [Vec.withCapacityM, Vec.reserveM, hn0, if_false, Vec.new, Vec.len, Vec.capacity,
      Ptr.offsetFrom, Exec.ok_bind, Nat.zero_add, Build.usize_ok .release hn, byteAllocator, hlay,
      RawAlloc.total, Bool.false_eq_true, RawAlloc.alloc, if_true, Mem.ptrAdd, Mem.setBlock,
      Function.update_self, Nat.zero_le, hcap, Exec.error_bind]

/-- C84 fails in release builds, for `reserve` as well.  Let a reachable vector have length
`len` and capacity `cap`.  For every `k` with `cap - len < k < cap`, the call
`reserve(2^64 - k)` computes the new capacity `cap - k`, which is less than the length, and
copies `len` elements into it: undefined behaviour. -/
theorem C84_release_reserve_ub {size align : Nat} (hT : TypeLayout size align) (R : RawAlloc α)
    (nd : Bool) (m0 : Mem α) (ops : List (SeqOp α))
    (hops : nd = true → ∀ op ∈ ops, op.isSlice = false)
    (hfit : ∀ c ∈ SeqOp.caps ops [] 0, Representable size align c)
    {outs : List (Out α)} {v : Vec} {m : Mem α} {len cap k : Nat}
    (hrun : Vec.runM .release (byteAllocator .release size align R.total) nd ops Vec.new m0 =
      .ok (outs, v, m))
    (hl : v.len = .ok len) (hc : v.capacity = .ok cap) (hrep : Representable size align cap)
    (hk : cap - len < k) (hk' : k < cap) :
    v.reserveM .release (byteAllocator .release size align R.total) (2 ^ 64 - k) m =
      .error .ub := by
  rw [runM_eq .release hT R nd ops hops (VInv.new defaultFits m0) (by simp [Representable]) hfit]
    at hrun
  have h := VInv.run (defaultAllocator_lawful R) nd ops hops (VInv.new defaultFits m0)
  have hcap := hT.rep_lt hrep
  have hi : ∃ xs cap', VInv (fun _ => False) defaultFits m0.live m v xs cap' := by
    cases hr : SeqOp.run ops [] with
    | error e => rw [hr] at h; simp only [] at h; rw [h] at hrun; cases hrun
    | ok r =>
      obtain ⟨os, xs⟩ := r
      rw [hr] at h
      obtain ⟨v', m', ds, cap', he, hi, _, _⟩ := h
      rw [he] at hrun
      cases hrun
      exact ⟨xs, cap', hi⟩
  obtain ⟨xs, cap', hi⟩ := hi
  have hle : len ≤ cap := by
    have h1 := hi.len.symm.trans hl
    have h2 := hi.capacity.symm.trans hc
    cases h1; cases h2
    exact hi.len_le
  have hb : v.beginPtr ≠ .null := by
    intro hb
    have hl' := hl
    have hc' := hc
    unfold Vec.len at hl'
    unfold Vec.capacity at hc'
    rw [hb] at hc'
    cases hp : v.capPtr with
    | null =>
      rw [hp] at hc'
      simp only [Ptr.offsetFrom, Except.ok.injEq] at hc'
      omega
    | loc b o => rw [hp] at hc'; cases hc'
  have hw : cap + (2 ^ 64 - k) = (cap - k) + 2 ^ 64 := by omega
  have h0 : 2 ^ 64 - k ≠ 0 := by omega
  have hus : Build.release.usize (cap + (2 ^ 64 - k)) = .ok (cap - k) := by
    have h1 : ¬ cap + (2 ^ 64 - k) < 2 ^ 64 := by omega
    simp only [Build.usize, h1, if_false]
    rw [hw, Nat.add_mod_right, Nat.mod_eq_of_lt (by omega)]
  have hrep' : Representable size align (cap - k) :=
    Nat.le_trans (Nat.mul_le_mul_right _ (by omega)) hrep
  have h1 : cap - k ≠ 0 := by omega
  have h2 : ¬ len ≤ cap - k := by omega
  have hcopy : ∀ (b : Nat) (m' : Mem α) (t : Block α), m'.live b = some t → t.size = cap - k →
      m'.copy v.beginPtr (.loc b 0) len = .error .ub := by
    intro b m' t ht hsz
    unfold Mem.copy
    cases v.beginPtr with
    | null => rfl
    | loc sb so =>
      cases hsb : m'.live sb with
      | none => simp only [hsb]
      | some blk => simp only [hsb, ht, Nat.zero_add, hsz, h2, and_false, if_false]
  simp only [Vec.reserveM, h0, if_false, hl, hc, Exec.ok_bind, hus,
    byteAllocator_alloc .release hT R (show 0 < cap - k by omega) hrep', defaultAllocator, h1,
    RawAlloc.alloc, hb]
  rw [hcopy (R.pick m (cap - k)) _ ⟨cap - k, .heap, fun _ => none⟩ (by simp [Mem.setBlock]) rfl]
  rfl

/-- Instance: a full vector of four `u64` and `reserve(usize::MAX)`. -/
example : (do
    let (_, v, m) ← Vec.runM .release (byteAllocator .release 8 8 RawAlloc.bump.total) false
      [.append [1, 2, 3, 4]] Vec.new (Mem.empty (α := Nat))
    v.reserveM .release (byteAllocator .release 8 8 RawAlloc.bump.total) (2 ^ 64 - 1) m).map
      (fun _ => ()) = .error .ub := by decide +kernel

/-- Instance: `with_capacity(2^61 + 1)` for `u64`. -/
example : (Vec.withCapacityM .release (byteAllocator .release 8 8 RawAlloc.bump.total)
    (2 ^ 61 + 1) (Mem.empty (α := Nat))).map (fun _ => ()) = .error .ub := by decide +kernel

/-- C84, what is true.  In a debug build no request, however large, gives a vector whose buffer
is smaller than its capacity: on a reachable vector `reserve(n)` panics or yields a vector with
the same contents and exactly `n` more capacity, all of it usable. -/
theorem C84_debug_reserve_partial {size : Nat} (hsize : 0 < size) (align : Nat) (R : RawAlloc α)
    (nd : Bool) (m0 : Mem α) (ops : List (SeqOp α))
    (hops : nd = true → ∀ op ∈ ops, op.isSlice = false)
    {outs : List (Out α)} {v : Vec} {m : Mem α} {xs : List α} {cap : Nat}
    (hrun : Vec.runM .debug (byteAllocator .debug size align R.total) nd ops Vec.new m0 =
      .ok (outs, v, m))
    (hx : v.asSlice m = .ok xs) (hc : v.capacity = .ok cap) (n : Nat) :
    v.reserveM .debug (byteAllocator .debug size align R.total) n m = .error .panic ∨
    ∃ v' m', v.reserveM .debug (byteAllocator .debug size align R.total) n m = .ok (v', m') ∧
      v'.asSlice m' = .ok xs ∧ v'.capacity = .ok (cap + n) ∧
      ∀ i < cap + n, ∃ p, m'.ptrAdd v'.beginPtr i = .ok p ∧
        ∀ y : α, ∃ m'', m'.write p y = .ok m'' := by
  have hr : Vec.run (defaultAllocator R) nd ops Vec.new m0 = .ok (outs, v, m) := by
    rcases runM_orPanic hsize align R nd ops Vec.new m0 with h1 | h1
    · rw [← h1]; exact hrun
    · rw [h1] at hrun; cases hrun
  have h := VInv.run (defaultAllocator_lawful R) nd ops hops (VInv.new defaultFits m0)
  have hi : VInv (fun _ => False) defaultFits m0.live m v xs cap := by
    cases hs : SeqOp.run ops [] with
    | error e => rw [hs] at h; simp only [] at h; rw [h] at hr; cases hr
    | ok r =>
      obtain ⟨os, ys⟩ := r
      rw [hs] at h
      obtain ⟨v', m', ds, cap', he, hi, _, _⟩ := h
      rw [he] at hr
      cases hr
      have h1 := hi.slice.symm.trans hx
      have h2 := hi.capacity.symm.trans hc
      cases h1; cases h2
      exact hi
  rcases reserveM_orPanic hsize align R n v m with h1 | h1
  · right
    obtain ⟨v', m', he, hi', _⟩ := hi.reserve_any (defaultAllocator_lawful R) n
    refine ⟨v', m', h1.trans he, hi'.slice, hi'.capacity, ?_⟩
    intro i hlt
    obtain ⟨w', hrep⟩ := hi'.exists_rep
    rcases hrep with hn | ⟨b, blk, ho⟩
    · have := hn.cap0
      omega
    · have h2 := ho.cap_le
      refine ⟨.loc b i, ?_, fun y => ?_⟩
      · simp [Mem.ptrAdd, ho.ptrs, ho.live_b]
        omega
      · have : i < blk.size := by omega
        exact ⟨_, by simp only [Mem.write, ho.live_b, this, if_true]; rfl⟩
  · exact .inl h1

/-- Instance: both outcomes, on a full vector of four `u64`. -/
example : (do
    let (_, v, m) ← Vec.runM .debug (byteAllocator .debug 8 8 RawAlloc.bump.total) false
      [.append [1, 2, 3, 4]] Vec.new (Mem.empty (α := Nat))
    let (v', m') ← v.reserveM .debug (byteAllocator .debug 8 8 RawAlloc.bump.total) 3 m
    let xs ← v'.asSlice m'
    .ok (xs, v'.capacity, (v.reserveM .debug (byteAllocator .debug 8 8 RawAlloc.bump.total)
      (2 ^ 64 - 1) m).map fun _ => ())) = .ok ([1, 2, 3, 4], .ok 7, .error .panic) := by
  decide +kernel

/-! ## C85 -/

/-- C85 fails.  When the system returns null, `reserve` on a reachable vector goes on with the
null pointer: undefined behaviour instead of a panic, in both build modes. -/
theorem C85_out_of_memory_ub (B : Build) {size align : Nat} (hT : TypeLayout size align)
    (R : RawAlloc α) (nd : Bool) (m0 : Mem α) (ops : List (SeqOp α))
    (hops : nd = true → ∀ op ∈ ops, op.isSlice = false)
    (hfit : ∀ c ∈ SeqOp.caps ops [] 0, Representable size align c)
    {outs : List (Out α)} {v : Vec} {m : Mem α} {cap n : Nat}
    (hrun : Vec.runM B (byteAllocator B size align R.total) nd ops Vec.new m0 = .ok (outs, v, m))
    (hc : v.capacity = .ok cap) (hn : 0 < n) (hrep : Representable size align (cap + n))
    (S : SysAlloc α) (hfail : S.fails m ⟨(cap + n) * size, align⟩ = true) :
    v.reserveM B (byteAllocator B size align S) n m = .error .ub := by
  rw [runM_eq B hT R nd ops hops (VInv.new defaultFits m0) (by simp [Representable]) hfit] at hrun
  have h := VInv.run (defaultAllocator_lawful R) nd ops hops (VInv.new defaultFits m0)
  have hl : ∃ len, v.len = .ok len := by
    cases hr : SeqOp.run ops [] with
    | error e => rw [hr] at h; simp only [] at h; rw [h] at hrun; cases hrun
    | ok r =>
      obtain ⟨os, xs⟩ := r
      rw [hr] at h
      obtain ⟨v', m', ds, cap', he, hi, _, _⟩ := h
      rw [he] at hrun
      cases hrun
      exact ⟨_, hi.len⟩
  obtain ⟨len, hl⟩ := hl
  have h0 : n ≠ 0 := by omega
  have h1 : cap + n ≠ 0 := by omega
  have hlt := hT.rep_lt hrep
  have ha : (byteAllocator B size align S).alloc (cap + n) m = .ok (.null, m) := by
    simp only [byteAllocator, B.allocLayout_ok hT (show 0 < cap + n by omega) hrep, Exec.ok_bind,
      hfail, if_true]
  simp only [Vec.reserveM, h0, if_false, hl, hc, Exec.ok_bind,
    B.usize_ok (show cap + n < 2 ^ 64 by omega), ha]
  by_cases hb : v.beginPtr = .null
  · simp only [hb, if_true, Exec.ok_bind, Mem.ptrAdd, h1, if_false]
    by_cases hz : len = 0
    · simp only [hz, if_true, Exec.ok_bind, Exec.error_bind]
    · simp only [hz, if_false, Exec.error_bind]
  · simp only [hb, if_false]
    have : m.copy v.beginPtr .null len = .error .ub := by
      unfold Mem.copy
      cases v.beginPtr <;> rfl
    rw [this]
    rfl

/-- A system allocator that always fails. -/
def SysAlloc.exhausted {α : Type} (R : RawAlloc α) : SysAlloc α := { R with fails := fun _ _ => true }

/-- Instance: three elements, and no memory for a fourth. -/
example : (do
    let (_, v, m) ← Vec.runM .debug (byteAllocator .debug 8 8 RawAlloc.bump.total) false
      [.append [1, 2, 3]] Vec.new (Mem.empty (α := Nat))
    v.pushM .debug (byteAllocator .debug 8 8 (SysAlloc.exhausted RawAlloc.bump)) 4 m).map
      (fun _ => ()) = .error .ub := by decide +kernel

/-- C85, what is true.  Calls that need no more memory do not notice that there is none: with
room left, `push` and `insert` work under any system allocator. -/
theorem C85_room_partial (B : Build) {size align : Nat} (hT : TypeLayout size align)
    (R : RawAlloc α) (nd : Bool) (m0 : Mem α) (ops : List (SeqOp α))
    (hops : nd = true → ∀ op ∈ ops, op.isSlice = false)
    (hfit : ∀ c ∈ SeqOp.caps ops [] 0, Representable size align c)
    {outs : List (Out α)} {v : Vec} {m : Mem α} {xs : List α} {cap : Nat}
    (hrun : Vec.runM B (byteAllocator B size align R.total) nd ops Vec.new m0 = .ok (outs, v, m))
    (hx : v.asSlice m = .ok xs) (hc : v.capacity = .ok cap) (hroom : xs.length < cap)
    (S : SysAlloc α) (x : α) :
    (∃ v' m', v.pushM B (byteAllocator B size align S) x m = .ok (v', m') ∧
      v'.asSlice m' = .ok (xs ++ [x]) ∧ v'.capacity = .ok cap) ∧
    ∀ i ≤ xs.length, ∃ v' m', v.insertM B (byteAllocator B size align S) i x m = .ok (v', m') ∧
      v'.asSlice m' = .ok (xs.take i ++ x :: xs.drop i) ∧ v'.capacity = .ok cap := by
  rw [runM_eq B hT R nd ops hops (VInv.new defaultFits m0) (by simp [Representable]) hfit] at hrun
  have h := VInv.run (defaultAllocator_lawful R) nd ops hops (VInv.new defaultFits m0)
  have hi : VInv (fun _ => False) defaultFits m0.live m v xs cap := by
    cases hs : SeqOp.run ops [] with
    | error e => rw [hs] at h; simp only [] at h; rw [h] at hrun; cases hrun
    | ok r =>
      obtain ⟨os, ys⟩ := r
      rw [hs] at h
      obtain ⟨v', m', ds, cap', he, hi, _, _⟩ := h
      rw [he] at hrun
      cases hrun
      have h1 := hi.slice.symm.trans hx
      have h2 := hi.capacity.symm.trans hc
      cases h1; cases h2
      exact hi
  have hne : (xs.length == cap) = false := beq_eq_false_iff_ne.2 (by omega)
  have hlt : xs.length < cap := hroom
  have e1 : v.pushM B (byteAllocator B size align S) x m = v.push (defaultAllocator R) x m := by
    simp only [Vec.pushM, Vec.push, hi.isFull, Exec.ok_bind, hne, Bool.false_eq_true, if_false]
  have e2 : ∀ i, v.insertM B (byteAllocator B size align S) i x m =
      v.insert (defaultAllocator R) i x m := by
    intro i
    simp only [Vec.insertM, Vec.insert, hi.len, hi.isFull, Exec.ok_bind, hne, Bool.false_eq_true,
      if_false]
  constructor
  · have hs := hi.step (defaultAllocator_lawful R) false (.push x) (by simp)
    simp only [SeqOp.step] at hs
    obtain ⟨v', m', ds, na, nc, he, hi', _, _⟩ := hs
    simp only [Vec.step] at he
    obtain ⟨⟨v2, m2⟩, h1, h2⟩ := Exec.bind_ok he
    cases h2
    exact ⟨v2, m2, e1.trans h1, hi'.slice, by simpa [SeqOp.capAfter, hlt] using hi'.capacity⟩
  · intro i hix
    have hs := hi.step (defaultAllocator_lawful R) false (.insert i x) (by simp)
    simp only [SeqOp.step, hix, if_true] at hs
    obtain ⟨v', m', ds, na, nc, he, hi', _, _⟩ := hs
    simp only [Vec.step] at he
    obtain ⟨⟨v2, m2⟩, h1, h2⟩ := Exec.bind_ok he
    cases h2
    exact ⟨v2, m2, (e2 i).trans h1, hi'.slice, by simpa [SeqOp.capAfter, hlt] using hi'.capacity⟩

example : (do
    let (_, v, m) ← Vec.runM .debug (byteAllocator .debug 8 8 RawAlloc.bump.total) false
      [.append [1, 2, 3], .pop] Vec.new (Mem.empty (α := Nat))
    let (v, m) ← v.pushM .debug (byteAllocator .debug 8 8 (SysAlloc.exhausted RawAlloc.bump)) 4 m
    v.asSlice m) = .ok [1, 2, 4] := by decide +kernel

/-! ## C86 -/

/-- Calls that ask for room for an element, or assign to one. -/
def SeqOp.stores : SeqOp α → Bool
  | .push _ | .insert _ _ | .set _ _ => true
  | .reserve n => n != 0
  | .append buf | .assign buf => !buf.isEmpty
  | _ => false

/-- C86.  For a zero-sized element type a history with a call that would have to store an element
panics, whatever the build mode and the system allocator; any other leaves the vector empty and
memory as it was, with the results of an empty sequence, or panics.  Undefined behaviour never
happens. -/
theorem C86_zero_sized_elements (B : Build) (align : Nat) (S : SysAlloc α) (nd : Bool)
    (m0 : Mem α) (ops : List (SeqOp α))
    (hlen : ∀ buf : List α, .append buf ∈ ops → buf.length < 2 ^ 64) :
    Vec.runM B (byteAllocator B 0 align S) nd ops Vec.new m0 = .error .panic ∨
    ∃ outs, Vec.runM B (byteAllocator B 0 align S) nd ops Vec.new m0 = .ok (outs, Vec.new, m0) ∧
      (∀ op ∈ ops, SeqOp.stores op = false) ∧ SeqOp.run ops [] = .ok (outs, []) := by
  have ha : ∀ n, (byteAllocator B 0 align S).alloc n m0 = .error .panic := by
    intro n
    simp only [byteAllocator, Build.allocLayout, Nat.mul_zero,
      B.usize_ok (show 0 < 2 ^ 64 by omega), Exec.ok_bind, if_true, Exec.error_bind]
  have hl : Vec.new.len = .ok 0 := rfl
  have hc : Vec.new.capacity = .ok 0 := rfl
  have hf : Vec.new.isFull = .ok true := rfl
  have hr : ∀ n, 0 < n → Vec.new.reserveM B (byteAllocator B 0 align S) n m0 = .error .panic := by
    intro n hn
    have h0 : n ≠ 0 := by omega
    simp only [Vec.reserveM, h0, if_false, hl, hc, Exec.ok_bind, ha]
    unfold Build.usize
    split
    · rfl
    · cases B <;> rfl
  have hg : Vec.new.growM B (byteAllocator B 0 align S) m0 = .error .panic := by
    simp only [Vec.growM, hc, Exec.ok_bind, Vec.calculateGrowCapacityM, if_true, Nat.zero_le]
    exact hr 1 (by omega)
  have hstep : ∀ op ∈ ops,
      Vec.new.stepM B (byteAllocator B 0 align S) nd op m0 = .error .panic ∨
      ∃ o, Vec.new.stepM B (byteAllocator B 0 align S) nd op m0 = .ok (o, Vec.new, m0) ∧
        SeqOp.stores op = false ∧ SeqOp.step op [] = .ok (o, []) := by
    intro op hop
    cases op with
    | push x => exact .inl (by simp [Vec.stepM, Vec.pushM, hf, hg])
    | pop => exact .inr ⟨.elem none, rfl, rfl, rfl⟩
    | insert i x =>
      refine .inl ?_
      by_cases hi : i = 0
      · simp [Vec.stepM, Vec.insertM, hl, hf, hg, hi]
      · simp [Vec.stepM, Vec.insertM, hl, hi]
    | remove i => exact .inr ⟨.elem none, by simp [Vec.stepM, Vec.step, Vec.remove, hl], rfl, by
        simp [SeqOp.step]⟩
    | set i x => exact .inl (by simp [Vec.stepM, Vec.step, Vec.setAt, Vec.new])
    | reserve n =>
      by_cases hn : n = 0
      · exact .inr ⟨.unit, by simp [Vec.stepM, Vec.reserveM, hn], by simp [SeqOp.stores, hn], rfl⟩
      · exact .inl (by simp [Vec.stepM, hr n (by omega)])
    | append buf =>
      have hb := hlen buf hop
      by_cases hn : buf.length = 0
      · have hb0 : buf = [] := List.length_eq_zero_iff.1 hn
        subst hb0
        refine .inr ⟨.unit, ?_, rfl, rfl⟩
        have hu : B.usize 0 = .ok 0 := B.usize_ok (by omega)
        simp only [Vec.stepM, Vec.appendM, hl, hc, Exec.ok_bind, List.length_nil, Nat.add_zero, hu,
          Nat.lt_irrefl, if_false]
        rfl
      · refine .inl ?_
        have hp : 0 < buf.length := by omega
        simp [Vec.stepM, Vec.appendM, hl, hc, B.usize_ok hb, hp, hr _ hp]
    | assign buf =>
      by_cases hn : buf.length = 0
      · have hb0 : buf = [] := List.length_eq_zero_iff.1 hn
        subst hb0
        exact .inr ⟨.unit, rfl, rfl, rfl⟩
      · refine .inl ?_
        have hp : 0 < buf.length := by omega
        simp [Vec.stepM, Vec.assignM, hc, hp, hr _ hp]
    | clear => exact .inr ⟨.unit, rfl, rfl, rfl⟩
    | len => exact .inr ⟨.nat 0, rfl, rfl, rfl⟩
    | isEmpty => exact .inr ⟨.bool true, rfl, rfl, rfl⟩
    | slice => exact .inr ⟨.list [], rfl, rfl, rfl⟩
  clear hlen
  induction ops with
  | nil => exact .inr ⟨[], rfl, by simp, rfl⟩
  | cons op ops ih =>
    simp only [Vec.runM]
    rcases hstep op (by simp) with h | ⟨o, h, h1, h2⟩
    · exact .inl (by rw [h]; rfl)
    · rw [h]
      simp only [Exec.ok_bind]
      rcases ih (fun op hop => hstep op (by simp [hop])) with h | ⟨os, h, h3, h4⟩
      · exact .inl (by rw [h]; rfl)
      · refine .inr ⟨o :: os, by rw [h]; rfl, ?_, ?_⟩
        · intro op' hm
          rcases List.mem_cons.1 hm with rfl | hm
          · exact h1
          · exact h3 op' hm
        · simp only [SeqOp.run, h2, h4]

/-- Instances: `Vector::<()>::new().push(())` panics; calls that store nothing. -/
example : (Vec.runM .release (byteAllocator .release 0 1 RawAlloc.bump.total) false
    [.len, .push ()] Vec.new Mem.empty).map (fun _ => ()) = .error .panic ∧
    (Vec.runM .release (byteAllocator .release 0 1 RawAlloc.bump.total) false
      [.len, .pop, .clear, .isEmpty] Vec.new (Mem.empty (α := Unit))).map (·.1) =
      .ok [.nat 0, .elem none, .unit, .bool true] := ⟨by decide +kernel, rfl⟩

end Verif
