import Verif.Machine.FixedVector
import Verif.FixedVector.Move
import Verif.Props.Machine

/-!
# Property C154: `FixedVector` on a 64-bit machine

`size` and `align` are the layout of the element type, `n` the inline capacity, `B` the build
mode.
-/

set_option autoImplicit false

namespace Verif
open Spec

variable {α : Type}

theorem SeqOp.run_error {e : Fault} : ∀ (ops : List (SeqOp α)) (xs : List α),
    SeqOp.run ops xs = .error e → e = .panic := by
  intro ops
  induction ops with
  | nil => intro xs hx; cases hx
  | cons op ops ih =>
    intro xs hx
    unfold SeqOp.run at hx
    cases hs : op.step xs with
    | error e' =>
      rw [hs] at hx
      cases hx
      cases op <;> simp only [SeqOp.step] at hs <;> try cases hs
      all_goals
        split at hs <;> cases hs
        rfl
    | ok r =>
      obtain ⟨o, ys⟩ := r
      rw [hs] at hx
      simp only [] at hx
      cases hr2 : SeqOp.run ops ys with
      | error e' => rw [hr2] at hx; cases hx; exact ih ys hr2
      | ok r2 => rw [hr2] at hx; cases hx

/-- C154.  As long as every capacity asked for can exist in the address space, every history on a
new fixed vector, compiled with or without overflow checks, returns what the history on a
mathematical sequence returns; dropping the vector afterwards succeeds and leaves memory as it
was before the vector was created. -/
theorem C154_machine_fixed_vector (B : Build) {size align : Nat} (hT : TypeLayout size align)
    (R : RawAlloc α) (nd : Bool) (n d : Nat) (hn : 0 < n) (hrep : Representable size align n)
    (m0 : Mem α) (hd : m0.live d = none) (ops : List (SeqOp α))
    (hops : nd = true → ∀ op ∈ ops, op.isSlice = false)
    (hfit : ∀ c ∈ SeqOp.caps ops [] n, Representable size align c) :
    ∃ f1 m1, FVec.newIn n d m0 = .ok (f1, m1) ∧
      match SeqOp.run ops [] with
      | .error e => f1.runM B size align R.total nd ops m1 = .error e
      | .ok (outs, xs) => ∃ f m, f1.runM B size align R.total nd ops m1 = .ok (outs, f, m) ∧
          f.vec.asSlice m = .ok xs ∧ f.vec.len = .ok xs.length ∧
          ∃ m' drops, f.destroyM B size align R.total nd m = .ok m' ∧ m'.live = m0.live ∧
            m'.dropped = m0.dropped ++ drops ∧
            (nd = true → (ops.flatMap SeqOp.movedIn).Perm (outs.flatMap Out.movedOut ++ drops)) := by
  obtain ⟨f1, m1, he1, hi1, hb1, _, _, hdr1, _⟩ := FInvA.new hn m0 hd
  refine ⟨f1, m1, he1, ?_⟩
  have hA := fixedAllocator_lawful R f1.buf
  rw [← hi1.pool] at hA
  have hdl : ∀ c, Representable size align c → ∀ (p : Ptr) (m : Mem α),
      (fixedAllocatorM B size align R.total f1.pool).dealloc p c m =
        (fixedAllocator R f1.pool).dealloc p c m :=
    fun c hc p m => fixedAllocatorM_dealloc B hT R.total R f1.pool hc p m
  obtain ⟨heq, hend⟩ := runM_agree B (P := Representable size align) (fun c hc => hT.rep_lt hc)
    (fun c h0 hc m => fixedAllocatorM_alloc B hT R f1.pool h0 hc m) hdl hA nd ops hops hi1.inv hrep
    hfit
  have h := VInv.run hA nd ops hops hi1.inv
  rw [FVec.runM_eq_map, heq]
  cases hr : SeqOp.run ops [] with
  | error e => rw [hr] at h; simp only at h; simp [h, Except.map]
  | ok r =>
    obtain ⟨os, xs⟩ := r
    rw [hr] at h
    obtain ⟨v, m, ds, cap, he, hi, hds, hp⟩ := h
    refine ⟨{ f1 with vec := v }, m, by rw [he]; rfl, hi.slice, hi.len, ?_⟩
    obtain ⟨xs', cap', hi', hcap'⟩ := hend _ _ _ he
    obtain ⟨m2, hc, _, hw, _, _, hef⟩ := hi.clear hA nd
    refine ⟨m2.setBlock f1.buf none, ds ++ (if nd then xs else []), ?_, ?_, ?_, ?_⟩
    · simp only [FVec.destroyM]
      rw [clear_agree hdl nd hi' hcap', hc]
      rfl
    · funext p
      by_cases hpb : p = f1.buf
      · subst hpb; simp [hi1.out]
      · simpa [hpb] using hw p hpb
    · simp [hef.dropped, hds, hdr1]
    · intro hnd
      subst hnd
      simpa using hp rfl

/-- C154 without the limit, in a debug build: the history returns what the sequence returns or
panics, and dropping the vector then leaves memory as it was before, every element having been dropped
or handed out once, or panics.  There is never undefined behaviour. -/
theorem C154_debug_fixed_vector {size : Nat} (hsize : 0 < size) (align : Nat) (R : RawAlloc α)
    (nd : Bool) (n d : Nat) (hn : 0 < n) (m0 : Mem α) (hd : m0.live d = none)
    (ops : List (SeqOp α)) (hops : nd = true → ∀ op ∈ ops, op.isSlice = false) :
    ∃ f1 m1, FVec.newIn n d m0 = .ok (f1, m1) ∧
      (f1.runM .debug size align R.total nd ops m1 = .error .panic ∨
      ∃ outs xs f m, SeqOp.run ops [] = .ok (outs, xs) ∧
        f1.runM .debug size align R.total nd ops m1 = .ok (outs, f, m) ∧
        f.vec.asSlice m = .ok xs ∧ m.live d ≠ none ∧
        (f.destroyM .debug size align R.total nd m = .error .panic ∨
        ∃ m' drops, f.destroyM .debug size align R.total nd m = .ok m' ∧ m'.live = m0.live ∧
          m'.dropped = m0.dropped ++ drops ∧
          (nd = true → (ops.flatMap SeqOp.movedIn).Perm (outs.flatMap Out.movedOut ++ drops)))) := by
  obtain ⟨f1, m1, he1, hi1, hb1, _, _, hdr1, _⟩ := FInvA.new hn m0 hd
  refine ⟨f1, m1, he1, ?_⟩
  have hA := fixedAllocator_lawful R f1.buf
  rw [← hi1.pool] at hA
  have h := VInv.run hA nd ops hops hi1.inv
  rw [FVec.runM_eq_map]
  rcases runM_cautious (fixedAlloc_orPanic hsize align R f1.pool)
    (fixedDealloc_orPanic hsize align R f1.pool) nd ops f1.vec m1 with h1 | h1
  · rw [h1]
    cases hr : SeqOp.run ops [] with
    | error e =>
      rw [hr] at h
      simp only at h
      exact .inl (by rw [h, SeqOp.run_error ops [] hr]; rfl)
    | ok r =>
      obtain ⟨os, xs⟩ := r
      rw [hr] at h
      obtain ⟨v, m, ds, cap, he, hi, hds, hp⟩ := h
      refine .inr ⟨os, xs, { f1 with vec := v }, m, rfl, by rw [he]; rfl, hi.slice,
        by rw [← hb1]; exact hi.1 f1.buf rfl, ?_⟩
      simp only [FVec.destroyM]
      rcases clear_cautious (fixedDealloc_orPanic hsize align R f1.pool) nd v m with h2 | h2
      · obtain ⟨m2, hc, _, hw, _, _, hef⟩ := hi.clear hA nd
        refine .inr ⟨m2.setBlock f1.buf none, ds ++ (if nd then xs else []), ?_, ?_, ?_, ?_⟩
        · rw [h2, hc]
          rfl
        · funext p
          by_cases hpb : p = f1.buf
          · subst hpb; simp [hi1.out]
          · simpa [hpb] using hw p hpb
        · simp [hef.dropped, hds, hdr1]
        · intro hnd
          subst hnd
          simpa using hp rfl
      · exact .inl (by rw [h2]; rfl)
  · exact .inl (by rw [h1]; rfl)

/-- C84 fails for fixed vectors in release builds as well.  Let a reachable fixed vector, inline
or spilled, have length `len` and capacity `cap`.  For every `k` with `cap - len < k < cap`, the
call `reserve(2^64 - k)` computes the new capacity `cap - k`, which is less than the length, and
copies `len` elements into it: undefined behaviour. -/
theorem C84_release_fixed_reserve_ub {size align : Nat} (hT : TypeLayout size align)
    (R : RawAlloc α) (nd : Bool) (n d : Nat) (hrep : Representable size align n)
    (m0 : Mem α) (hd : m0.live d = none) (ops : List (SeqOp α))
    (hops : nd = true → ∀ op ∈ ops, op.isSlice = false)
    (hfit : ∀ c ∈ SeqOp.caps ops [] n, Representable size align c)
    {f1 f : FVec} {m1 m : Mem α} {outs : List (Out α)} {len cap k : Nat}
    (hnew : FVec.newIn n d m0 = .ok (f1, m1))
    (hrun : f1.runM .release size align R.total nd ops m1 = .ok (outs, f, m))
    (hl : f.vec.len = .ok len) (hc : f.vec.capacity = .ok cap)
    (hk : cap - len < k) (hk' : k < cap) :
    f.stepM .release size align R.total nd (.reserve (2 ^ 64 - k)) m = .error .ub := by
  have hn : 0 < n := by
    rcases Nat.eq_zero_or_pos n with h0 | h0
    · subst h0; cases hnew
    · exact h0
  obtain ⟨f1', m1', he1, hi1, hb1, _⟩ := FInvA.new hn m0 hd
  rw [hnew] at he1
  cases he1
  have hA := fixedAllocator_lawful R f1.buf
  rw [← hi1.pool] at hA
  obtain ⟨heq, hend⟩ := runM_agree .release (P := Representable size align)
    (fun c hc => hT.rep_lt hc)
    (fun c h0 hc m => fixedAllocatorM_alloc .release hT R f1.pool h0 hc m)
    (fun c hc p m => fixedAllocatorM_dealloc .release hT R.total R f1.pool hc p m)
    hA nd ops hops hi1.inv hrep hfit
  rw [FVec.runM_eq_map, heq] at hrun
  cases he : Vec.run (fixedAllocator R f1.pool) nd ops f1.vec m1 with
  | error e => rw [he] at hrun; cases hrun
  | ok r =>
    obtain ⟨os, v, m'⟩ := r
    rw [he] at hrun
    cases hrun
    obtain ⟨xs, cap', hi, hcap'⟩ := hend _ _ _ he
    simp only at hl hc
    have h1 := hi.len.symm.trans hl
    have h2 := hi.capacity.symm.trans hc
    cases h1; cases h2
    have hle := hi.len_le
    have hcap := hT.rep_lt hcap'
    have hb : v.beginPtr ≠ .null := by
      intro hb
      have hc' := hc
      unfold Vec.capacity at hc'
      rw [hb] at hc'
      cases hp : v.capPtr with
      | null =>
        rw [hp] at hc'
        simp only [Ptr.offsetFrom, Except.ok.injEq] at hc'
        omega
      | loc b o => rw [hp] at hc'; cases hc'
    have hw : cap + (2 ^ 64 - k) = (cap - k) + 2 ^ 64 := by omega
    have h0 : 2 ^ 64 - k ≠ 0 := by omega
    have hus : Build.release.usize (cap + (2 ^ 64 - k)) = .ok (cap - k) := by
      have h1 : ¬ cap + (2 ^ 64 - k) < 2 ^ 64 := by omega
      simp only [Build.usize, h1, if_false]
      rw [hw, Nat.add_mod_right, Nat.mod_eq_of_lt (by omega)]
    have hrep' : Representable size align (cap - k) :=
      Nat.le_trans (Nat.mul_le_mul_right _ (by omega)) hcap'
    have h1 : cap - k ≠ 0 := by omega
    have h2 : ¬ xs.length ≤ cap - k := by omega
    have hcopy : ∀ (b : Nat) (m' : Mem α) (t : Block α), m'.live b = some t → t.size = cap - k →
        m'.copy v.beginPtr (.loc b 0) xs.length = .error .ub := by
      intro b m' t ht hsz
      unfold Mem.copy
      cases v.beginPtr with
      | null => rfl
      | loc sb so =>
        cases hsb : m'.live sb with
        | none => simp only [hsb]
        | some blk => simp only [hsb, ht, Nat.zero_add, hsz, h2, and_false, if_false]
    simp only [FVec.stepM, Vec.stepM, Vec.reserveM, h0, if_false, hl, hc, Exec.ok_bind, hus,
      fixedAllocatorM_alloc .release hT R f1.pool (show 0 < cap - k by omega) hrep',
      fixedAllocator, defaultAllocator, h1, RawAlloc.alloc, hb]
    rw [hcopy (R.pick m' (cap - k)) _ ⟨cap - k, .heap, fun _ => none⟩ (by simp [Mem.setBlock]) rfl]
    rfl

/-- Two inline `u64`, a history that spills: capacities 2, 2, 4, 7, 0 and 1, all representable. -/
example : SeqOp.caps [.push 1, .push 2, .push 3, .reserve 3, .clear, .push 8] ([] : List Nat)
    2 =
    [2, 2, 4, 7, 0, 1] ∧ (∀ c ∈ [2, 2, 4, 7, 0, 1], Representable 8 8 c) ∧ Representable 8 8 2 :=
  ⟨rfl, by unfold Representable; decide, by unfold Representable; decide⟩

example : (do
    let (f, m) ← FVec.newIn 2 7 (Mem.empty : Mem Nat)
    let (_, f, m) ← f.runM .release 8 8 RawAlloc.bump.total true
      [.push 1, .push 2, .push 3, .reserve 3, .remove 0] m
    let s ← f.vec.asSlice m
    let m' ← f.destroyM .release 8 8 RawAlloc.bump.total true m
    .ok (s, (m'.live 7).isSome, m'.dropped)) =
  (.ok ([2, 3], false, [2, 3]) : Exec _) := by
  decide +kernel

/-- A request beyond the address space panics in a debug build. -/
example : (do
    let (f, m) ← FVec.newIn 2 7 (Mem.empty : Mem Nat)
    f.runM .debug 8 8 RawAlloc.bump.total true [.push 1, .reserve (2 ^ 60)] m).map (fun _ => ()) =
  .error .panic := by decide +kernel

/-- Two inline elements, both in use, and `reserve(usize::MAX)` in a release build. -/
example : (do
    let (f, m) ← FVec.newIn 2 7 (Mem.empty : Mem Nat)
    let (_, f, m) ← f.runM .release 8 8 RawAlloc.bump.total false [.append [1, 2]] m
    f.stepM .release 8 8 RawAlloc.bump.total false (.reserve (2 ^ 64 - 1)) m).map (fun _ => ()) =
  .error .ub := by decide +kernel

end Verif
