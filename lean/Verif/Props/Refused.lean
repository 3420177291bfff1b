import Verif.Vector.Refused
import Verif.Props.FixedVector
import Verif.Props.Text

/-!
# Refused calls change nothing (C114)

The theorems of `Verif.Props.Vector`, `FixedVector` and `Text` say of a history with a panicking
call that it panics.  Here the caller catches the panics and goes on using the container.
-/

set_option autoImplicit false

namespace Verif
open Spec

variable {α : Type}

/-- C114 for vectors.  Whatever the calls, those with an index out of range panic and the others
return what they return on a mathematical sequence that ignored the refused calls; in the end the
vector holds that sequence, clearing it (which is what dropping it does) frees all its memory, and
every value moved in, those of the refused calls included, was handed out or dropped exactly
once. -/
theorem C114_vector_refused (R : RawAlloc α) (nd : Bool) (m0 : Mem α) (ops : List (SeqOp α))
    (hops : nd = true → ∀ op ∈ ops, op.isSlice = false) :
    ∃ v m m' drops, Vec.runC (defaultAllocator R) nd ops Vec.new m0 =
        .ok ((SeqOp.runC ops []).1, v, m) ∧
      v.asSlice m = .ok (SeqOp.runC ops []).2 ∧
      v.len = .ok (SeqOp.runC ops []).2.length ∧
      v.clear (defaultAllocator R) nd m = .ok (Vec.new, m') ∧ m'.live = m0.live ∧
      m'.dropped = m0.dropped ++ drops ∧
      (nd = true → (ops.flatMap SeqOp.movedIn).Perm
        (((SeqOp.runC ops []).1.filterMap id).flatMap Out.movedOut ++ drops)) := by
  obtain ⟨v, m, ds, cap, h1, h2, h3, h4⟩ := VInv.runC (defaultAllocator_lawful R) nd ops hops
    (VInv.new defaultFits m0)
  obtain ⟨m', he, _, hw, _, _, hef⟩ := h2.clear (defaultAllocator_lawful R) nd
  refine ⟨v, m, m', ds ++ (if nd then (SeqOp.runC ops []).2 else []), h1, h2.slice, h2.len, he,
    funext fun p => hw p not_false, ?_, ?_⟩
  · rw [hef.dropped, h3, List.append_assoc]
  · intro hn
    simpa [hn] using h4 hn

/-- C114: a refused call leaves the vector as it is, storage and capacity included. -/
theorem C114_refused_call (R : RawAlloc α) (nd : Bool) (m0 : Mem α) (ops : List (SeqOp α))
    (hops : nd = true → ∀ op ∈ ops, op.isSlice = false) {outs : List (Option (Out α))} {v : Vec}
    {m : Mem α} (hrun : Vec.runC (defaultAllocator R) nd ops Vec.new m0 = .ok (outs, v, m))
    (op : SeqOp α) (hop : nd = true → op.isSlice = false) :
    ∃ o v' m', v.stepC (defaultAllocator R) nd op m = .ok (o, v', m') ∧
      (o = none ↔ ∃ i x n, v.len = .ok n ∧
        ((op = .insert i x ∧ n < i) ∨ (op = .set i x ∧ n ≤ i))) ∧
      (o = none → v' = v ∧ m'.live = m.live ∧ m'.allocs = m.allocs) := by
  obtain ⟨v1, m1, ds, cap, h1, h2, _⟩ := VInv.runC (defaultAllocator_lawful R) nd ops hops
    (VInv.new defaultFits m0)
  rw [h1] at hrun
  simp only [Except.ok.injEq, Prod.mk.injEq] at hrun
  obtain ⟨_, rfl, rfl⟩ := hrun
  have hst := h2.step (defaultAllocator_lawful R) nd op hop
  cases hs : op.step (SeqOp.runC ops []).2 with
  | error e =>
    obtain ⟨x, _, he⟩ := h2.stepC_refused (A := defaultAllocator R) nd hs
    refine ⟨none, v1, _, he, iff_of_true rfl ?_, fun _ => ⟨rfl, rfl, rfl⟩⟩
    cases op with
    | insert i x =>
      refine ⟨i, x, _, h2.len, .inl ⟨rfl, ?_⟩⟩
      by_contra hi
      simp [SeqOp.step, Nat.not_lt.1 hi] at hs
    | set i x =>
      refine ⟨i, x, _, h2.len, .inr ⟨rfl, ?_⟩⟩
      by_contra hi
      simp [SeqOp.step, Nat.not_le.1 hi] at hs
    | _ => simp [SeqOp.step] at hs
  | ok r =>
    obtain ⟨o, ys⟩ := r
    rw [hs] at hst
    obtain ⟨v2, m2, d1, a1, c1, he1, _⟩ := hst
    refine ⟨some o, v2, m2, h2.stepC_accepted hs he1, iff_of_false (by simp) ?_, by simp⟩
    rintro ⟨i, x, n, hn, hc⟩
    obtain rfl : (SeqOp.runC ops []).2.length = n := by simpa [h2.len] using hn
    rcases hc with ⟨rfl, hlt⟩ | ⟨rfl, hle⟩
    · simp [SeqOp.step, Nat.not_le.2 hlt] at hs
    · simp [SeqOp.step, Nat.not_lt.2 hle] at hs

/-- C114 for fixed vectors, before and after spilling to the heap. -/
theorem C114_fixed_vector_refused (R : RawAlloc α) (nd : Bool) (n d : Nat) (hn : 0 < n)
    (m0 : Mem α) (hd : m0.live d = none) (ops : List (SeqOp α))
    (hops : nd = true → ∀ op ∈ ops, op.isSlice = false) :
    ∃ f1 m1 f m m' drops, FVec.newIn n d m0 = .ok (f1, m1) ∧
      f1.runC R nd ops m1 = .ok ((SeqOp.runC ops []).1, f, m) ∧
      f.vec.asSlice m = .ok (SeqOp.runC ops []).2 ∧
      f.destroy R nd m = .ok m' ∧ m'.live = m0.live ∧ m'.dropped = m0.dropped ++ drops ∧
      (nd = true → (ops.flatMap SeqOp.movedIn).Perm
        (((SeqOp.runC ops []).1.filterMap id).flatMap Out.movedOut ++ drops)) := by
  obtain ⟨f1, m1, he1, hi1, hb1, _, _, hdr1, _⟩ := FInvA.new hn m0 hd
  have hA := fixedAllocator_lawful R f1.buf
  rw [← hi1.pool] at hA
  obtain ⟨v, m, ds, cap, he, hi, hds, hp⟩ := VInv.runC hA nd ops hops hi1.inv
  obtain ⟨m2, hc, _, hw, _, _, hef⟩ := hi.clear hA nd
  refine ⟨f1, m1, { f1 with vec := v }, m, m2.setBlock f1.buf none,
    ds ++ (if nd then (SeqOp.runC ops []).2 else []), he1, ?_, hi.slice, ?_, ?_, ?_, ?_⟩
  · simp only [FVec.runC, he, Exec.ok_bind]
  · simp [FVec.destroy, hc]
  · funext p
    by_cases hpb : p = f1.buf
    · subst hpb; simp [hi1.out]
    · simpa [hpb] using hw p hpb
  · simp [hef.dropped, hds, hdr1]
  · intro hnd
    subst hnd
    simpa using hp rfl

/-- C114 for strings, with the restriction of C16 to ASCII text and without `assign`. -/
theorem C114_string_refused (R : RawAlloc UInt8) (m0 : Mem UInt8) (ops : List StrOp)
    (hops : ∀ op ∈ ops, op.Ascii ∧ op.isAssign = false) :
    ∃ v m, Str.runC (strAlloc R) ops Vec.new m0 = .ok ((StrOp.runC ops []).1, v, m) ∧
      v.asSlice m = .ok (utf8 (StrOp.runC ops []).2) ∧
      v.len = .ok (StrOp.runC ops []).2.length := by
  obtain ⟨v, m, cap, h1, h2, h3⟩ := SInv.runC (R := R) ops (cs := []) hops (by simp)
    (VInv.new nullFits m0)
  exact ⟨v, m, h1, by rw [utf8_ascii h3]; exact h2.slice, by simpa using h2.len⟩

/-- Refused and accepted calls. -/
example : (do
    let (o, v, m) ← Vec.runC (defaultAllocator RawAlloc.bump) true
      [.set 0 9, .push 1, .insert 2 8, .insert 1 2, .set 2 7, .set 0 3, .pop]
      Vec.new (Mem.empty : Mem Nat)
    let s ← v.asSlice m
    let (_, m) ← v.clear (defaultAllocator RawAlloc.bump) true m
    .ok (o.map Option.isSome, s, m.dropped)) =
      (.ok ([false, true, false, true, false, true, true], [3], [9, 8, 7, 1, 3]) : Exec _) := rfl

end Verif
