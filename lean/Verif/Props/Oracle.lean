import Verif.VectorMap.Oracle
import Verif.Props.VectorMap

/-!
# Unsteady and panicking comparators (C104)

`F` is the comparator and `==`, run on a state of any type `σ`: they may answer differently each time
they are called, and panic.
-/

set_option autoImplicit false

namespace Verif
open Spec

variable {σ K V : Type}

/-- C104.  Whatever comparator and `==` answer, call by call, and wherever they panic, every history
of calls of a `VectorMap` runs without touching memory that is not its own; each call returns and
keeps its books, or is left by the panic with the same pairs in the same order; and clearing the map
frees what it had allocated. -/
theorem C104_unsteady_comparator_is_safe (R : RawAlloc (K × V)) (F : KeyFns σ K) (nd : Bool)
    (m0 : Mem (K × V)) (s0 : σ) (ops : List (MapOp K V)) :
    ∃ (outs : List (Option (MapOut K V))) (s : σ) (v : Vec) (m : Mem (K × V)) (xs : List (K × V))
      (d : List (K ⊕ V)),
      VMap.runO (defaultAllocator R) F nd ops Vec.new m0 s0 = .ok (outs, s, v, m) ∧
      v.asSlice m = .ok xs ∧ CalledRun ops outs [] xs d ∧
      (∀ b blk, m0.live b = some blk → m.live b = some blk) ∧
      ∃ m', v.clear (defaultAllocator R) nd m = .ok (Vec.new, m') ∧ m'.live = m0.live := by
  obtain ⟨os, s, v, m, xs, d, he, ⟨cap, hi⟩, hh⟩ :=
    MInv.runO R F nd ops s0 ⟨0, VInv.new defaultFits m0⟩
  refine ⟨os, s, v, m, xs, d, he, hi.slice, hh, ?_, ?_⟩
  · intro b blk hb
    rcases hi.default_rep with h | ⟨b', blk', h⟩
    · rw [h.live]; exact hb
    · rw [h.live, Function.update_of_ne, hb]
      rintro rfl
      rw [h.fresh] at hb
      cases hb
  · obtain ⟨m', he, _, hw, _, _, _⟩ := hi.clear (defaultAllocator_lawful R) nd
    exact ⟨m', he, funext fun p => hw p not_false⟩

/-- A call is left only by a panic of comparator or `==`. -/
theorem C104_calls_return (F : KeyFns σ K)
    (hF : ∀ s a b, (F.lt s a b).1 ≠ none ∧ (F.eq s a b).1 ≠ none) (A : Allocator (K × V)) (nd : Bool)
    (ops : List (MapOp K V)) : ∀ {v : Vec} {m : Mem (K × V)} {s : σ}
    {outs : List (Option (MapOut K V))} {s' : σ} {v' : Vec} {m' : Mem (K × V)},
    VMap.runO A F nd ops v m s = .ok (outs, s', v', m') → none ∉ outs := by
  induction ops with
  | nil =>
    intro v m s outs s' v' m' h
    simp only [VMap.runO, Except.ok.injEq, Prod.mk.injEq] at h
    rw [← h.1]; simp
  | cons op ops ih =>
    intro v m s outs s' v' m' h
    simp only [VMap.runO] at h
    obtain ⟨⟨o, s1, v1, m1⟩, h1, h⟩ := Exec.of_bind_ok h
    obtain ⟨⟨os, s2, v2, m2⟩, h2, h⟩ := Exec.of_bind_ok h
    simp only [Except.ok.injEq, Prod.mk.injEq] at h
    rw [← h.1, List.mem_cons, not_or]
    exact ⟨fun e => stepO_some hF h1 e.symm, ih h2⟩

/-- C104.  If comparator and `==` answer like a strict weak order and its ties whenever they do not
panic, the calls that panicked might as well not have been made: the others return what they return
on the finite map, and the contents are those of the finite map, sorted. -/
theorem C104_panics_leave_no_trace (R : RawAlloc (K × V)) (F : KeyFns σ K) (lt eq : K → K → Bool)
    (hw : StrictWeak lt) (hc : Consistent lt eq)
    (hF : ∀ s a b, ((F.lt s a b).1 = none ∨ (F.lt s a b).1 = some (lt a b)) ∧
      ((F.eq s a b).1 = none ∨ (F.eq s a b).1 = some (eq a b)))
    (nd : Bool) (m0 : Mem (K × V)) (s0 : σ) (ops : List (MapOp K V)) :
    ∃ (outs : List (Option (MapOut K V))) (s : σ) (v : Vec) (m : Mem (K × V)) (xs : List (K × V)),
      VMap.runO (defaultAllocator R) F nd ops Vec.new m0 s0 = .ok (outs, s, v, m) ∧
      outs.length = ops.length ∧
      outs.filterMap id = (MapOp.run eq (returned ops outs) []).1 ∧
      v.asSlice m = .ok xs ∧ xs.Perm (MapOp.run eq (returned ops outs) []).2 ∧
      Increasing lt xs := by
  obtain ⟨os, s, v, m, _, _, he, _⟩ :=
    MInv.runO R F nd ops s0 (w := m0.live) ⟨0, VInv.new defaultFits m0⟩
  obtain ⟨h1, h2⟩ := runO_fits (show F.Fits lt eq from hF) _ nd ops he
  obtain ⟨v', m', xs, e1, e2, e3⟩ := C22_vector_map_refines_map R lt eq hw hc nd m0 (returned ops os)
  obtain ⟨xs', e4, e5⟩ := C23_vector_map_sorted R lt eq hw hc nd m0 (returned ops os) h2
  rw [h2] at e1
  simp only [Except.ok.injEq, Prod.mk.injEq] at e1
  obtain ⟨e0, rfl, rfl⟩ := e1
  rw [e2] at e4
  cases e4
  exact ⟨os, s, v, m, xs, he, h1, e0, e2, e3, e5⟩

/-- Numbers, compared by functions that panic every fourth time. -/
def everyFourth : KeyFns Nat Nat where
  lt n a b := (if n % 4 = 3 then none else some (decide (a < b)), n + 1)
  eq n a b := (if n % 4 = 3 then none else some (a == b), n + 1)

example : ∀ s a b,
    ((everyFourth.lt s a b).1 = none ∨ (everyFourth.lt s a b).1 = some (decide (a < b))) ∧
      ((everyFourth.eq s a b).1 = none ∨ (everyFourth.eq s a b).1 = some (a == b)) := by
  intro s a b
  simp only [everyFourth]
  split <;> simp

/-- Some calls panic. -/
example : (do
    let (o, s, v, m) ← VMap.runO (defaultAllocator RawAlloc.bump) everyFourth true
      [.insert 5 50, .insert 2 20, .insert 9 90, .insert 5 51, .get 2, .get 5, .remove 9, .len,
       .entry 3 (· + 1) 30]
      Vec.new Mem.empty 0
    let xs ← v.asSlice m
    .ok (o, s, xs)) = (.ok ([some (.val none), some (.val none), none, some (.val (some 50)),
      none, some (.val (some 51)), none, some (.nat 2), some (.val (some 30))], 15,
      [(2, 20), (3, 30), (5, 51)]) :
      Exec (List (Option (MapOut Nat Nat)) × Nat × List (Nat × Nat))) := by decide +kernel

/-- A comparator that says yes and no in turns. -/
def inTurns : KeyFns Bool Nat where
  lt s _ _ := (some s, !s)
  eq s _ _ := (some s, !s)

example : (∀ s a b, (inTurns.lt s a b).1 ≠ none ∧ (inTurns.eq s a b).1 ≠ none) ∧ (do
    let (o, s, v, m) ← VMap.runO (defaultAllocator RawAlloc.bump) inTurns true
      [.insert 5 50, .insert 5 51, .insert 5 52, .insert 5 53, .get 7, .remove 7]
      Vec.new Mem.empty true
    let xs ← v.asSlice m
    .ok (o, s, xs)) = (.ok ([some (.val none), some (.val none), some (.val none),
      some (.val none), some (.val none), some (.val none)], true,
      [(5, 50), (5, 52), (5, 53), (5, 51)]) :
      Exec (List (Option (MapOut Nat Nat)) × Bool × List (Nat × Nat))) := by
  refine ⟨by simp [inTurns], by decide +kernel⟩

end Verif
