import Verif.Nested.Outers
import Verif.Props.Deque

/-!
# C129: containers of vectors

The elements are themselves vectors, with memory of their own, reached through mutable references and
destroyed when the container drops them.
-/

set_option autoImplicit false

namespace Verif
open Spec

variable {α : Type}

/-- C129 for `Vector<Vector<T>>`.  A program that builds vectors, moves them into a vector, calls it,
reads what it returns, and calls the vectors inside through `&mut`, observes exactly what it would
on a sequence of sequences, or panics if that does.  When the vector is dropped at the end, all
memory of both levels is given back, and every element of a vector inside is handed to the program
or dropped, exactly once.  (Calls that clone a slice: see C07; here none of vectors, and if elements
have destructors none of elements.) -/
theorem C129_vector_of_vectors (R : RawAlloc α) (Q : RawAlloc Vec) (nd : Bool)
    (is : List (NestItem Kind.vector α)) (hok : ∀ i ∈ is, i.Ok SeqOp.single)
    (hin : nd = true → ∀ i ∈ is, ∀ op ∈ i.scripts, op.isSlice = false) (m : Mem α) (mo : Mem Vec) :
    match NestItem.run is ([] : List (List α)) with
    | .error e => (vecOuter Q).run (defaultAllocator R) nd is (Vec.new, mo) m = .error e
    | .ok (os, _) => ∃ v' mo' m' v'' mo'' m'' drops,
        (vecOuter Q).run (defaultAllocator R) nd is (Vec.new, mo) m = .ok (os, (v', mo'), m') ∧
        (vecOuter Q).finish (defaultAllocator R) nd (v', mo') m' = .ok ((v'', mo''), m'') ∧
        mo''.live = mo.live ∧ m''.live = m.live ∧ m''.dropped = m.dropped ++ drops ∧
        (nd = true → (NestItem.movedIn is os).Perm (NestOut.movedOut os ++ drops)) := by
  have h0 : VecOuterInv Q mo.live (Vec.new, mo) [] := ⟨0, VInv.new defaultFits mo⟩
  have h := Outer.whole_ok KindLaw.vector (vecOuter_law Q mo.live) (defaultAllocator_lawful R)
    (fun _ => rfl) rfl nd is hok hin (Nat.le_refl _) m h0
  have hn : (Kind.vector.nil : Kind.vector.St (List α)) = ([] : List (List α)) := rfl
  rw [hn] at h
  cases hs : NestItem.run is ([] : List (List α)) with
  | error e => rw [hs] at h; exact h
  | ok q =>
    obtain ⟨os, xss⟩ := q
    rw [hs] at h
    obtain ⟨⟨v', mo'⟩, m', ⟨v'', mo''⟩, m'', ds, e1, e2, e3, e4, e5, e6⟩ := h
    exact ⟨v', mo', m', v'', mo'', m'', ds, e1, e2, e3, e4, e5, e6⟩

/-- The numbers a program sees. -/
def NestOut.numbers {k : Kind} (f : k.Res (List Nat) → List (List Nat)) :
    NestOut k Nat → List (List Nat)
  | .call _ r => f r
  | .inside none => []
  | .inside (some os) => [os.flatMap Out.elems]

/-- A program that pushes vectors, works on them in place, removes, replaces and reads. -/
def nestVecProgram : List (NestItem Kind.vector Nat) :=
  [.call (.push [.push 1, .push 2]), .call (.insert 0 [.push 3]), .inside (0 : Nat) [.push 4, .remove 0],
    .call (.push []), .inside (2 : Nat) [.push 5, .push 6, .push 7, .pop], .call .slice,
    .call (.remove 1), .call (.set 0 [.push 8]), .inside (7 : Nat) [.push 9], .call .slice]

example : (∀ i ∈ nestVecProgram, i.Ok SeqOp.single) ∧
    (∀ i ∈ nestVecProgram, ∀ op ∈ i.scripts, op.isSlice = false) ∧
    (do
      let (os, s, m) ← (vecOuter RawAlloc.bump).run (defaultAllocator RawAlloc.bump) true nestVecProgram
        (Vec.new, Mem.empty) Mem.empty
      let (_, m') ← (vecOuter RawAlloc.bump).finish (defaultAllocator RawAlloc.bump) true s m
      .ok (os.map (NestOut.numbers Out.elems), m.dropped, m'.dropped)) =
    (.ok ([[], [], [[3]], [], [[7]], [[4], [1, 2], [5, 6]], [[1, 2]], [], [], [[8], [5, 6]]],
      [1, 2, 4], [1, 2, 4, 8, 5, 6]) : Exec (List (List (List Nat)) × List Nat × List Nat)) := by
  refine ⟨?_, ?_, rfl⟩
  · simp [nestVecProgram, NestItem.Ok, SeqOp.single]
  · decide

/-- C129 for `Deque<Vector<T>>`, with mutable references to the vectors at the front and back.  As
for vectors; but the deque's own memory is not given back entirely (C32): one of its subarrays stays,
without elements. -/
theorem C129_deque_of_vectors (R : RawAlloc α) (E : DEnv Vec) (hS : 0 < E.S) (nd : Bool)
    (is : List (NestItem Kind.deque α))
    (hin : nd = true → ∀ i ∈ is, ∀ op ∈ i.scripts, op.isSlice = false) (m : Mem α) (mo : DMem Vec) :
    ∃ d mo1, Deque.newIn E mo = .ok (d, mo1) ∧
    match NestItem.run is ([] : List (List α)) with
    | .error e => (dequeOuter E).run (defaultAllocator R) nd is (d, mo1) m = .error e
    | .ok (os, _) => ∃ d' mo' m' d'' mo'' m'' drops B,
        (dequeOuter E).run (defaultAllocator R) nd is (d, mo1) m = .ok (os, (d', mo'), m') ∧
        (dequeOuter E).finish (defaultAllocator R) nd (d', mo') m' = .ok ((d'', mo''), m'') ∧
        mo''.p.live = mo.p.live ∧ (∀ b, b ≠ B → mo''.t.live b = mo.t.live b) ∧
        m''.live = m.live ∧ m''.dropped = m.dropped ++ drops ∧
        (nd = true → (NestItem.movedIn is os).Perm (NestOut.movedOut os ++ drops)) := by
  obtain ⟨d, mo1, g1, g2, g3⟩ := DInv.newIn E hS mo
  refine ⟨d, mo1, g1, ?_⟩
  have h0 : DequeOuterInv E mo (d, mo1) [] := g2
  have h := Outer.whole_ok KindLaw.deque (dequeOuter_law E mo) (defaultAllocator_lawful R)
    (fun _ => rfl) rfl nd is (fun i _ => by cases i <;> trivial) hin (Nat.le_refl _) m h0
  have hn : (Kind.deque.nil : Kind.deque.St (List α)) = ([] : List (List α)) := rfl
  rw [hn] at h
  cases hs : NestItem.run is ([] : List (List α)) with
  | error e => rw [hs] at h; exact h
  | ok q =>
    obtain ⟨os, xss⟩ := q
    rw [hs] at h
    obtain ⟨⟨d', mo'⟩, m', ⟨d'', mo''⟩, m'', ds, e1, e2, ⟨e3, B, e3'⟩, e4, e5, e6⟩ := h
    exact ⟨d', mo', m', d'', mo'', m'', ds, B, e1, e2, e3, fun b hb => e3'.out b (by simpa using hb),
      e4, e5, e6⟩

/-- A program that uses both ends. -/
def nestDeqProgram : List (NestItem Kind.deque Nat) :=
  [.call (.setBack [.push 9]), .call (.pushBack [.push 1, .push 2]), .call (.pushFront [.push 3]),
    .inside .front [.push 4], .call (.pushBack []), .inside .back [.push 5, .push 6], .call .front,
    .call (.remove 1), .call (.setFront [.push 8]), .call .front, .call .popBack]

example : (∀ i ∈ nestDeqProgram, ∀ op ∈ i.scripts, op.isSlice = false) ∧
    (do
      let E : DEnv Vec := ⟨2, true, RawAlloc.bump, RawAlloc.bump⟩
      let s ← Deque.newIn E ⟨Mem.empty, Mem.empty⟩
      let (os, s, m) ← (dequeOuter E).run (defaultAllocator RawAlloc.bump) true nestDeqProgram s Mem.empty
      let (_, m') ← (dequeOuter E).finish (defaultAllocator RawAlloc.bump) true s m
      .ok (os.map (NestOut.numbers Out.elems), m.dropped, m'.dropped)) =
    (.ok ([[], [], [], [[]], [], [[]], [[3, 4]], [[1, 2]], [], [[8]], [[5, 6]]],
      [9, 1, 2, 3, 4, 5, 6], [9, 1, 2, 3, 4, 5, 6, 8]) :
        Exec (List (List (List Nat)) × List Nat × List Nat)) := by
  refine ⟨?_, rfl⟩
  decide

/-- C129 for `List<Vector<T>>`, with mutable references to the vectors at the front and back.
(`extend` moves in several vectors: as many calls of `push_back` do the same.) -/
theorem C129_list_of_vectors (R : RawAlloc α) (P : Placer (LNode Vec) Vec) {size : Nat}
    (hsz : 0 < size) (align : Nat) (nd : Bool) (is : List (NestItem Kind.list α))
    (hok : ∀ i ∈ is, i.Ok ListOp.single)
    (hin : nd = true → ∀ i ∈ is, ∀ op ∈ i.scripts, op.isSlice = false) (m : Mem α) (mo : LMem Vec)
    (hwf : mo.WF) (s : Nat) (hs : mo.node s ≠ none) :
    let E := listEnv P size align true false
    ∃ l mo1, LList.newIn () s mo = .ok (l, mo1) ∧
    match NestItem.run is ([] : List (List α)) with
    | .error e => (listOuter E).run (defaultAllocator R) nd is (l, mo1) m = .error e
    | .ok (os, _) => ∃ l' mo' m' l'' mo'' m'' drops,
        (listOuter E).run (defaultAllocator R) nd is (l, mo1) m = .ok (os, (l', mo'), m') ∧
        (listOuter E).finish (defaultAllocator R) nd (l', mo') m' = .ok ((l'', mo''), m'') ∧
        (∀ q, mo''.reg q = mo.reg q) ∧ (∀ q, q ≠ s → mo''.node q = mo.node q) ∧
        m''.live = m.live ∧ m''.dropped = m.dropped ++ drops ∧
        (nd = true → (NestItem.movedIn is os).Perm (NestOut.movedOut os ++ drops)) := by
  intro E
  have L : LLaw E (DefInv mo size align) := listEnv_law P align true hsz mo
  obtain ⟨l, mo1, g1, g2, g3, g4, g5⟩ := LRep.newIn hs L (DefInv.init hwf size align)
  refine ⟨l, mo1, g1, ?_⟩
  have h0 : ListOuterInv E (DefInv mo size align) s mo (l, mo1) [] := ⟨[], g4, g2, g5⟩
  have h := Outer.whole_ok KindLaw.list (listOuter_law L s mo) (defaultAllocator_lawful R)
    (fun _ => rfl) rfl nd is hok hin (Nat.le_refl _) m h0
  have hn : (Kind.list.nil : Kind.list.St (List α)) = ([] : List (List α)) := rfl
  rw [hn] at h
  cases hr : NestItem.run is ([] : List (List α)) with
  | error e => rw [hr] at h; exact h
  | ok q =>
    obtain ⟨os, xss⟩ := q
    rw [hr] at h
    obtain ⟨⟨l', mo'⟩, m', ⟨l'', mo''⟩, m'', ds, e1, e2, ⟨⟨_, e3⟩, e3'⟩, e4, e5, e6⟩ := h
    refine ⟨l', mo', m', l'', mo'', m'', ds, e1, e2, fun q => e3.out q (by simp), ?_, e4, e5, e6⟩
    intro q hq
    by_cases hn : mo.node q = none
    · exact ((e3.node q (by simp)).2 hn).trans hn.symm
    · exact (e3' q hn (by simpa using hq)).2

/-- Memory with room for a list object at 64. -/
def nestListMem : LMem Vec where
  node a := if a = 64 then some LNode.uninit else none
  link := fun _ => none
  reg a := if a = 64 then some ⟨32, 8, false⟩ else none
  top := 96
  top_ok := by intro a r h; split_ifs at h with h'; cases h; subst h'; decide
  dropped := []

theorem nestListMem_wf : nestListMem.WF where
  disj a b r r' h1 h2 hne := by
    unfold nestListMem at h1 h2
    dsimp only at h1 h2
    split_ifs at h1 h2
    omega
  cover q hq := by
    unfold nestListMem at hq ⊢
    dsimp only at hq ⊢
    by_cases h : q = 64
    · exact ⟨64, ⟨32, 8, false⟩, by simp, by omega, by simp; omega⟩
    · simp [h] at hq
  null a r h := by
    unfold nestListMem at h
    dsimp only at h
    split_ifs at h
    omega

/-- A program that uses both ends and clears. -/
def nestListProgram : List (NestItem Kind.list Nat) :=
  [.call (.pushBack [.push 1, .push 2]), .call (.pushFront [.push 3]), .inside .front [.push 4, .push 5],
    .call .back, .call .popFront, .call (.setBack [.push 6]), .call .clear, .inside .back [.push 0],
    .call (.pushFront [.push 7, .push 8, .remove 0]), .call .front]

example : nestListMem.node 64 ≠ none ∧ (∀ i ∈ nestListProgram, i.Ok ListOp.single) ∧
    (∀ i ∈ nestListProgram, ∀ op ∈ i.scripts, op.isSlice = false) ∧
    (do
      let E : LEnv Vec Unit := listEnv Placer.bump 40 8 true false
      let s ← LList.newIn () 64 nestListMem
      let (os, s, m) ← (listOuter E).run (defaultAllocator RawAlloc.bump) true nestListProgram s Mem.empty
      let (_, m') ← (listOuter E).finish (defaultAllocator RawAlloc.bump) true s m
      .ok (os.map (NestOut.numbers Out.elems), m.dropped, m'.dropped)) =
    (.ok ([[], [], [[]], [[1, 2]], [[3, 4, 5]], [], [], [], [], [[8]]],
      [3, 4, 5, 1, 2, 6], [3, 4, 5, 1, 2, 6, 8]) :
        Exec (List (List (List Nat)) × List Nat × List Nat)) := by
  refine ⟨by decide, ?_, ?_, rfl⟩
  · simp [nestListProgram, NestItem.Ok, ListOp.single]
  · decide

end Verif
