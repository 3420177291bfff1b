import Verif.Nested.Maps
import Verif.Props.Nested
import Verif.Props.VectorMap

/-!
# C129: maps whose values are vectors
-/

set_option autoImplicit false

namespace Verif
open Spec

variable {α K : Type}

/-- C129 for `HashMap<K, Vector<T>>`, with a mutable reference to the value of every key.  As for
vectors of vectors, as long as there can be no more than 2557710464 entries (C53); but the map's arrays
of buckets are not given back (C55), only its nodes are. -/
theorem C129_hash_map_of_vectors (R : RawAlloc α) {E : HEnv K Vec Unit} {mo : HMem K Vec}
    (S : HSetting E mo) (hV : E.ndV = true) (nd : Bool) (is : List (NestItem (Kind.table E.eq) α))
    (hlen : is.length ≤ 2557710464)
    (hin : nd = true → ∀ i ∈ is, ∀ op ∈ i.scripts, op.isSlice = false) (m : Mem α) :
    match NestItem.run is ([] : List (K × List α)) with
    | .error e => (hashOuter E).run (defaultAllocator R) nd is (HTable.newIn E (), mo, []) m = .error e
    | .ok (os, _) => ∃ t' mo' l' m' t'' mo'' l'' m'' drops, ∃ arrays : List Nat,
        (hashOuter E).run (defaultAllocator R) nd is (HTable.newIn E (), mo, []) m =
          .ok (os, (t', mo', l'), m') ∧
        (hashOuter E).finish (defaultAllocator R) nd (t', mo', l') m' = .ok ((t'', mo'', l''), m'') ∧
        mo''.n.reg = mo.n.reg ∧ mo''.n.node = mo.n.node ∧
        (∀ b ∈ arrays, mo.b.live b = none) ∧ (∀ b, b ∉ arrays → mo''.b.live b = mo.b.live b) ∧
        m''.live = m.live ∧ m''.dropped = m.dropped ++ drops ∧
        (nd = true → (NestItem.movedIn is os).Perm (NestOut.movedOut os ++ drops)) := by
  have h0 : HashOuterInv E mo is.length (HTable.newIn E (), mo, []) [] :=
    ⟨0, [], [[]], S.init, .refl _, by simpa using hlen⟩
  have h := Outer.whole_ok (KindLaw.table E.eq) (hashOuter_law S hV) (defaultAllocator_lawful R)
    (fun _ => rfl) rfl nd is (fun i _ => by cases i <;> trivial) hin (Nat.le_refl _) m h0
  have hn : ((Kind.table E.eq).nil : (Kind.table E.eq).St (List α)) = ([] : List (K × List α)) := rfl
  rw [hn] at h
  cases hs : NestItem.run is ([] : List (K × List α)) with
  | error e => rw [hs] at h; exact h
  | ok q =>
    obtain ⟨os, xss⟩ := q
    rw [hs] at h
    obtain ⟨⟨t', mo', l'⟩, m', ⟨t'', mo'', l''⟩, m'', ds, e1, e2, ⟨e3, e3', bl, e3''⟩, e4, e5, e6⟩ := h
    exact ⟨t', mo', l', m', t'', mo'', l'', m'', ds, bl, e1, e2, e3, e3', e3''.1, e3''.2, e4, e5, e6⟩

/-- A hash map from numbers to vectors, keys being equal when they agree modulo 100. -/
def exampleHashVec : HEnv Nat Vec Unit where
  hash := (· % 100)
  eq a b := a % 100 == b % 100
  size := 40
  align := 8
  ndK := true
  ndV := true
  A := defaultNAlloc Placer.bump none true
  R := RawAlloc.bump
  stat := 0

/-- A program that replaces, removes and keeps values, works on them in place, and clears. -/
def nestMapProgram (eq : Nat → Nat → Bool) : List (NestItem (Kind.table eq) Nat) :=
  [.call (.insert 1 [.push 1, .push 2]), .call (.insert 2 [.push 3]), .inside (1 : Nat) [.push 4, .remove 0],
    .call (.insert 101 [.push 5]), .call (.orInsert 2 [.push 6]), .call (.orInsert 3 []),
    .inside (3 : Nat) [.push 7, .push 8, .push 9, .pop], .call (.get 3), .inside (4 : Nat) [.push 0],
    .call (.remove 102), .call .len, .call (.removeEntry 1), .call .clear, .call (.insert 9 [.push 10]),
    .call .len]

/-- What a program sees of the vectors in the map. -/
def MapOut.shown {K : Type} : MapOut K (List Nat) → List (List Nat)
  | .nat n => [[n]]
  | r => r.vals

example : HSetting exampleHashVec exampleHashMem ∧
    (∀ i ∈ nestMapProgram exampleHashVec.eq, ∀ op ∈ i.scripts, op.isSlice = false) ∧
    (do
      let (os, s, m) ← (hashOuter exampleHashVec).run (defaultAllocator RawAlloc.bump) true
        (nestMapProgram exampleHashVec.eq) (HTable.newIn exampleHashVec (), exampleHashMem, []) Mem.empty
      let (_, m') ← (hashOuter exampleHashVec).finish (defaultAllocator RawAlloc.bump) true s m
      .ok (os.map (NestOut.numbers MapOut.shown), m.dropped, m'.dropped)) =
    (.ok ([[], [], [[1]], [[2, 4]], [[3]], [[]], [[9]], [[7, 8]], [], [[3]], [[2]], [[5]], [], [], [[1]]],
      [2, 4, 6, 3, 5, 7, 8], [2, 4, 6, 3, 5, 7, 8, 10]) : Exec (List (List (List Nat)) × List Nat × List Nat)) := by
  refine ⟨⟨⟨_, rfl⟩, show 0 < 40 by decide, ⟨?_, ?_⟩, ?_, ?_, ?_⟩, ?_, by decide +kernel⟩
  · intro a b h; simp [exampleHashVec] at h ⊢; omega
  · intro a b c h h'; simp [exampleHashVec] at h h' ⊢; omega
  · intro a b h; simp [exampleHashVec] at h ⊢; exact h
  · exact ⟨fun a b r r' h => (nomatch h), fun q h => absurd rfl h, fun a r h => (nomatch h)⟩
  · refine ⟨_, rfl, rfl, ?_⟩
    intro i hi
    match i, hi with
    | 0, _ => rfl
    | 1, _ => rfl
  · decide

/-- C129 for `VectorMap<K, Vector<T>>`, with a mutable reference to the value of every key, for a
strict weak order of the keys and its equality: as for vectors of vectors. -/
theorem C129_vector_map_of_vectors (R : RawAlloc α) (Q : RawAlloc (K × Vec)) {lt eq : K → K → Bool}
    (hw : StrictWeak lt) (hc : Consistent lt eq) (nd : Bool) (is : List (NestItem (Kind.table eq) α))
    (hin : nd = true → ∀ i ∈ is, ∀ op ∈ i.scripts, op.isSlice = false) (m : Mem α)
    (mo : Mem (K × Vec)) :
    match NestItem.run is ([] : List (K × List α)) with
    | .error e => (vmapOuter Q lt eq).run (defaultAllocator R) nd is (Vec.new, mo, []) m = .error e
    | .ok (os, _) => ∃ v' mo' l' m' v'' mo'' l'' m'' drops,
        (vmapOuter Q lt eq).run (defaultAllocator R) nd is (Vec.new, mo, []) m =
          .ok (os, (v', mo', l'), m') ∧
        (vmapOuter Q lt eq).finish (defaultAllocator R) nd (v', mo', l') m' =
          .ok ((v'', mo'', l''), m'') ∧
        mo''.live = mo.live ∧ m''.live = m.live ∧ m''.dropped = m.dropped ++ drops ∧
        (nd = true → (NestItem.movedIn is os).Perm (NestOut.movedOut os ++ drops)) := by
  have h0 : VMapOuterInv Q lt eq mo.live (Vec.new, mo, []) [] :=
    ⟨[], ⟨0, VInv.new defaultFits mo⟩, List.Pairwise.nil, List.Pairwise.nil, .refl _⟩
  have h := Outer.whole_ok (KindLaw.table eq) (vmapOuter_law Q hw hc mo.live) (defaultAllocator_lawful R)
    (fun _ => rfl) rfl nd is (fun i _ => by cases i <;> trivial) hin (Nat.le_refl _) m h0
  have hn : ((Kind.table eq).nil : (Kind.table eq).St (List α)) = ([] : List (K × List α)) := rfl
  rw [hn] at h
  cases hs : NestItem.run is ([] : List (K × List α)) with
  | error e => rw [hs] at h; exact h
  | ok q =>
    obtain ⟨os, xss⟩ := q
    rw [hs] at h
    obtain ⟨⟨v', mo', l'⟩, m', ⟨v'', mo'', l''⟩, m'', ds, e1, e2, e3, e4, e5, e6⟩ := h
    exact ⟨v', mo', l', m', v'', mo'', l'', m'', ds, e1, e2, e3, e4, e5, e6⟩

example : (∀ i ∈ nestMapProgram (fun a b => a == b), ∀ op ∈ i.scripts, op.isSlice = false) ∧
    (do
      let C := vmapOuter (RawAlloc.bump (α := Nat × Vec)) (fun a b => decide (a < b)) (fun a b => a == b)
      let (os, s, m) ← C.run (defaultAllocator RawAlloc.bump) true
        (nestMapProgram (fun a b => a == b)) (Vec.new, Mem.empty, []) Mem.empty
      let (_, m') ← C.finish (defaultAllocator RawAlloc.bump) true s m
      .ok (os.map (NestOut.numbers MapOut.shown), m.dropped, m'.dropped)) =
    (.ok ([[], [], [[1]], [], [[3]], [[]], [[9]], [[7, 8]], [], [], [[4]], [[2, 4]], [], [], [[1]]],
      [6, 2, 4, 3, 7, 8, 5], [6, 2, 4, 3, 7, 8, 5, 10]) : Exec (List (List (List Nat)) × List Nat × List Nat)) := by
  refine ⟨?_, rfl⟩
  decide

end Verif
