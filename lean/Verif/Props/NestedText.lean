import Verif.Nested.TextProofs
import Verif.Props.NestedMap

/-!
# C159: containers of strings

As C129, with strings in the containers in place of vectors.
-/

set_option autoImplicit false

namespace Verif
open Spec

variable {K : Type}

/-- C159 for `Vector<String>`.  A program that builds strings, moves them into a vector, calls it, reads
what it returns, and calls the strings inside through `&mut`, observes exactly what it would on a
sequence of sequences of bytes, or panics if that does.  When the vector is dropped at the end, all
memory of the vector and of the strings is given back. -/
theorem C159_vector_of_strings (R : RawAlloc UInt8) (Q : RawAlloc Vec) (is : List (TextItem Kind.vector))
    (hok : ∀ i ∈ is, i.Ok SeqOp.single) (m : Mem UInt8) (mo : Mem Vec) :
    match TextItem.run is ([] : List (List UInt8)) with
    | .error e => (vecOuter Q).runT (strAlloc R) is (Vec.new, mo) m = .error e
    | .ok (os, _) => ∃ v' mo' m' v'' mo'' m'',
        (vecOuter Q).runT (strAlloc R) is (Vec.new, mo) m = .ok (os, (v', mo'), m') ∧
        (vecOuter Q).finish (strAlloc R) false (v', mo') m' = .ok ((v'', mo''), m'') ∧
        mo''.live = mo.live ∧ m''.live = m.live := by
  have h0 : VecOuterInv Q mo.live (Vec.new, mo) [] := ⟨0, VInv.new defaultFits mo⟩
  have h := Outer.wholeT_ok KindLaw.vector (vecOuter_law Q mo.live) (fun _ => rfl) rfl R is hok
    (Nat.le_refl _) m h0
  have hn : (Kind.vector.nil : Kind.vector.St (List UInt8)) = ([] : List (List UInt8)) := rfl
  rw [hn] at h
  cases hs : TextItem.run is ([] : List (List UInt8)) with
  | error e => rw [hs] at h; exact h
  | ok q =>
    obtain ⟨os, xss⟩ := q
    rw [hs] at h
    obtain ⟨⟨v', mo'⟩, m', ⟨v'', mo''⟩, m'', e1, e2, e3, e4⟩ := h
    exact ⟨v', mo', m', v'', mo'', m'', e1, e2, e3, e4⟩

/-- C159 for `Deque<String>`, with mutable references to the strings at the front and back; as for
C129, one subarray of the deque stays (C32). -/
theorem C159_deque_of_strings (R : RawAlloc UInt8) (E : DEnv Vec) (hS : 0 < E.S)
    (is : List (TextItem Kind.deque)) (m : Mem UInt8) (mo : DMem Vec) :
    ∃ d mo1, Deque.newIn E mo = .ok (d, mo1) ∧
    match TextItem.run is ([] : List (List UInt8)) with
    | .error e => (dequeOuter E).runT (strAlloc R) is (d, mo1) m = .error e
    | .ok (os, _) => ∃ d' mo' m' d'' mo'' m'' B,
        (dequeOuter E).runT (strAlloc R) is (d, mo1) m = .ok (os, (d', mo'), m') ∧
        (dequeOuter E).finish (strAlloc R) false (d', mo') m' = .ok ((d'', mo''), m'') ∧
        mo''.p.live = mo.p.live ∧ (∀ b, b ≠ B → mo''.t.live b = mo.t.live b) ∧
        m''.live = m.live := by
  obtain ⟨d, mo1, g1, g2, g3⟩ := DInv.newIn E hS mo
  refine ⟨d, mo1, g1, ?_⟩
  have h0 : DequeOuterInv E mo (d, mo1) [] := g2
  have h := Outer.wholeT_ok KindLaw.deque (dequeOuter_law E mo) (fun _ => rfl) rfl R is
    (fun i _ => by cases i <;> trivial) (Nat.le_refl _) m h0
  have hn : (Kind.deque.nil : Kind.deque.St (List UInt8)) = ([] : List (List UInt8)) := rfl
  rw [hn] at h
  cases hs : TextItem.run is ([] : List (List UInt8)) with
  | error e => rw [hs] at h; exact h
  | ok q =>
    obtain ⟨os, xss⟩ := q
    rw [hs] at h
    obtain ⟨⟨d', mo'⟩, m', ⟨d'', mo''⟩, m'', e1, e2, ⟨e3, B, e3'⟩, e4⟩ := h
    exact ⟨d', mo', m', d'', mo'', m'', B, e1, e2, e3, fun b hb => e3'.out b (by simpa using hb), e4⟩

/-- C159 for `List<String>`, with mutable references to the strings at the front and back. -/
theorem C159_list_of_strings (R : RawAlloc UInt8) (P : Placer (LNode Vec) Vec) {size : Nat}
    (hsz : 0 < size) (align : Nat) (is : List (TextItem Kind.list))
    (hok : ∀ i ∈ is, i.Ok ListOp.single) (m : Mem UInt8) (mo : LMem Vec)
    (hwf : mo.WF) (s : Nat) (hs : mo.node s ≠ none) :
    let E := listEnv P size align true false
    ∃ l mo1, LList.newIn () s mo = .ok (l, mo1) ∧
    match TextItem.run is ([] : List (List UInt8)) with
    | .error e => (listOuter E).runT (strAlloc R) is (l, mo1) m = .error e
    | .ok (os, _) => ∃ l' mo' m' l'' mo'' m'',
        (listOuter E).runT (strAlloc R) is (l, mo1) m = .ok (os, (l', mo'), m') ∧
        (listOuter E).finish (strAlloc R) false (l', mo') m' = .ok ((l'', mo''), m'') ∧
        (∀ q, mo''.reg q = mo.reg q) ∧ (∀ q, q ≠ s → mo''.node q = mo.node q) ∧
        m''.live = m.live := by
  intro E
  have L : LLaw E (DefInv mo size align) := listEnv_law P align true hsz mo
  obtain ⟨l, mo1, g1, g2, g3, g4, g5⟩ := LRep.newIn hs L (DefInv.init hwf size align)
  refine ⟨l, mo1, g1, ?_⟩
  have h0 : ListOuterInv E (DefInv mo size align) s mo (l, mo1) [] := ⟨[], g4, g2, g5⟩
  have h := Outer.wholeT_ok KindLaw.list (listOuter_law L s mo) (fun _ => rfl) rfl R is hok
    (Nat.le_refl _) m h0
  have hn : (Kind.list.nil : Kind.list.St (List UInt8)) = ([] : List (List UInt8)) := rfl
  rw [hn] at h
  cases hr : TextItem.run is ([] : List (List UInt8)) with
  | error e => rw [hr] at h; exact h
  | ok q =>
    obtain ⟨os, xss⟩ := q
    rw [hr] at h
    obtain ⟨⟨l', mo'⟩, m', ⟨l'', mo''⟩, m'', e1, e2, ⟨⟨_, e3⟩, e3'⟩, e4⟩ := h
    refine ⟨l', mo', m', l'', mo'', m'', e1, e2, fun q => e3.out q (by simp), ?_, e4⟩
    intro q hq
    by_cases hn : mo.node q = none
    · exact ((e3.node q (by simp)).2 hn).trans hn.symm
    · exact (e3' q hn (by simpa using hq)).2

/-- C159 for `HashMap<K, String>`, with a mutable reference to the value of every key, as long as there
can be no more than 2557710464 entries (C53); the map's arrays of buckets are not given back (C55), its
nodes and the strings are. -/
theorem C159_hash_map_to_strings (R : RawAlloc UInt8) {E : HEnv K Vec Unit} {mo : HMem K Vec}
    (S : HSetting E mo) (hV : E.ndV = true) (is : List (TextItem (Kind.table E.eq)))
    (hlen : is.length ≤ 2557710464) (m : Mem UInt8) :
    match TextItem.run is ([] : List (K × List UInt8)) with
    | .error e => (hashOuter E).runT (strAlloc R) is (HTable.newIn E (), mo, []) m = .error e
    | .ok (os, _) => ∃ t' mo' l' m' t'' mo'' l'' m'', ∃ arrays : List Nat,
        (hashOuter E).runT (strAlloc R) is (HTable.newIn E (), mo, []) m = .ok (os, (t', mo', l'), m') ∧
        (hashOuter E).finish (strAlloc R) false (t', mo', l') m' = .ok ((t'', mo'', l''), m'') ∧
        mo''.n.reg = mo.n.reg ∧ mo''.n.node = mo.n.node ∧
        (∀ b ∈ arrays, mo.b.live b = none) ∧ (∀ b, b ∉ arrays → mo''.b.live b = mo.b.live b) ∧
        m''.live = m.live := by
  have h0 : HashOuterInv E mo is.length (HTable.newIn E (), mo, []) [] :=
    ⟨0, [], [[]], S.init, .refl _, by simpa using hlen⟩
  have h := Outer.wholeT_ok (KindLaw.table E.eq) (hashOuter_law S hV) (fun _ => rfl) rfl R is
    (fun i _ => by cases i <;> trivial) (Nat.le_refl _) m h0
  have hn : ((Kind.table E.eq).nil : (Kind.table E.eq).St (List UInt8)) = ([] : List (K × List UInt8)) := rfl
  rw [hn] at h
  cases hs : TextItem.run is ([] : List (K × List UInt8)) with
  | error e => rw [hs] at h; exact h
  | ok q =>
    obtain ⟨os, xss⟩ := q
    rw [hs] at h
    obtain ⟨⟨t', mo', l'⟩, m', ⟨t'', mo'', l''⟩, m'', e1, e2, ⟨e3, e3', bl, e3''⟩, e4⟩ := h
    exact ⟨t', mo', l', m', t'', mo'', l'', m'', bl, e1, e2, e3, e3', e3''.1, e3''.2, e4⟩

/-- C159 for `VectorMap<K, String>`, with a mutable reference to the value of every key, for a strict
weak order of the keys and its equality. -/
theorem C159_vector_map_to_strings (R : RawAlloc UInt8) (Q : RawAlloc (K × Vec)) {lt eq : K → K → Bool}
    (hw : StrictWeak lt) (hc : Consistent lt eq) (is : List (TextItem (Kind.table eq))) (m : Mem UInt8)
    (mo : Mem (K × Vec)) :
    match TextItem.run is ([] : List (K × List UInt8)) with
    | .error e => (vmapOuter Q lt eq).runT (strAlloc R) is (Vec.new, mo, []) m = .error e
    | .ok (os, _) => ∃ v' mo' l' m' v'' mo'' l'' m'',
        (vmapOuter Q lt eq).runT (strAlloc R) is (Vec.new, mo, []) m = .ok (os, (v', mo', l'), m') ∧
        (vmapOuter Q lt eq).finish (strAlloc R) false (v', mo', l') m' = .ok ((v'', mo'', l''), m'') ∧
        mo''.live = mo.live ∧ m''.live = m.live := by
  have h0 : VMapOuterInv Q lt eq mo.live (Vec.new, mo, []) [] :=
    ⟨[], ⟨0, VInv.new defaultFits mo⟩, List.Pairwise.nil, List.Pairwise.nil, .refl _⟩
  have h := Outer.wholeT_ok (KindLaw.table eq) (vmapOuter_law Q hw hc mo.live) (fun _ => rfl) rfl R is
    (fun i _ => by cases i <;> trivial) (Nat.le_refl _) m h0
  have hn : ((Kind.table eq).nil : (Kind.table eq).St (List UInt8)) = ([] : List (K × List UInt8)) := rfl
  rw [hn] at h
  cases hs : TextItem.run is ([] : List (K × List UInt8)) with
  | error e => rw [hs] at h; exact h
  | ok q =>
    obtain ⟨os, xss⟩ := q
    rw [hs] at h
    obtain ⟨⟨v', mo', l'⟩, m', ⟨v'', mo'', l''⟩, m'', e1, e2, e3, e4⟩ := h
    exact ⟨v', mo', l', m', v'', mo'', l'', m'', e1, e2, e3, e4⟩

/-- What a program sees of the strings. -/
def TextOut.seen {k : Kind} (f : k.Res (List UInt8) → List (List UInt8)) :
    TextOut k → List (List UInt8) × List StrOut
  | .call os r => (f r, os)
  | .inside os => ([], os.getD [])

/-- A program that pushes strings, works on them in place, removes, replaces and reads. -/
def textVecProgram : List (TextItem Kind.vector) :=
  [.call (.push [.assign ['a', 'b']]), .call (.insert 0 [.push 'c', .push 'é']),
    .inside (0 : Nat) [.push 'd', .remove 0], .call (.push []),
    .inside (2 : Nat) [.assign ['é'], .len], .call .slice, .call (.remove 1), .call (.set 0 [.push 'e']),
    .inside (7 : Nat) [.pop], .call .slice]

example : (∀ i ∈ textVecProgram, i.Ok SeqOp.single) ∧
    (do
      let (os, s, m) ← (vecOuter RawAlloc.bump).runT (strAlloc RawAlloc.bump) textVecProgram
        (Vec.new, Mem.empty) Mem.empty
      let (_, m') ← (vecOuter RawAlloc.bump).finish (strAlloc RawAlloc.bump) false s m
      .ok (os.map (TextOut.seen Out.elems), (List.range 8).map fun b => (m'.live b).isSome)) =
    (.ok ([([], [.unit]), ([], [.unit, .unit]), ([], [.unit, .char (some 'c')]), ([], []),
      ([], [.unit, .nat 2]), ([[0xE9, 0x64], [0x61, 0x62], [0xC3, 0xA9]], []), ([[0x61, 0x62]], []),
      ([], [.unit]), ([], []), ([[0x65], [0xC3, 0xA9]], [])], List.replicate 8 false) :
      Exec (List (List (List UInt8) × List StrOut) × List Bool)) := by
  refine ⟨?_, by decide +kernel⟩
  simp [textVecProgram, TextItem.Ok, SeqOp.single]

/-- A program that uses both ends, and one that uses a map. -/
def textDeqProgram : List (TextItem Kind.deque) :=
  [.call (.pushBack [.push 'a']), .call (.pushFront [.assign ['b', 'c']]), .inside .back [.push 'd'],
    .call .popBack, .inside .front [.pop, .pop, .pop, .isEmpty], .call .front, .call (.setFront [.push 'e']),
    .call .popFront, .inside .front [.len]]

example :
    (do
      let E : DEnv Vec := ⟨2, true, RawAlloc.bump, RawAlloc.bump⟩
      let s ← Deque.newIn E ⟨Mem.empty, Mem.empty⟩
      let (os, s, m) ← (dequeOuter E).runT (strAlloc RawAlloc.bump) textDeqProgram s Mem.empty
      let (_, m') ← (dequeOuter E).finish (strAlloc RawAlloc.bump) false s m
      .ok (os.map (TextOut.seen Out.elems), (List.range 8).map fun b => (m'.live b).isSome)) =
    (.ok ([([], [.unit]), ([], [.unit]), ([], [.unit]), ([[0x61, 0x64]], []),
      ([], [.char (some 'c'), .char (some 'b'), .char none, .bool true]), ([[]], []), ([], [.unit]),
      ([[0x65]], []), ([], [])], List.replicate 8 false) :
      Exec (List (List (List UInt8) × List StrOut) × List Bool)) := by
  decide +kernel

def textListProgram : List (TextItem Kind.list) :=
  [.call (.pushBack [.push 'a']), .call (.pushFront [.assign ['b', 'c']]), .inside .front [.insert 1 'd'],
    .call .front, .call .popBack, .call .clear, .inside .back [.push 'e'], .call .len]

example : nestListMem.node 64 ≠ none ∧ (∀ i ∈ textListProgram, i.Ok ListOp.single) ∧
    (do
      let E : LEnv Vec Unit := listEnv Placer.bump 40 8 true false
      let s ← LList.newIn () 64 nestListMem
      let (os, s, m) ← (listOuter E).runT (strAlloc RawAlloc.bump) textListProgram s Mem.empty
      let (_, m') ← (listOuter E).finish (strAlloc RawAlloc.bump) false s m
      .ok (os.map (TextOut.seen Out.elems), (List.range 8).map fun b => (m'.live b).isSome)) =
    (.ok ([([], [.unit]), ([], [.unit]), ([], [.unit]), ([[0x62, 0x64, 0x63]], []), ([[0x61]], []),
      ([], []), ([], []), ([], [])], List.replicate 8 false) :
      Exec (List (List (List UInt8) × List StrOut) × List Bool)) := by
  refine ⟨by simp [nestListMem], ?_, by decide +kernel⟩
  simp [textListProgram, TextItem.Ok, ListOp.single]

/-- What a program sees of the strings in the map. -/
def MapOut.texts {K : Type} (r : MapOut K (List UInt8)) : List (List UInt8) := r.vals

def textMapProgram (eq : Nat → Nat → Bool) : List (TextItem (Kind.table eq)) :=
  [.call (.insert 1 [.assign ['a', 'b']]), .call (.insert 2 [.push 'c']), .inside (1 : Nat) [.pop, .push 'd'],
    .call (.insert 1 [.push 'e']), .call (.orInsert 2 [.push 'f']), .inside (2 : Nat) [.len],
    .call (.get 2), .call (.remove 1), .inside (4 : Nat) [.push 'g'], .call .clear,
    .call (.insert 9 [.push 'h'])]

example :
    (do
      let (os, s, m) ← (hashOuter exampleHashVec).runT (strAlloc RawAlloc.bump)
        (textMapProgram exampleHashVec.eq) (HTable.newIn exampleHashVec (), exampleHashMem, []) Mem.empty
      let (_, m') ← (hashOuter exampleHashVec).finish (strAlloc RawAlloc.bump) false s m
      .ok (os.map (TextOut.seen MapOut.texts), (List.range 8).map fun b => (m'.live b).isSome)) =
    (.ok ([([], [.unit]), ([], [.unit]), ([], [.char (some 'b'), .unit]), ([[0x61, 0x64]], [.unit]),
      ([[0x63]], [.unit]), ([], [.nat 1]), ([[0x63]], []), ([[0x65]], []), ([], []), ([], []),
      ([], [.unit])], List.replicate 8 false) :
      Exec (List (List (List UInt8) × List StrOut) × List Bool)) ∧
    (do
      let C := vmapOuter (RawAlloc.bump (α := Nat × Vec)) (fun a b => decide (a < b)) (fun a b => a == b)
      let (os, s, m) ← C.runT (strAlloc RawAlloc.bump) (textMapProgram (fun a b => a == b))
        (Vec.new, Mem.empty, []) Mem.empty
      let (_, m') ← C.finish (strAlloc RawAlloc.bump) false s m
      .ok (os.map (TextOut.seen MapOut.texts), (List.range 8).map fun b => (m'.live b).isSome)) =
    (.ok ([([], [.unit]), ([], [.unit]), ([], [.char (some 'b'), .unit]), ([[0x61, 0x64]], [.unit]),
      ([[0x63]], [.unit]), ([], [.nat 1]), ([[0x63]], []), ([[0x65]], []), ([], []), ([], []),
      ([], [.unit])], List.replicate 8 false) :
      Exec (List (List (List UInt8) × List StrOut) × List Bool)) := by
  refine ⟨by decide +kernel, by decide +kernel⟩

end Verif
