import Verif.Nested.KeyProofs

/-! C133: maps with strings as keys. -/

set_option autoImplicit false

namespace Verif
open Spec

variable {V : Type}

/-- C133 for `HashMap<String, V>` (and `HashSet<String>`, with `V` the unit type).  A program makes a
map and calls it with keys that it builds from byte strings; it reads every key it is given.  Nothing is
read that is not a live string, every result is that of a finite map from byte strings, and after the
map is dropped the memory of all strings has been given back, exactly once, and so have the nodes;
arrays of buckets stay (C55).  (`E.hash`, `E.eq` and `E.ndK` are of no importance: strings have their
own.) -/
theorem C133_hash_map_of_strings (R : RawAlloc UInt8) (E : HEnv Vec V Unit) (mo0 : HMem Vec V)
    (m0 : Mem UInt8) (hA : ∃ P, E.A = defaultNAlloc P none true) (hsz : 0 < E.size)
    (hwf : mo0.n.WF) (hst : ArrIs mo0.b E.stat [0, 2 ^ 64 - 1]) (ops : List (MapOp (List UInt8) V))
    (hpk : MapOp.peak (fun a b => a == b) ops [] ≤ 2557710464) :
    let A := nullTermAllocator (defaultAllocator R)
    ∃ t mo m mo' m', ∃ arrays : List Nat,
      StrMap.run E A ops (HTable.newIn E ()) mo0 m0 =
        .ok ((MapOp.run (fun a b => a == b) ops []).1, t, mo, m) ∧
      t.count = (MapOp.run (fun a b => a == b) ops ([] : List (List UInt8 × V))).2.length ∧
      StrMap.drop E A t mo m = .ok (mo', m') ∧
      m'.live = m0.live ∧ mo'.n.reg = mo0.n.reg ∧ mo'.n.node = mo0.n.node ∧
      (∀ b ∈ arrays, mo0.b.live b = none) ∧ ∀ b, b ∉ arrays → mo'.b.live b = mo0.b.live b := by
  intro A
  have L : HLaw E (DefInv mo0.n E.size E.align) := by
    obtain ⟨P, hP⟩ := hA
    unfold HLaw
    rw [hP]
    exact defaultNAlloc_law P none true hsz (by simp) mo0.n
  have h0 : StrMapInv E m0.live mo0 (HTable.newIn E ()) mo0 m0 ([] : List (List UInt8 × V)) :=
    ⟨0, [], [[]], HRep.init (E := strEnv E m0) hst (DefInv.init hwf E.size E.align), Pile.nil _ _, .refl _⟩
  obtain ⟨t, mo, m, e1, h1⟩ := StrMapInv.run R L ops h0 hpk
  obtain ⟨mo', m', e2, ⟨e3, e4, arrays, e5, e6⟩, e7⟩ := h1.drop R L
  refine ⟨t, mo, m, mo', m', arrays, e1, ?_, e2, e7, e3, e4, e5, e6⟩
  obtain ⟨peak, bl, cs, g1, g2, g3⟩ := h1
  have := g3.length_eq
  rw [List.length_map, ents_length] at this
  rw [g1.count, this]

/-- Where the example below runs. -/
def exampleStrHash : HEnv Vec Nat Unit :=
  ⟨fun _ => 0, fun _ _ => false, 40, 8, true, false, defaultNAlloc Placer.bump none true, RawAlloc.bump, 0⟩

def exampleStrMem : HMem Vec Nat where
  n := NMem.empty
  b := Mem.empty.setBlock 0 (some ⟨2, .inline, fun i => if i = 0 then some 0 else some (2 ^ 64 - 1)⟩)

/-- Keys of different lengths, an empty one, one given back, growth of the table, strings of the
program that die.  One other string is in memory, and is there at the end. -/
example : (∃ P, exampleStrHash.A = defaultNAlloc P none true) ∧ 0 < exampleStrHash.size ∧
    exampleStrMem.n.WF ∧ ArrIs exampleStrMem.b exampleStrHash.stat [0, 2 ^ 64 - 1] ∧
    (do
      let A := nullTermAllocator (defaultAllocator RawAlloc.bump)
      let (_, m0) ← Str.fromStr A [1] Mem.empty
      let (os, t, mo, m) ← StrMap.run exampleStrHash A
        [.insert [97] 1, .insert [97, 98] 2, .insert [] 3, .insert [97] 4, .get [97, 98], .entryKey [97],
         .entryKey [5], .insert [99] 6, .removeEntry [97], .contains [], .remove [], .len]
        (HTable.newIn exampleStrHash ()) exampleStrMem m0
      let (_, m') ← StrMap.drop exampleStrHash A t mo m
      .ok (os, (List.range 20).filter fun b => (m.live b).isSome,
        (List.range 20).filter fun b => (m'.live b).isSome)) =
    (.ok ([.val none, .val none, .val none, .val (some 1), .val (some 2), .key [97], .key [5], .val none,
        .pair (some ([97], 4)), .bool true, .val (some 3), .nat 2], [0, 2, 8], [0]) :
      Exec (List (MapOut (List UInt8) Nat) × List Nat × List Nat)) := by
  refine ⟨⟨_, rfl⟩, show 0 < 40 by decide, ?_, ?_, by decide +kernel⟩
  · exact ⟨fun a b r r' h => (nomatch h), fun q h => absurd rfl h, fun a r h => (nomatch h)⟩
  · refine ⟨_, rfl, rfl, ?_⟩
    intro i hi
    match i, hi with
    | 0, _ => rfl
    | 1, _ => rfl

end Verif
