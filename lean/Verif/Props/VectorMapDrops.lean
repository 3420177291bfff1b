import Verif.VectorMap.Drops
import Verif.Props.Oracle

/-!
# Who drops the keys and values of a `VectorMap` (C116)

`ndK` and `ndV` say whether keys and values have a destructor; pairs have one if either has.  `loc`
is what goes out of scope in the calls, `ps` the pairs the vector drops.  Only what has a destructor
is observed.
-/

set_option autoImplicit false

namespace Verif
open Spec

variable {σ K V : Type}

/-- Does it have a destructor? -/
def hasDrop (ndK ndV : Bool) : K ⊕ V → Bool
  | .inl _ => ndK
  | .inr _ => ndV

theorem filter_hasDrop {ndK ndV : Bool} (l : List (K ⊕ V)) (ps : List (K × V)) :
    (l ++ contents (if (ndK || ndV) then ps else [])).filter (hasDrop ndK ndV) =
      (l ++ contents ps).filter (hasDrop ndK ndV) := by
  cases h : (ndK || ndV) with
  | true => rfl
  | false =>
    simp only [Bool.or_eq_false_iff] at h
    have : ∀ x : K ⊕ V, hasDrop ndK ndV x = false := by
      intro x; cases x <;> simp [hasDrop, h.1, h.2]
    rw [List.filter_eq_nil_iff.2 (by simp [this]), List.filter_eq_nil_iff.2 (by simp [this])]

/-- C116.  Whatever comparator and `==` answer, and wherever they panic: after any history and the
drop of the map, what was dropped is what the calls had to drop (`CalledRun`: the second copy of a
key, the key of a pair removed, a default not needed, what a call left by a panic owned, and
everything at `clear`) and the pairs held at the end, each exactly once. -/
theorem C116_drops_are_honest (R : RawAlloc (K × V)) (F : KeyFns σ K) (ndK ndV : Bool)
    (m0 : Mem (K × V)) (s0 : σ) (ops : List (MapOp K V)) :
    ∃ (outs : List (Option (MapOut K V))) (s : σ) (v : Vec) (m m' : Mem (K × V))
      (loc d : List (K ⊕ V)) (xs ps : List (K × V)),
      VMap.runO (defaultAllocator R) F (ndK || ndV) ops Vec.new m0 s0 = .ok (outs, s, v, m) ∧
      VMap.runD (defaultAllocator R) F (ndK || ndV) ops Vec.new m0 s0 = .ok (outs, s, v, m, loc) ∧
      v.asSlice m = .ok xs ∧ CalledRun ops outs [] xs d ∧
      v.clear (defaultAllocator R) (ndK || ndV) m = .ok (Vec.new, m') ∧
      m'.live = m0.live ∧ m'.dropped = m0.dropped ++ ps ∧
      ((loc ++ contents ps).filter (hasDrop ndK ndV)).Perm
        ((d ++ contents xs).filter (hasDrop ndK ndV)) := by
  obtain ⟨os, s, v, m, xs, d, l, ps, e1, e2, e3, e4, e5⟩ :=
    MInv.runD R F (ndK || ndV) ops s0 ⟨0, VInv.new defaultFits m0⟩
  obtain ⟨m', f1, _, f2, f3⟩ := e2.clearE (R := R) (ndK || ndV)
  obtain ⟨cap, hi⟩ := e2
  refine ⟨os, s, v, m, m', l, d, xs, if (ndK || ndV) then ps ++ xs else [],
    by rw [runD_erase, e1]; rfl, e1, hi.slice, e3, f1, f2, ?_, ?_⟩
  · rw [f3, e5]
    cases (ndK || ndV) <;> simp
  · rw [filter_hasDrop, contents_append, ← List.append_assoc]
    exact (e4.append_right _).filter _

/-- C116.  If comparator and `==` answer like a strict weak order and its ties unless they panic,
every key and value moved into the map by a call was, at the end, moved out to the caller or dropped
(`D`), exactly once; a call left by a panic drops what it was given. -/
theorem C116_each_exactly_once (R : RawAlloc (K × V)) (F : KeyFns σ K) (lt eq : K → K → Bool)
    (hw : StrictWeak lt) (hc : Consistent lt eq)
    (hF : ∀ s a b, ((F.lt s a b).1 = none ∨ (F.lt s a b).1 = some (lt a b)) ∧
      ((F.eq s a b).1 = none ∨ (F.eq s a b).1 = some (eq a b)))
    (ndK ndV : Bool) (m0 : Mem (K × V)) (s0 : σ) (ops : List (MapOp K V)) :
    ∃ (outs : List (Option (MapOut K V))) (s : σ) (v : Vec) (m m' : Mem (K × V))
      (loc D : List (K ⊕ V)) (ps : List (K × V)),
      VMap.runD (defaultAllocator R) F (ndK || ndV) ops Vec.new m0 s0 = .ok (outs, s, v, m, loc) ∧
      v.clear (defaultAllocator R) (ndK || ndV) m = .ok (Vec.new, m') ∧
      m'.dropped = m0.dropped ++ ps ∧
      ((loc ++ contents ps).filter (hasDrop ndK ndV)).Perm (D.filter (hasDrop ndK ndV)) ∧
      (MapOp.allTaken eq (returned ops outs) [] ++ interruptedOwns ops outs).Perm
        (MapOp.allGiven eq (returned ops outs) [] ++ D) := by
  obtain ⟨os, s, v, m, xs, l, ps, e1, e2, e3, e4, e5⟩ :=
    MInv.runD_fits hw hc R (show F.Fits lt eq from hF) (ndK || ndV) ops s0
      ⟨0, VInv.new defaultFits m0⟩ List.Pairwise.nil List.Pairwise.nil
  obtain ⟨m', f1, _, f2, f3⟩ := e2.clearE (R := R) (ndK || ndV)
  refine ⟨os, s, v, m, m', l, MapOp.allDrops eq (returned ops os) [] ++ interruptedOwns ops os ++
    contents (MapOp.run eq (returned ops os) []).2, if (ndK || ndV) then ps ++ xs else [], e1, f1,
    ?_, ?_, ?_⟩
  · rw [f3, e3]
    cases (ndK || ndV) <;> simp
  · rw [filter_hasDrop, contents_append, ← List.append_assoc]
    exact (e5.append (contents_perm e4)).filter _
  · have hcons := Multiset.coe_eq_coe.2
      (conserve (hc.equiv hw).part (returned ops os) (s := ([] : List (K × V))) List.Pairwise.nil)
    refine Multiset.coe_eq_coe.1 ?_
    have h0 : (contents ([] : List (K × V)) : Multiset (K ⊕ V)) = 0 := rfl
    simp only [← Multiset.coe_add, h0, zero_add] at hcons ⊢
    rw [hcons]
    abel

/-- C116.  Building a map from an array or an iterator: either it returns, and every key and value
given is in the map or was dropped, exactly once; or the comparator or `==` panicked, everything
given was dropped exactly once, and nothing stays allocated. -/
theorem C116_bulk_construction (R : RawAlloc (K × V)) (F : KeyFns σ K) (ndK ndV : Bool)
    (m0 : Mem (K × V)) (s0 : σ) (kvs : List (K × V))
    (build : Mem (K × V) → σ → Exec (Option Vec × σ × Mem (K × V) × List (K ⊕ V)))
    (hb : build = VMap.fromPairsD (defaultAllocator R) F (ndK || ndV) kvs ∨
      build = VMap.fromIterD (defaultAllocator R) F (ndK || ndV) kvs) :
    ∃ (r : Option Vec) (s : σ) (m : Mem (K × V)) (loc D : List (K ⊕ V)) (ps : List (K × V)),
      build m0 s0 = .ok (r, s, m, loc) ∧ m.dropped = m0.dropped ++ ps ∧
      (loc ++ contents ps).filter (hasDrop ndK ndV) = D.filter (hasDrop ndK ndV) ∧
      ((∃ v xs, r = some v ∧ v.asSlice m = .ok xs ∧ (contents kvs).Perm (contents xs ++ D)) ∨
        (r = none ∧ m.live = m0.live ∧ (contents kvs).Perm D)) := by
  have hstart : ∃ v1 m1, MInv m0.live m1 v1 ([] : List (K × V)) ∧ m1.dropped = m0.dropped ∧
      build m0 s0 = VMap.insertAllD (defaultAllocator R) F (ndK || ndV) kvs v1 m1 s0 := by
    rcases hb with rfl | rfl
    · obtain ⟨v1, m1, h1, hi1, hE⟩ :=
        (VInv.new defaultFits m0).reserve_any (defaultAllocator_lawful R) kvs.length
      refine ⟨v1, m1, ⟨_, hi1⟩, ?_, ?_⟩
      · simpa using hE.dropped
      · have : Vec.withCapacity (defaultAllocator R) kvs.length m0 = .ok (v1, m1) := h1
        simp [VMap.fromPairsD, this]
    · exact ⟨Vec.new, m0, ⟨0, VInv.new defaultFits m0⟩, rfl, rfl⟩
  obtain ⟨v1, m1, hi1, hd1, hb1⟩ := hstart
  obtain ⟨r, s, m, l, ps, e1, e2, e3⟩ := hi1.insertAllD R F (ndK || ndV) kvs s0
  refine ⟨r, s, m, l, l ++ contents ps, if (ndK || ndV) then ps else [], by rw [hb1, e1],
    by rw [e2, hd1], filter_hasDrop l ps, ?_⟩
  have h0 : contents ([] : List (K × V)) = [] := rfl
  rw [h0, List.nil_append] at e3
  rcases e3 with ⟨v, xs, rfl, ⟨cap, g1⟩, g2⟩ | ⟨rfl, g1, g2⟩
  · exact .inl ⟨v, xs, rfl, g1.slice, g2⟩
  · exact .inr ⟨rfl, g1, g2⟩

/-- What goes out of scope when the comparator panics every fourth time, and what the vector drops at
the end. -/
example : (do
    let (o, _, v, m, l) ← VMap.runD (defaultAllocator RawAlloc.bump) everyFourth true
      [.insert 5 50, .insert 2 20, .insert 9 90, .insert 5 51, .get 2, .remove 5, .remove 9,
       .entry 3 (· + 1) 30]
      Vec.new Mem.empty 0
    let (_, m) ← v.clear (defaultAllocator RawAlloc.bump) true m
    .ok (o, l, m.dropped)) = (.ok ([some (.val none), some (.val none), none, some (.val (some 50)),
      none, some (.val (some 51)), none, some (.val (some 30))],
      [.inr 90, .inl 9, .inl 5, .inl 5], [(2, 20), (3, 30)]) :
      Exec (List (Option (MapOut Nat Nat)) × List (Nat ⊕ Nat) × List (Nat × Nat))) := by
  decide +kernel

/-- Bulk construction that returns, and one that is left by a panic. -/
example : (do
    let (r, _, m, l) ← VMap.fromPairsD (defaultAllocator RawAlloc.bump) inTurns true
      [(5, 50), (5, 51), (5, 52)] Mem.empty false
    .ok (r.isSome, l, m.dropped)) =
      (.ok (true, [.inl 5, .inr 50, .inl 5, .inr 51], []) :
        Exec (Bool × List (Nat ⊕ Nat) × List (Nat × Nat))) ∧ (do
    let (r, _, m, l) ← VMap.fromIterD (defaultAllocator RawAlloc.bump) everyFourth true
      [(5, 50), (5, 51), (5, 52), (7, 70)] Mem.empty 0
    .ok (r.isSome, l, m.dropped)) =
      (.ok (false, [.inl 5, .inr 50, .inr 52, .inl 5, .inl 7, .inr 70], [(5, 51)]) :
        Exec (Bool × List (Nat ⊕ Nat) × List (Nat × Nat))) := by
  exact ⟨by decide +kernel, by decide +kernel⟩

end Verif
