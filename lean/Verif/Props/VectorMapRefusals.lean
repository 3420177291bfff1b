import Verif.VectorMap.Grants
import Verif.Props.VectorMapDrops

/-!
# Vector maps whose allocator panics (C123)

Each call comes with whether its request for memory is granted; a call makes at most one.  A request
that is not granted panics, and the program catches the panic and goes on using the map.  `ndK` and
`ndV` say whether keys and values have a destructor; `loc` is what goes out of scope in the calls, `ps`
the pairs the vector drops.  Only what has a destructor is observed.
-/

set_option autoImplicit false

namespace Verif
open Spec

variable {σ K V : Type}

/-- C123 for vector maps whose comparator and `==` answer like a strict weak order and its ties unless
they panic.  What the calls that returned return, and what the map holds, is what it would be without
the calls that panicked; the keys are increasing.  If comparator and `==` never panic, the calls that
panicked may add an entry and were refused memory.  Dropping the map frees all its memory, and every
key and value was moved out to the caller or dropped (`D`) exactly once, those of the calls that
panicked included. -/
theorem C123_vector_map_refusals (R : RawAlloc (K × V)) (F : KeyFns σ K) (lt eq : K → K → Bool)
    (hw : StrictWeak lt) (hc : Consistent lt eq)
    (hF : ∀ s a b, ((F.lt s a b).1 = none ∨ (F.lt s a b).1 = some (lt a b)) ∧
      ((F.eq s a b).1 = none ∨ (F.eq s a b).1 = some (eq a b)))
    (ndK ndV : Bool) (m0 : Mem (K × V)) (s0 : σ) (calls : List (Bool × MapOp K V)) :
    ∃ (outs : List (Option (MapOut K V))) (s : σ) (v : Vec) (m m' : Mem (K × V))
      (loc D : List (K ⊕ V)) (xs ps : List (K × V)),
      VMap.runG (defaultAllocator R) F (ndK || ndV) calls Vec.new m0 s0 =
        .ok (outs, s, v, m, loc) ∧
      outs.length = calls.length ∧
      ((∀ s a b, (F.lt s a b).1 ≠ none ∧ (F.eq s a b).1 ≠ none) →
        ∀ p ∈ calls.zip outs, p.2 = none → p.1.1 = false ∧ p.1.2.mayAdd = true) ∧
      outs.filterMap id = (MapOp.run eq (answered (calls.map Prod.snd) outs) []).1 ∧
      v.asSlice m = .ok xs ∧
      xs.Perm (MapOp.run eq (answered (calls.map Prod.snd) outs) []).2 ∧ Increasing lt xs ∧
      v.clear (defaultAllocator R) (ndK || ndV) m = .ok (Vec.new, m') ∧ m'.live = m0.live ∧
      m'.dropped = m0.dropped ++ ps ∧
      ((loc ++ contents ps).filter (hasDrop ndK ndV)).Perm (D.filter (hasDrop ndK ndV)) ∧
      (MapOp.allTaken eq (answered (calls.map Prod.snd) outs) [] ++
        (panicked (calls.map Prod.snd) outs).flatMap MapOp.owns).Perm
        (MapOp.allGiven eq (answered (calls.map Prod.snd) outs) [] ++ D) := by
  have hans : ∀ (ops : List (MapOp K V)) (outs : List (Option (MapOut K V))),
      answered ops outs = returned ops outs ∧
        (panicked ops outs).flatMap MapOp.owns = interruptedOwns ops outs := by
    intro ops
    induction ops with
    | nil => intro outs; cases outs <;> exact ⟨rfl, rfl⟩
    | cons op ops ih =>
      intro outs
      cases outs with
      | nil => exact ⟨rfl, rfl⟩
      | cons o outs =>
        obtain ⟨h1, h2⟩ := ih outs
        cases o with
        | none => exact ⟨by simpa [answered, returned] using h1,
            by simpa [panicked, interruptedOwns] using h2⟩
        | some o => exact ⟨by simpa [answered, returned] using h1,
            by simpa [panicked, interruptedOwns] using h2⟩
  obtain ⟨os, s, v, m, xs, l, ps, e1, elen, e2, es, ed, e3, e6, e7, e4, e5⟩ :=
    MInv.runG_fits hw hc R (show F.Fits lt eq from hF) (ndK || ndV) calls s0
      ⟨0, VInv.new defaultFits m0⟩ List.Pairwise.nil List.Pairwise.nil
  obtain ⟨m', f1, _, f2, f3⟩ := e2.clearE (R := R) (ndK || ndV)
  obtain ⟨cap, hi⟩ := e2
  obtain ⟨a1, a2⟩ := hans (calls.map Prod.snd) os
  rw [← a1] at e7 e4 e5
  rw [← a2] at e5
  refine ⟨os, s, v, m, m', l, MapOp.allDrops eq (answered (calls.map Prod.snd) os) [] ++
    (panicked (calls.map Prod.snd) os).flatMap MapOp.owns ++
    contents (MapOp.run eq (answered (calls.map Prod.snd) os) []).2,
    xs, if (ndK || ndV) then ps ++ xs else [], e1, elen, fun hT => e6 fun s a b => ?_, e7, hi.slice,
    e4, es.increasing hc ed, f1, f2, ?_, ?_, ?_⟩
  · obtain ⟨h1, h2⟩ := hT s a b
    exact ⟨(hF s a b).1.resolve_left h1, (hF s a b).2.resolve_left h2⟩
  · rw [f3, e3]
    cases (ndK || ndV) <;> simp
  · rw [filter_hasDrop, contents_append, ← List.append_assoc]
    exact (e5.append (contents_perm e4)).filter _
  · have hcons := Multiset.coe_eq_coe.2
      (conserve (hc.equiv hw).part (answered (calls.map Prod.snd) os)
        (s := ([] : List (K × V))) List.Pairwise.nil)
    refine Multiset.coe_eq_coe.1 ?_
    have h0 : (contents ([] : List (K × V)) : Multiset (K ⊕ V)) = 0 := rfl
    simp only [← Multiset.coe_add, h0, zero_add] at hcons ⊢
    rw [hcons]
    abel

/-- C123 for vector maps, call by call.  With a comparator and `==` that do not panic, a call that is
refused memory panics exactly if it adds an entry and the vector is full; the map and its memory are
then as before, and the key and the value are dropped. -/
theorem C123_vector_map_refused_call (R : RawAlloc (K × V)) (F : KeyFns σ K) (lt eq : K → K → Bool)
    (hw : StrictWeak lt) (hc : Consistent lt eq)
    (hF : ∀ s a b, (F.lt s a b).1 = some (lt a b) ∧ (F.eq s a b).1 = some (eq a b))
    (nd : Bool) (m0 : Mem (K × V)) (s0 : σ) (calls : List (Bool × MapOp K V))
    {outs : List (Option (MapOut K V))} {s : σ} {v : Vec} {m : Mem (K × V)} {loc : List (K ⊕ V)}
    (hrun : VMap.runG (defaultAllocator R) F nd calls Vec.new m0 s0 = .ok (outs, s, v, m, loc))
    (op : MapOp K V) :
    ∃ xs cap o s' v' m' l, v.asSlice m = .ok xs ∧ v.capacity = .ok cap ∧
      VMap.stepG (defaultAllocator R) F nd false op v m s = .ok (o, s', v', m', l) ∧
      (o = none ↔ op.newKey eq xs = true ∧ xs.length = cap) ∧
      (o = none → v' = v ∧ m'.live = m.live ∧ ∃ ps,
        m'.dropped = (m.dropped ++ if nd then ps else []) ∧ (l ++ contents ps).Perm op.owns) := by
  have hA : F.Answers lt eq := hF
  obtain ⟨os, s', v', m', xs, l, ps, e1, _, e2, es, ed, _⟩ :=
    MInv.runG_fits hw hc R hA.fits nd calls s0 ⟨0, VInv.new defaultFits m0⟩ List.Pairwise.nil
      List.Pairwise.nil
  rw [e1] at hrun
  cases hrun
  obtain ⟨cap, hi⟩ := e2
  obtain ⟨o, s1, v1, m1, ys, l1, ps1, g1, g2, _⟩ :=
    MInv.stepG_fits hw hc R hA.fits nd false op ⟨cap, hi⟩ es ed s
  have hiff := hi.mapStepG_none hw hc hA es ed nd false op s g1
  refine ⟨xs, cap, o, s1, v1, m1, l1, hi.slice, hi.capacity, g1, by simpa using hiff, fun ho => ?_⟩
  subst ho
  rcases hi.mapStepG (defaultAllocator R) F nd false op s with h1 | ⟨_, _, k, x, s2, i, hop, _, he⟩
  · rw [h1] at g1
    exact absurd rfl (stepO_some (A := defaultAllocator R) (nd := nd) (op := op) (v := v) (m := m)
      (s := s) (o := none) (s' := s1) (v' := v1) (m' := m1) hA.total (by rw [stepD_erase, g1]; rfl))
  · rw [g1] at he
    cases he
    refine ⟨rfl, rfl, [(k, x)], rfl, ?_⟩
    rcases hop with rfl | ⟨f, rfl⟩ <;> exact .refl _

/-- C123 for vector maps with any comparator and `==`, which may answer differently each time and
panic: a call returned and kept its books, or was left by a panic and changed nothing, what it owned
being dropped (`CalledRun`). -/
theorem C123_vector_map_refusals_any_order (R : RawAlloc (K × V)) (F : KeyFns σ K) (ndK ndV : Bool)
    (m0 : Mem (K × V)) (s0 : σ) (calls : List (Bool × MapOp K V)) :
    ∃ (outs : List (Option (MapOut K V))) (s : σ) (v : Vec) (m m' : Mem (K × V))
      (loc d : List (K ⊕ V)) (xs ps : List (K × V)),
      VMap.runG (defaultAllocator R) F (ndK || ndV) calls Vec.new m0 s0 =
        .ok (outs, s, v, m, loc) ∧
      v.asSlice m = .ok xs ∧ CalledRun (calls.map Prod.snd) outs [] xs d ∧
      v.clear (defaultAllocator R) (ndK || ndV) m = .ok (Vec.new, m') ∧
      m'.live = m0.live ∧ m'.dropped = m0.dropped ++ ps ∧
      ((loc ++ contents ps).filter (hasDrop ndK ndV)).Perm
        ((d ++ contents xs).filter (hasDrop ndK ndV)) := by
  obtain ⟨os, s, v, m, xs, d, l, ps, e1, e2, e3, e4, e5⟩ :=
    MInv.runG R F (ndK || ndV) calls s0 ⟨0, VInv.new defaultFits m0⟩
  obtain ⟨m', f1, _, f2, f3⟩ := e2.clearE (R := R) (ndK || ndV)
  obtain ⟨cap, hi⟩ := e2
  refine ⟨os, s, v, m, m', l, d, xs, if (ndK || ndV) then ps ++ xs else [], e1, hi.slice, e3, f1, f2,
    ?_, ?_⟩
  · rw [f3, e5]
    cases (ndK || ndV) <;> simp
  · rw [filter_hasDrop, contents_append, ← List.append_assoc]
    exact (e4.append_right _).filter _

/-- C123 for vector maps built from an array or an iterator, each insert of which may be refused
memory: the map holds what was given and not dropped, or, if the construction panicked, everything
given was dropped exactly once and nothing stays allocated. -/
theorem C123_vector_map_built (R : RawAlloc (K × V)) (F : KeyFns σ K) (ndK ndV : Bool)
    (m0 : Mem (K × V)) (s0 : σ) (kvs : List (Bool × K × V))
    (build : Mem (K × V) → σ → Exec (Option Vec × σ × Mem (K × V) × List (K ⊕ V)))
    (hb : (∃ g0, build = VMap.fromPairsG (defaultAllocator R) F (ndK || ndV) g0 kvs) ∨
      build = VMap.insertAllG (defaultAllocator R) F (ndK || ndV) kvs Vec.new) :
    ∃ (r : Option Vec) (s : σ) (m : Mem (K × V)) (loc D : List (K ⊕ V)) (ps : List (K × V)),
      build m0 s0 = .ok (r, s, m, loc) ∧ m.dropped = m0.dropped ++ ps ∧
      (loc ++ contents ps).filter (hasDrop ndK ndV) = D.filter (hasDrop ndK ndV) ∧
      ((∃ v xs, r = some v ∧ v.asSlice m = .ok xs ∧
          (contents (kvs.map Prod.snd)).Perm (contents xs ++ D)) ∨
        (r = none ∧ m.live = m0.live ∧ (contents (kvs.map Prod.snd)).Perm D)) := by
  have hstart : (build m0 s0 = .ok (none, s0, m0, contents (kvs.map Prod.snd))) ∨
      ∃ v1 m1, MInv m0.live m1 v1 ([] : List (K × V)) ∧ m1.dropped = m0.dropped ∧
      build m0 s0 = VMap.insertAllG (defaultAllocator R) F (ndK || ndV) kvs v1 m1 s0 := by
    have hnew := VInv.new (α := K × V) defaultFits m0
    rcases hb with ⟨g0, rfl⟩ | rfl
    · by_cases hg : g0 = false ∧ kvs.length ≠ 0
      · left
        simp only [VMap.fromPairsG, hnew.reserveG, if_pos hg, Exec.ok_bind, Bool.false_eq_true,
          if_false]
      · right
        obtain ⟨v1, m1, h1, hi1, hE⟩ := hnew.reserve_any (defaultAllocator_lawful R) kvs.length
        refine ⟨v1, m1, ⟨_, hi1⟩, by simpa using hE.dropped, ?_⟩
        simp only [VMap.fromPairsG, hnew.reserveG, if_neg hg, h1, Exec.ok_bind, if_true]
    · exact .inr ⟨Vec.new, m0, ⟨0, hnew⟩, rfl, rfl⟩
  rcases hstart with hb1 | ⟨v1, m1, hi1, hd1, hb1⟩
  · exact ⟨none, s0, m0, _, contents (kvs.map Prod.snd), [], hb1, by simp, by simp [contents],
      .inr ⟨rfl, rfl, .refl _⟩⟩
  · obtain ⟨r, s, m, l, ps, e1, e2, e3⟩ := hi1.insertAllG R F (ndK || ndV) kvs s0
    refine ⟨r, s, m, l, l ++ contents ps, if (ndK || ndV) then ps else [], by rw [hb1, e1],
      by rw [e2, hd1], filter_hasDrop l ps, ?_⟩
    have h0 : contents ([] : List (K × V)) = [] := rfl
    rw [h0, List.nil_append] at e3
    rcases e3 with ⟨v, xs, rfl, ⟨cap, g1⟩, g2⟩ | ⟨rfl, g1, g2⟩
    · exact .inl ⟨v, xs, rfl, g1.slice, g2⟩
    · exact .inr ⟨rfl, g1, g2⟩

/-- Numbers, compared as usual. -/
def plainFns : KeyFns Unit Nat where
  lt s a b := (some (decide (a < b)), s)
  eq s a b := (some (a == b), s)

/-- A history in which three calls are refused memory; a key that is there needs none. -/
example : (∀ s a b, (plainFns.lt s a b).1 = some (decide (a < b)) ∧
      (plainFns.eq s a b).1 = some (a == b)) ∧ (do
    let (o, _, v, m, l) ← VMap.runG (defaultAllocator RawAlloc.bump) plainFns true
      [(false, .insert 5 50), (true, .insert 5 51), (false, .insert 5 52), (false, .entry 2 (· + 1) 20),
       (true, .entry 2 (· + 1) 21), (false, .insert 9 90), (false, .entry 5 (· + 1) 0), (false, .len)]
      Vec.new Mem.empty ()
    let xs ← v.asSlice m
    let (_, m) ← v.clear (defaultAllocator RawAlloc.bump) true m
    .ok (o, xs, l, m.dropped)) = (.ok ([none, some (.val none), some (.val (some 51)), none,
      some (.val (some 21)), none, some (.val (some 53)), some (.nat 2)], [(2, 21), (5, 53)],
      [.inl 5, .inl 5, .inr 0], [(5, 50), (2, 20), (9, 90), (2, 21), (5, 53)]) :
      Exec (List (Option (MapOut Nat Nat)) × List (Nat × Nat) × List (Nat ⊕ Nat) ×
        List (Nat × Nat))) :=
  ⟨fun _ _ _ => ⟨rfl, rfl⟩, rfl⟩

/-- A construction refused memory at its third pair, and one refused its first array. -/
example : (do
    let (r, _, m, l) ← VMap.insertAllG (defaultAllocator RawAlloc.bump) plainFns true
      [(true, 5, 50), (true, 2, 20), (false, 9, 90), (true, 1, 10)] Vec.new Mem.empty ()
    .ok (r.isSome, l, m.dropped)) =
      (.ok (false, [.inl 1, .inr 10], [(9, 90), (2, 20), (5, 50)]) :
        Exec (Bool × List (Nat ⊕ Nat) × List (Nat × Nat))) ∧ (do
    let (r, _, m, l) ← VMap.fromPairsG (defaultAllocator RawAlloc.bump) plainFns true false
      [(true, 5, 50)] Mem.empty ()
    .ok (r.isSome, l, m.dropped)) =
      (.ok (false, [.inl 5, .inr 50], []) :
        Exec (Bool × List (Nat ⊕ Nat) × List (Nat × Nat))) := by
  exact ⟨rfl, rfl⟩

end Verif
