import Verif.VectorMap.Drops
import Verif.Vector.Grants

/-! Vector maps with an allocator that panics: each call comes with whether its request for memory, if
it makes one, is granted.  As in VectorMap/Drops.lean the comparator and `==` have a state and may
panic, and what goes out of scope in a call is part of the result; `none` says that the call
panicked. -/

set_option autoImplicit false

namespace Verif
open Spec

variable {σ K V : Type}

namespace VMap

/-- One call.  `insert` (src/vector_map/mod.rs:142-157) and `VacantEntry::insert`
(src/vector_map/entry.rs:39-43) hand the pair to `Vector::insert`, which drops it if the allocator
panics.  The other calls ask for no memory. -/
def stepG (A : Allocator (K × V)) (F : KeyFns σ K) (nd g : Bool) (op : MapOp K V) (v : Vec)
    (m : Mem (K × V)) (s : σ) :
    Exec (Option (MapOut K V) × σ × Vec × Mem (K × V) × List (K ⊕ V)) :=
  match op with
  | .insert k x => do
    let (r, s) ← findO F k v m s
    match r with
    | none => .ok (none, s, v, m, [.inr x, .inl k])
    | some (some p, i) => do
      let m ← v.setAt false i (p.1, x) m
      .ok (some (.val (some p.2)), s, v, m, [.inl k])
    | some (none, i) => do
      let (ok, v, m) ← v.insertG A nd g i (k, x) m
      .ok (if ok then some (.val none) else none, s, v, m, [])
  | .entry k f x => do
    let (r, s) ← findO F k v m s
    match r with
    | none => .ok (none, s, v, m, [.inl k, .inr x])
    | some (some p, i) => do
      let m ← v.setAt false i (p.1, f p.2) m
      let q ← index i v m
      .ok (some (.val (some q.2)), s, v, m, [.inl k, .inr x])
    | some (none, i) => do
      let (ok, v, m) ← v.insertG A nd g i (k, x) m
      if ok then do
        let q ← index i v m
        .ok (some (.val (some q.2)), s, v, m, [])
      else .ok (none, s, v, m, [])
  | op => stepD A F nd op v m s

/-- A history of calls, each panic being caught. -/
def runG (A : Allocator (K × V)) (F : KeyFns σ K) (nd : Bool) : List (Bool × MapOp K V) → Vec →
    Mem (K × V) → σ → Exec (List (Option (MapOut K V)) × σ × Vec × Mem (K × V) × List (K ⊕ V))
  | [], v, m, s => .ok ([], s, v, m, [])
  | (g, op) :: calls, v, m, s => do
    let (o, s, v, m, l) ← stepG A F nd g op v m s
    let (os, s, v, m, l') ← runG A F nd calls v m s
    .ok (o :: os, s, v, m, l ++ l')

/-- The loop of inserts in `From<[(K, V); N]>` and `FromIterator` (src/vector_map/mod.rs:258-264,
281-289): the value that `insert` returns is dropped at once.  If an insert panics, unwinding drops
the pairs still in the iterator and the map.  Each pair comes with whether the request of its insert
is granted. -/
def insertAllG (A : Allocator (K × V)) (F : KeyFns σ K) (nd : Bool) : List (Bool × K × V) → Vec →
    Mem (K × V) → σ → Exec (Option Vec × σ × Mem (K × V) × List (K ⊕ V))
  | [], v, m, s => .ok (some v, s, m, [])
  | (g, p) :: ps, v, m, s => do
    let (o, s, v, m, l) ← stepG A F nd g (.insert p.1 p.2) v m s
    match o with
    | none => do
      let (_, m) ← v.clear A nd m
      .ok (none, s, m, l ++ contents (ps.map Prod.snd))
    | some (.val (some old)) => do
      let (r, s, m, l') ← insertAllG A F nd ps v m s
      .ok (r, s, m, l ++ .inr old :: l')
    | some _ => do
      let (r, s, m, l') ← insertAllG A F nd ps v m s
      .ok (r, s, m, l ++ l')

/-- `From<[(K, V); N]>` (src/vector_map/mod.rs:255-265): `with_capacity` (43-48) asks for memory, then
the inserts might; `g0` says whether the former is granted.  If not, unwinding drops the array. -/
def fromPairsG (A : Allocator (K × V)) (F : KeyFns σ K) (nd g0 : Bool) (ps : List (Bool × K × V))
    (m : Mem (K × V)) (s : σ) : Exec (Option Vec × σ × Mem (K × V) × List (K ⊕ V)) := do
  let (ok, v, m) ← Vec.new.reserveG A g0 ps.length m
  if ok then insertAllG A F nd ps v m s
  else .ok (none, s, m, contents (ps.map Prod.snd))

end VMap

section
variable {R : RawAlloc (K × V)} {w : World (K × V)} {m : Mem (K × V)} {v : Vec} {xs : List (K × V)}
  {cap : Nat}

/-- A call as with a working allocator, if it asks for no memory or is granted it; otherwise it
changes nothing and drops what was passed to it. -/
theorem VInv.mapStepG (h : VInv (fun _ => False) defaultFits w m v xs cap) (A : Allocator (K × V))
    (F : KeyFns σ K) (nd g : Bool) (op : MapOp K V) (s : σ) :
    VMap.stepG A F nd g op v m s = VMap.stepD A F nd op v m s ∨
    (g = false ∧ xs.length = cap ∧ ∃ k x s' i, (op = .insert k x ∨ ∃ f, op = .entry k f x) ∧
      VMap.findO F k v m s = .ok (some (none, i), s') ∧
      VMap.stepG A F nd g op v m s = .ok (none, s', v, m.unwound nd (k, x), [])) := by
  cases op with
  | insert k x =>
    obtain ⟨s1, hf | ⟨r, hr, hf | ⟨p, hp, hf⟩⟩⟩ := MInv.findO F ⟨cap, h⟩ k s
    · left; simp [VMap.stepG, VMap.stepD, VMap.searchingD, hf]
    · by_cases hc : g = false ∧ xs.length = cap
      · refine .inr ⟨hc.1, hc.2, k, x, s1, r, .inl rfl, hf, ?_⟩
        simp [VMap.stepG, hf, h.insertG, hc]
      · left
        simp only [VMap.stepG, VMap.stepD, VMap.searchingD, hf, Exec.ok_bind, h.insertG,
          if_pos (show r ≤ xs.length ∧ ¬ (g = false ∧ xs.length = cap) from ⟨hr, hc⟩), bind_assoc,
          if_true]
    · left; simp [VMap.stepG, VMap.stepD, VMap.searchingD, hf, bind_assoc]
  | entry k f x =>
    obtain ⟨s1, hf | ⟨r, hr, hf | ⟨p, hp, hf⟩⟩⟩ := MInv.findO F ⟨cap, h⟩ k s
    · left; simp [VMap.stepG, VMap.stepD, VMap.searchingD, hf]
    · by_cases hc : g = false ∧ xs.length = cap
      · refine .inr ⟨hc.1, hc.2, k, x, s1, r, .inr ⟨f, rfl⟩, hf, ?_⟩
        simp [VMap.stepG, hf, h.insertG, hc]
      · left
        simp only [VMap.stepG, VMap.stepD, VMap.searchingD, hf, Exec.ok_bind, h.insertG,
          if_pos (show r ≤ xs.length ∧ ¬ (g = false ∧ xs.length = cap) from ⟨hr, hc⟩), bind_assoc,
          if_true]
    · left; simp [VMap.stepG, VMap.stepD, VMap.searchingD, hf, bind_assoc]
  | _ => exact .inl rfl

/-- A call on a map whatever comparator and `==` answer. -/
theorem MInv.stepG (R : RawAlloc (K × V)) (F : KeyFns σ K) (nd g : Bool) (op : MapOp K V)
    (h : MInv w m v xs) (s : σ) :
    ∃ o s' v' m' ys d l ps,
      VMap.stepG (defaultAllocator R) F nd g op v m s = .ok (o, s', v', m', l) ∧
      MInv w m' v' ys ∧ Called op o xs ys d ∧ (l ++ contents ps).Perm d ∧
      m'.dropped = m.dropped ++ if nd then ps else [] := by
  obtain ⟨cap, hv⟩ := h
  rcases hv.mapStepG (defaultAllocator R) F nd g op s with he | ⟨_, _, k, x, s', i, hop, _, he⟩
  · obtain ⟨o, s', v', m', ys, d, l, ps, e1, e2⟩ := MInv.stepD R F nd op ⟨cap, hv⟩ s
    exact ⟨o, s', v', m', ys, d, l, ps, he.trans e1, e2⟩
  · refine ⟨none, s', v, _, xs, _, [], [(k, x)], he, ⟨cap, hv.unwound nd (k, x)⟩, .panics ?_, ?_, rfl⟩
    · rcases hop with rfl | ⟨f, rfl⟩ <;> rfl
    · rcases hop with rfl | ⟨f, rfl⟩ <;> exact .refl _

theorem MInv.runG (R : RawAlloc (K × V)) (F : KeyFns σ K) (nd : Bool)
    (calls : List (Bool × MapOp K V)) :
    ∀ {m : Mem (K × V)} {v : Vec} {xs : List (K × V)} (s : σ), MInv w m v xs →
    ∃ os s' v' m' ys d l ps,
      VMap.runG (defaultAllocator R) F nd calls v m s = .ok (os, s', v', m', l) ∧
      MInv w m' v' ys ∧ CalledRun (calls.map Prod.snd) os xs ys d ∧ (l ++ contents ps).Perm d ∧
      m'.dropped = m.dropped ++ if nd then ps else [] := by
  induction calls with
  | nil =>
    intro m v xs s h
    exact ⟨[], s, v, m, xs, [], [], [], rfl, h, .nil, .refl _, by cases nd <;> simp⟩
  | cons c calls ih =>
    intro m v xs s h
    obtain ⟨g, op⟩ := c
    obtain ⟨o, s1, v1, m1, ys, d, l, ps, he, hi, hh, hp, hd⟩ := h.stepG R F nd g op s
    obtain ⟨os, s2, v2, m2, zs, d', l', ps', he2, hi2, hh2, hp2, hd2⟩ := ih s1 hi
    refine ⟨o :: os, s2, v2, m2, zs, d ++ d', l ++ l', ps ++ ps', by simp [VMap.runG, he, he2], hi2,
      .cons hh hh2, ?_, by rw [hd2, hd]; cases nd <;> simp⟩
    rw [contents_append]
    refine List.Perm.trans ?_ (hp.append hp2)
    rw [List.append_assoc, List.append_assoc]
    refine List.Perm.append_left l ?_
    rw [← List.append_assoc, ← List.append_assoc]
    exact List.Perm.append_right _ List.perm_append_comm

end

/-! ## Comparators that do not panic -/

/-- Comparator and `==` answer as `lt` and `eq`, and do not panic. -/
def KeyFns.Answers (F : KeyFns σ K) (lt eq : K → K → Bool) : Prop :=
  ∀ s a b, (F.lt s a b).1 = some (lt a b) ∧ (F.eq s a b).1 = some (eq a b)

theorem KeyFns.Answers.fits {F : KeyFns σ K} {lt eq : K → K → Bool} (h : F.Answers lt eq) :
    F.Fits lt eq := fun s a b => ⟨.inr (h s a b).1, .inr (h s a b).2⟩

theorem KeyFns.Answers.total {F : KeyFns σ K} {lt eq : K → K → Bool} (h : F.Answers lt eq) (s : σ)
    (a b : K) : (F.lt s a b).1 ≠ none ∧ (F.eq s a b).1 ≠ none := by
  rw [(h s a b).1, (h s a b).2]; simp

section
variable {R : RawAlloc (K × V)} {w : World (K × V)} {m : Mem (K × V)} {v : Vec} {xs : List (K × V)}
  {cap : Nat} {lt eq : K → K → Bool}

theorem MInv.findO_answers (hw : StrictWeak lt) (hc : Consistent lt eq) {F : KeyFns σ K}
    (hF : F.Answers lt eq) (h : MInv w m v xs) (hs : WSorted lt xs) (hd : Distinct eq xs) (k : K)
    (s : σ) : ∃ r s', r ≤ xs.length ∧ VMap.findO F k v m s = .ok (some (lookup eq xs k, r), s') := by
  obtain ⟨r, hsp, hf⟩ := MInv.find (eq := eq) hw h hs k
  obtain ⟨s', h1 | h1⟩ := findO_fits hF.fits k v m s
  · exact absurd rfl (findO_some hF.total h1)
  · refine ⟨r, s', hsp.le, ?_⟩
    rw [h1, hf, (lookup_split hw hc hs hd hsp).2]
    rfl

/-- A call with a comparator that does not panic panics exactly if it is refused memory. -/
theorem VInv.mapStepG_none (hw : StrictWeak lt) (hc : Consistent lt eq) {F : KeyFns σ K}
    (hF : F.Answers lt eq) (h : VInv (fun _ => False) defaultFits w m v xs cap)
    (hs : WSorted lt xs) (hd : Distinct eq xs) (nd g : Bool) (op : MapOp K V) (s : σ)
    {o : Option (MapOut K V)} {s' : σ} {v' : Vec} {m' : Mem (K × V)} {l : List (K ⊕ V)}
    (he : VMap.stepG (defaultAllocator R) F nd g op v m s = .ok (o, s', v', m', l)) :
    o = none ↔ g = false ∧ op.newKey eq xs = true ∧ xs.length = cap := by
  have hfind := fun k => MInv.findO_answers (xs := xs) hw hc hF ⟨cap, h⟩ hs hd k s
  have hD : ∀ {s' : σ} {v' : Vec} {m' : Mem (K × V)} {l : List (K ⊕ V)},
      VMap.stepD (defaultAllocator R) F nd op v m s ≠ .ok (none, s', v', m', l) := by
    intro s' v' m' l h1
    exact absurd rfl (stepO_some (A := defaultAllocator R) (nd := nd) (op := op) (v := v) (m := m)
      (s := s) (o := none) (s' := s') (v' := v') (m' := m') hF.total (by rw [stepD_erase, h1]; rfl))
  constructor
  · rintro rfl
    rcases h.mapStepG (defaultAllocator R) F nd g op s with h1 | ⟨h1, h2, k, x, s1, i, hop, hf, _⟩
    · rw [h1] at he; exact absurd he hD
    · obtain ⟨r, s2, _, hf'⟩ := hfind k
      rw [hf] at hf'
      simp only [Except.ok.injEq, Prod.mk.injEq, Option.some.injEq] at hf'
      have hl : lookup eq xs k = none := hf'.1.1.symm
      refine ⟨h1, ?_, h2⟩
      rcases hop with rfl | ⟨f, rfl⟩ <;> simp [MapOp.newKey, hl]
  · rintro ⟨rfl, h2, h3⟩
    cases op with
    | insert k x =>
      obtain ⟨r, s2, _, hf⟩ := hfind k
      have hl : lookup eq xs k = none := by simpa [MapOp.newKey] using h2
      simp [VMap.stepG, hf, hl, h.insertG, h3] at he
      exact he.1.symm
    | entry k f x =>
      obtain ⟨r, s2, _, hf⟩ := hfind k
      have hl : lookup eq xs k = none := by simpa [MapOp.newKey] using h2
      simp [VMap.stepG, hf, hl, h.insertG, h3] at he
      exact he.1.symm
    | _ => simp [MapOp.newKey] at h2

/-- One call when comparator and `==` answer like a strict weak order and its ties unless they
panic. -/
theorem MInv.stepG_fits (hw : StrictWeak lt) (hc : Consistent lt eq) (R : RawAlloc (K × V))
    {F : KeyFns σ K} (hF : F.Fits lt eq) (nd g : Bool) (op : MapOp K V) (h : MInv w m v xs)
    (hs : WSorted lt xs) (hd : Distinct eq xs) (s : σ) :
    ∃ o s' v' m' ys l ps,
      VMap.stepG (defaultAllocator R) F nd g op v m s = .ok (o, s', v', m', l) ∧
      MInv w m' v' ys ∧ WSorted lt ys ∧ m'.dropped = (m.dropped ++ if nd then ps else []) ∧
      (F.Answers lt eq → o = none → g = false ∧ op.newKey eq xs = true) ∧
      ((o = none ∧ ys = xs ∧ (l ++ contents ps).Perm op.owns) ∨
       (o = some (op.step eq xs).1 ∧ ys.Perm (op.step eq xs).2 ∧
        (l ++ contents ps).Perm (op.drops eq xs))) := by
  obtain ⟨cap, hv⟩ := h
  rcases hv.mapStepG (defaultAllocator R) F nd g op s with he | ⟨_, _, k, x, s', i, hop, _, he⟩
  · obtain ⟨o, s', v', m', ys, l, ps, e1, e2, e3, e4, e5⟩ :=
      MInv.stepD_fits hw hc R hF nd op ⟨cap, hv⟩ hs hd s
    refine ⟨o, s', v', m', ys, l, ps, he.trans e1, e2, e3, e4, fun hA hn => ?_, e5⟩
    have := (hv.mapStepG_none hw hc hA hs hd nd g op s (he.trans e1)).1 hn
    exact ⟨this.1, this.2.1⟩
  · refine ⟨none, s', v, _, xs, [], [(k, x)], he, ⟨cap, hv.unwound nd (k, x)⟩, hs, rfl,
      fun hA hn => ?_, .inl ⟨rfl, rfl, ?_⟩⟩
    · have := (hv.mapStepG_none hw hc hA hs hd nd g op s he).1 hn
      exact ⟨this.1, this.2.1⟩
    · rcases hop with rfl | ⟨f, rfl⟩ <;> exact .refl _

theorem MInv.runG_fits (hw : StrictWeak lt) (hc : Consistent lt eq) (R : RawAlloc (K × V))
    {F : KeyFns σ K} (hF : F.Fits lt eq) (nd : Bool) (calls : List (Bool × MapOp K V)) :
    ∀ {m : Mem (K × V)} {v : Vec} {xs : List (K × V)} (s : σ),
    MInv w m v xs → WSorted lt xs → Distinct eq xs →
    ∃ os s' v' m' ys l ps,
      VMap.runG (defaultAllocator R) F nd calls v m s = .ok (os, s', v', m', l) ∧
      os.length = calls.length ∧
      MInv w m' v' ys ∧ WSorted lt ys ∧ Distinct eq ys ∧
      m'.dropped = (m.dropped ++ if nd then ps else []) ∧
      (F.Answers lt eq → ∀ p ∈ calls.zip os, p.2 = none → p.1.1 = false ∧ p.1.2.mayAdd = true) ∧
      os.filterMap id = (MapOp.run eq (returned (calls.map Prod.snd) os) xs).1 ∧
      ys.Perm (MapOp.run eq (returned (calls.map Prod.snd) os) xs).2 ∧
      (l ++ contents ps).Perm (MapOp.allDrops eq (returned (calls.map Prod.snd) os) xs ++
        interruptedOwns (calls.map Prod.snd) os) := by
  have he := hc.equiv hw
  induction calls with
  | nil =>
    intro m v xs s h hs hd
    exact ⟨[], s, v, m, xs, [], [], rfl, rfl, h, hs, hd, by cases nd <;> simp, by simp, rfl, .refl _,
      .refl _⟩
  | cons c calls ih =>
    intro m v xs s h hs hd
    obtain ⟨g, op⟩ := c
    obtain ⟨o, s1, v1, m1, ys, l, ps, e1, e2, e3, e4, e6, e5⟩ :=
      h.stepG_fits hw hc R hF nd g op hs hd s
    have hdy : Distinct eq ys := by
      rcases e5 with ⟨_, rfl, _⟩ | ⟨_, hp, _⟩
      · exact hd
      · exact (hd.step he op).perm he hp.symm
    obtain ⟨os, s2, v2, m2, zs, l', ps', f1, flen, f2, fs, fd, f3, f6, f7, f4, f5⟩ := ih s1 e2 e3 hdy
    refine ⟨o :: os, s2, v2, m2, zs, l ++ l', ps ++ ps', by simp [VMap.runG, e1, f1], by simp [flen],
      f2, fs, fd, by rw [f3, e4]; cases nd <;> simp, ?_, ?_, ?_, ?_⟩
    · intro hA p hp hn
      rw [List.zip_cons_cons, List.mem_cons] at hp
      rcases hp with rfl | hp
      · obtain ⟨h1, h2⟩ := e6 hA hn
        refine ⟨h1, ?_⟩
        revert h2
        cases op <;> simp [MapOp.newKey, MapOp.mayAdd]
      · exact f6 hA p hp hn
    · rcases e5 with ⟨rfl, rfl, _⟩ | ⟨rfl, hp, _⟩
      · simpa [returned] using f7
      · have := (run_perm he (returned (calls.map Prod.snd) os) hp hdy).1
        rw [List.filterMap_cons_some (f := id) rfl, f7, this]
        simp [returned, MapOp.run]
    · rcases e5 with ⟨rfl, rfl, _⟩ | ⟨rfl, hp, _⟩
      · simpa [returned] using f4
      · have := (run_perm he (returned (calls.map Prod.snd) os) hp hdy).2
        simpa [returned, MapOp.run] using f4.trans this
    · rw [contents_append]
      have hmix : ((l ++ l') ++ (contents ps ++ contents ps')).Perm
          ((l ++ contents ps) ++ (l' ++ contents ps')) := by
        rw [List.append_assoc, List.append_assoc]
        refine List.Perm.append_left l ?_
        rw [← List.append_assoc, ← List.append_assoc]
        exact List.Perm.append_right _ List.perm_append_comm
      refine hmix.trans ?_
      rw [List.map_cons]
      generalize calls.map Prod.snd = ops at *
      rcases e5 with ⟨rfl, rfl, h1⟩ | ⟨rfl, hp, h1⟩
      · have hR : returned (op :: ops) (none :: os) = returned ops os := by simp [returned]
        have hI : interruptedOwns (op :: ops) (none :: os) = op.owns ++ interruptedOwns ops os := by
          simp [interruptedOwns]
        rw [hR, hI]
        refine (h1.append f5).trans ?_
        rw [← List.append_assoc, ← List.append_assoc]
        exact List.Perm.append_right _ List.perm_append_comm
      · have hR : ∀ x : MapOut K V, returned (op :: ops) (some x :: os) = op :: returned ops os := by
          intro x; simp [returned]
        have hI : ∀ x : MapOut K V,
            interruptedOwns (op :: ops) (some x :: os) = interruptedOwns ops os := by
          intro x; simp [interruptedOwns]
        rw [hR, hI, MapOp.allDrops, List.append_assoc (MapOp.drops eq op xs)]
        refine h1.append (f5.trans ?_)
        exact List.Perm.append_right _ (vmap_allDrops_perm he _ hp hdy)

end

/-! ## Bulk construction -/

section
variable {w : World (K × V)}

theorem MInv.insertAllG (R : RawAlloc (K × V)) (F : KeyFns σ K) (nd : Bool)
    (kvs : List (Bool × K × V)) :
    ∀ {m : Mem (K × V)} {v : Vec} {xs : List (K × V)} (s : σ), MInv w m v xs →
    ∃ r s' m' l ps, VMap.insertAllG (defaultAllocator R) F nd kvs v m s = .ok (r, s', m', l) ∧
      m'.dropped = (m.dropped ++ if nd then ps else []) ∧
      ((∃ v' ys, r = some v' ∧ MInv w m' v' ys ∧
          (contents xs ++ contents (kvs.map Prod.snd)).Perm (contents ys ++ (l ++ contents ps))) ∨
        (r = none ∧ m'.live = w ∧
          (contents xs ++ contents (kvs.map Prod.snd)).Perm (l ++ contents ps))) := by
  induction kvs with
  | nil =>
    intro m v xs s h
    exact ⟨some v, s, m, [], [], rfl, by cases nd <;> simp, .inl ⟨v, xs, rfl, h, .refl _⟩⟩
  | cons c kvs ih =>
    intro m v xs s h
    obtain ⟨g, p⟩ := c
    obtain ⟨o, s1, v1, m1, ys, d, l, ps, e1, e2, e3, e4, e5⟩ := h.stepG R F nd g (.insert p.1 p.2) s
    rw [List.map_cons]
    have e4' : (l : Multiset (K ⊕ V)) + contents ps = d := by
      rw [Multiset.coe_add]; exact Multiset.coe_eq_coe.2 e4
    have hk : (contents (p :: kvs.map Prod.snd) : Multiset (K ⊕ V)) =
        ([.inl p.1, .inr p.2] : List (K ⊕ V)) + contents (kvs.map Prod.snd) := by
      rw [Multiset.coe_add]; rfl
    -- the rest of the loop, if the insert returned
    have hgo : ∀ (extra : List (K ⊕ V)),
        (contents xs ++ [.inl p.1, .inr p.2] : List (K ⊕ V)).Perm
          (contents ys ++ (extra ++ (l ++ contents ps))) →
        ∃ r s' m' l' ps', VMap.insertAllG (defaultAllocator R) F nd kvs v1 m1 s1 =
            .ok (r, s', m', l') ∧
          m'.dropped = (m.dropped ++ if nd then ps ++ ps' else []) ∧
          ((∃ v' zs, r = some v' ∧ MInv w m' v' zs ∧
              (contents xs ++ contents (p :: kvs.map Prod.snd)).Perm
              (contents zs ++ (l ++ (extra ++ l') ++ contents (ps ++ ps')))) ∨
            (r = none ∧ m'.live = w ∧ (contents xs ++ contents (p :: kvs.map Prod.snd)).Perm
              (l ++ (extra ++ l') ++ contents (ps ++ ps')))) := by
      intro extra hx
      obtain ⟨r, s2, m2, l2, ps2, f1, f2, f3⟩ := ih s1 e2
      refine ⟨r, s2, m2, l2, ps2, f1, by rw [f2, e5]; cases nd <;> simp, ?_⟩
      have hx' : (contents xs : Multiset (K ⊕ V)) + ([.inl p.1, .inr p.2] : List (K ⊕ V)) =
          contents ys + (extra + (l + contents ps)) := by
        simp only [Multiset.coe_add]; exact Multiset.coe_eq_coe.2 hx
      rcases f3 with ⟨v', zs, rfl, g1, g2⟩ | ⟨rfl, g1, g2⟩
      · refine .inl ⟨v', zs, rfl, g1, Multiset.coe_eq_coe.1 ?_⟩
        have g2' := Multiset.coe_eq_coe.2 g2
        rw [contents_append]
        simp only [← Multiset.coe_add] at g2' ⊢
        rw [hk, ← add_assoc, hx']
        calc _ = (contents ys + contents (kvs.map Prod.snd) : Multiset (K ⊕ V)) +
              (extra + (l + contents ps)) := by abel
          _ = _ := by rw [g2']; abel
      · refine .inr ⟨rfl, g1, Multiset.coe_eq_coe.1 ?_⟩
        have g2' := Multiset.coe_eq_coe.2 g2
        rw [contents_append]
        simp only [← Multiset.coe_add] at g2' ⊢
        rw [hk, ← add_assoc, hx']
        calc _ = (contents ys + contents (kvs.map Prod.snd) : Multiset (K ⊕ V)) +
              (extra + (l + contents ps)) := by abel
          _ = _ := by rw [g2']; abel
    cases e3 with
    | panics _ =>
      obtain ⟨m2, g1, _, g2, g3⟩ := e2.clearE (R := R) nd
      refine ⟨none, s1, m2, l ++ contents (kvs.map Prod.snd), ps ++ xs, ?_,
        by rw [g3, e5]; cases nd <;> simp, .inr ⟨rfl, g2, Multiset.coe_eq_coe.1 ?_⟩⟩
      · simp [VMap.insertAllG, e1, g1]
      · have hd : (l : Multiset (K ⊕ V)) + contents ps =
            ([.inl p.1, .inr p.2] : List (K ⊕ V)) := e4'
        rw [contents_append]
        simp only [← Multiset.coe_add]
        rw [hk, ← hd]
        abel
    | returns hh =>
      cases hh with
      | insertNew hp =>
        obtain ⟨r, s', m', l', ps', f1, f2, f3⟩ := hgo [] (Multiset.coe_eq_coe.1 (by
          have h1 := Multiset.coe_eq_coe.2 (contents_perm hp)
          have h2 : (contents ((p.1, p.2) :: xs) : Multiset (K ⊕ V)) =
              ([.inl p.1, .inr p.2] : List (K ⊕ V)) + contents xs := by
            rw [Multiset.coe_add]; rfl
          rw [h2] at h1
          simp only [← Multiset.coe_add, h1, e4']
          simp only [Multiset.coe_nil]
          abel))
        exact ⟨r, s', m', l ++ l', ps ++ ps', by simp [VMap.insertAllG, e1, f1], f2,
          by simpa using f3⟩
      | insertOld hp hp' =>
        rename_i k' old r0
        obtain ⟨r, s', m', l', ps', f1, f2, f3⟩ := hgo [.inr old] (Multiset.coe_eq_coe.1 (by
          have h1 := Multiset.coe_eq_coe.2 (contents_perm hp)
          have h2 := Multiset.coe_eq_coe.2 (contents_perm hp')
          have h3 : (contents ((k', old) :: r0) : Multiset (K ⊕ V)) =
              {.inl k'} + {.inr old} + contents r0 := rfl
          have h4 : (contents ((k', p.2) :: r0) : Multiset (K ⊕ V)) =
              {.inl k'} + {.inr p.2} + contents r0 := rfl
          have h5 : (([.inl p.1, .inr p.2] : List (K ⊕ V)) : Multiset (K ⊕ V)) =
              {.inl p.1} + {.inr p.2} := rfl
          have h6 : (([.inr old] : List (K ⊕ V)) : Multiset (K ⊕ V)) = {.inr old} := rfl
          have h7 : (([.inl p.1] : List (K ⊕ V)) : Multiset (K ⊕ V)) = {.inl p.1} := rfl
          simp only [← Multiset.coe_add, h1, h2, e4', h3, h4, h5, h6, h7]
          abel))
        exact ⟨r, s', m', l ++ .inr old :: l', ps ++ ps', by simp [VMap.insertAllG, e1, f1], f2,
          by simpa using f3⟩

end

end Verif
