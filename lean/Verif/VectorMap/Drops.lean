import Verif.VectorMap.Oracle
import Verif.HashTable.Facts

/-!
# Who drops the keys and values of a `VectorMap`

The functions of VectorMap/Oracle.lean again, now also with the keys and values that go out of scope
in the call: arguments not stored, keys of removed pairs, and everything the call owns when the
comparator or `==` panics.  Pairs dropped by the vector itself (`clear`, `Drop`) are in the log of
the memory, as before.
-/

set_option autoImplicit false

namespace Verif
open Spec

variable {σ K V : Type}

namespace VMap

/-- A call that searches; `owned` goes out of scope if the search panics (src/vector_map/mod.rs:76,
97, 119, 144, 179). -/
def searchingD (F : KeyFns σ K) (key : K) (owned : List (K ⊕ V))
    (rest : Option (K × V) → Nat → Exec (MapOut K V × Vec × Mem (K × V) × List (K ⊕ V))) (v : Vec)
    (m : Mem (K × V)) (s : σ) :
    Exec (Option (MapOut K V) × σ × Vec × Mem (K × V) × List (K ⊕ V)) := do
  let (r, s) ← findO F key v m s
  match r with
  | none => .ok (none, s, v, m, owned)
  | some (p, i) => do
    let (o, v, m, l) ← rest p i
    .ok (some o, s, v, m, l)

/-- One call, with what goes out of scope in it.  `insert` (src/vector_map/mod.rs:142-157) drops its
argument `key` if the key is there, and returns the old value; unwinding drops `value`, then `key`.
`remove` (171-173) drops the key of the pair in the closure.  `entry` (74-89) drops `key` if the key
is there; the caller, who holds the value to insert, then drops that.  An entry let go drops its key
(entry.rs:26-30).  Lookups borrow their key. -/
def stepD (A : Allocator (K × V)) (F : KeyFns σ K) (nd : Bool) (op : MapOp K V) (v : Vec)
    (m : Mem (K × V)) (s : σ) :
    Exec (Option (MapOut K V) × σ × Vec × Mem (K × V) × List (K ⊕ V)) :=
  match op with
  | .insert k x => searchingD F k [.inr x, .inl k] (fun p i =>
      match p with
      | some p => do
        let m ← v.setAt false i (p.1, x) m
        .ok (.val (some p.2), v, m, [.inl k])
      | none => do
        let (v, m) ← v.insert A i (k, x) m
        .ok (.val none, v, m, [])) v m s
  | .remove k => searchingD F k [] (fun p i =>
      match p with
      | some _ => do
        let (r, v, m) ← v.remove i m
        .ok (.val (r.map Prod.snd), v, m, r.toList.map fun q => .inl q.1)
      | none => .ok (.val none, v, m, [])) v m s
  | .removeEntry k => searchingD F k [] (fun p i =>
      match p with
      | some _ => do
        let (r, v, m) ← v.remove i m
        .ok (.pair r, v, m, [])
      | none => .ok (.pair none, v, m, [])) v m s
  | .get k => searchingD F k [] (fun p _ => .ok (.val (p.map Prod.snd), v, m, [])) v m s
  | .modify k f => searchingD F k [] (fun p i =>
      match p with
      | some p => do
        let m ← v.setAt false i (p.1, f p.2) m
        .ok (.val (some p.2), v, m, [])
      | none => .ok (.val none, v, m, [])) v m s
  | .contains k => searchingD F k [] (fun p _ =>
      .ok (.bool (p.map Prod.snd).isSome, v, m, [])) v m s
  | .entry k f x => searchingD F k [.inl k, .inr x] (fun p i =>
      match p with
      | some p => do
        let m ← v.setAt false i (p.1, f p.2) m
        let q ← index i v m
        .ok (.val (some q.2), v, m, [.inl k, .inr x])
      | none => do
        let (v, m) ← v.insert A i (k, x) m
        let q ← index i v m
        .ok (.val (some q.2), v, m, [])) v m s
  | .entryKey k => searchingD F k [.inl k] (fun p _ =>
      match p with
      | some p => .ok (.key p.1, v, m, [.inl k])
      | none => .ok (.key k, v, m, [.inl k])) v m s
  | .len => do let n ← v.len; .ok (some (.nat n), s, v, m, [])
  | .isEmpty => do let b ← v.isEmpty; .ok (some (.bool b), s, v, m, [])
  | .clear => do let (v, m) ← v.clear A nd m; .ok (some .unit, s, v, m, [])

/-- A history of calls; the caller catches panics and goes on. -/
def runD (A : Allocator (K × V)) (F : KeyFns σ K) (nd : Bool) : List (MapOp K V) → Vec →
    Mem (K × V) → σ → Exec (List (Option (MapOut K V)) × σ × Vec × Mem (K × V) × List (K ⊕ V))
  | [], v, m, s => .ok ([], s, v, m, [])
  | op :: ops, v, m, s => do
    let (o, s, v, m, l) ← stepD A F nd op v m s
    let (os, s, v, m, l') ← runD A F nd ops v m s
    .ok (o :: os, s, v, m, l ++ l')

/-- The loop of inserts in `From<[(K, V); N]>` and `FromIterator` (src/vector_map/mod.rs:258-264,
281-289): the value that `insert` returns is dropped at once.  If an insert panics, unwinding drops
the pairs still in the iterator and the map (whose `Drop` is the vector's `clear`). -/
def insertAllD (A : Allocator (K × V)) (F : KeyFns σ K) (nd : Bool) : List (K × V) → Vec →
    Mem (K × V) → σ → Exec (Option Vec × σ × Mem (K × V) × List (K ⊕ V))
  | [], v, m, s => .ok (some v, s, m, [])
  | p :: ps, v, m, s => do
    let (o, s, v, m, l) ← stepD A F nd (.insert p.1 p.2) v m s
    match o with
    | none => do
      let (_, m) ← v.clear A nd m
      .ok (none, s, m, l ++ contents ps)
    | some (.val (some old)) => do
      let (r, s, m, l') ← insertAllD A F nd ps v m s
      .ok (r, s, m, l ++ .inr old :: l')
    | some _ => do
      let (r, s, m, l') ← insertAllD A F nd ps v m s
      .ok (r, s, m, l ++ l')

/-- `From<[(K, V); N]>` (src/vector_map/mod.rs:255-265). -/
def fromPairsD (A : Allocator (K × V)) (F : KeyFns σ K) (nd : Bool) (ps : List (K × V))
    (m : Mem (K × V)) (s : σ) : Exec (Option Vec × σ × Mem (K × V) × List (K ⊕ V)) := do
  let (v, m) ← Vec.withCapacity A ps.length m
  insertAllD A F nd ps v m s

/-- `FromIterator` (src/vector_map/mod.rs:278-290), the iterator owning the pairs. -/
def fromIterD (A : Allocator (K × V)) (F : KeyFns σ K) (nd : Bool) (ps : List (K × V))
    (m : Mem (K × V)) (s : σ) : Exec (Option Vec × σ × Mem (K × V) × List (K ⊕ V)) :=
  insertAllD A F nd ps Vec.new m s

end VMap

/-! ## The log does not change the run -/

theorem searchingD_erase (F : KeyFns σ K) (key : K) (owned : List (K ⊕ V))
    (rest : Option (K × V) → Nat → Exec (MapOut K V × Vec × Mem (K × V) × List (K ⊕ V)))
    (rest' : Option (K × V) → Nat → Exec (MapOut K V × Vec × Mem (K × V)))
    (h : ∀ p i, rest' p i = (do let r ← rest p i; .ok (r.1, r.2.1, r.2.2.1)))
    (v : Vec) (m : Mem (K × V)) (s : σ) :
    VMap.searching F key rest' v m s = (do
      let r ← VMap.searchingD F key owned rest v m s
      .ok (r.1, r.2.1, r.2.2.1, r.2.2.2.1)) := by
  unfold VMap.searching VMap.searchingD
  cases VMap.findO F key v m s with
  | error e => rfl
  | ok r =>
    obtain ⟨r, s1⟩ := r
    cases r with
    | none => rfl
    | some r =>
      simp only [Exec.ok_bind, h]
      cases rest r.1 r.2 <;> rfl

theorem stepD_erase (A : Allocator (K × V)) (F : KeyFns σ K) (nd : Bool) (op : MapOp K V)
    (v : Vec) (m : Mem (K × V)) (s : σ) :
    VMap.stepO A F nd op v m s = (do
      let r ← VMap.stepD A F nd op v m s
      .ok (r.1, r.2.1, r.2.2.1, r.2.2.2.1)) := by
  cases op with
  | insert k x =>
    refine searchingD_erase F k _ _ _ (fun p i => ?_) v m s
    cases p with
    | none => simp only [Exec.bind_assoc]; cases v.insert A i (k, x) m <;> rfl
    | some p => simp only [Exec.bind_assoc]; cases v.setAt false i (p.1, x) m <;> rfl
  | remove k =>
    refine searchingD_erase F k _ _ _ (fun p i => ?_) v m s
    cases p with
    | none => rfl
    | some p => cases h : v.remove i m <;> rfl
  | removeEntry k =>
    refine searchingD_erase F k _ _ _ (fun p i => ?_) v m s
    cases p with
    | none => rfl
    | some p => cases h : v.remove i m <;> rfl
  | get k =>
    refine searchingD_erase F k _ _ _ (fun p i => ?_) v m s
    rfl
  | modify k f =>
    refine searchingD_erase F k _ _ _ (fun p i => ?_) v m s
    cases p with
    | none => rfl
    | some p => cases h : v.setAt false i (p.1, f p.2) m <;> simp only [h] <;> rfl
  | contains k =>
    refine searchingD_erase F k _ _ _ (fun p i => ?_) v m s
    rfl
  | entry k f x =>
    refine searchingD_erase F k _ _ _ (fun p i => ?_) v m s
    cases p with
    | none =>
      cases h : v.insert A i (k, x) m with
      | error e => rfl
      | ok r => simp only [Exec.ok_bind]; cases VMap.index i r.1 r.2 <;> rfl
    | some p =>
      cases h : v.setAt false i (p.1, f p.2) m with
      | error e => simp only [h]; rfl
      | ok r => simp only [h, Exec.ok_bind]; cases VMap.index i v r <;> rfl
  | entryKey k =>
    refine searchingD_erase F k _ _ _ (fun p i => ?_) v m s
    cases p <;> rfl
  | len => simp only [VMap.stepO, VMap.stepD]; cases v.len <;> rfl
  | isEmpty => simp only [VMap.stepO, VMap.stepD]; cases v.isEmpty <;> rfl
  | clear => simp only [VMap.stepO, VMap.stepD]; cases v.clear A nd m <;> rfl

theorem runD_erase (A : Allocator (K × V)) (F : KeyFns σ K) (nd : Bool) (ops : List (MapOp K V)) :
    ∀ (v : Vec) (m : Mem (K × V)) (s : σ), VMap.runO A F nd ops v m s = (do
      let r ← VMap.runD A F nd ops v m s
      .ok (r.1, r.2.1, r.2.2.1, r.2.2.2.1)) := by
  induction ops with
  | nil => intro v m s; rfl
  | cons op ops ih =>
    intro v m s
    simp only [VMap.runO, VMap.runD, stepD_erase]
    cases VMap.stepD A F nd op v m s with
    | error e => rfl
    | ok r =>
      simp only [Exec.ok_bind, ih]
      cases VMap.runD A F nd ops r.2.2.1 r.2.2.2.1 r.2.1 <;> rfl

/-! ## What is dropped -/

variable {R : RawAlloc (K × V)} {w : World (K × V)} {m : Mem (K × V)} {v : Vec} {xs : List (K × V)}

theorem MInv.insertAtE (h : MInv w m v xs) {r : Nat} (hr : r ≤ xs.length) (p : K × V) :
    ∃ v' m', v.insert (defaultAllocator R) r p m = .ok (v', m') ∧
      MInv w m' v' (xs.take r ++ p :: xs.drop r) ∧ m'.dropped = m.dropped := by
  obtain ⟨cap, h⟩ := h
  obtain ⟨v1, m1, b1, blk1, he, hB, hE⟩ := h.insert (defaultAllocator_lawful R) p hr
  rw [insertIdx_eq_take_drop _ _ _ hr] at hB
  exact ⟨v1, m1, he, ⟨_, hB.inv⟩, by simpa using hE.dropped⟩

theorem MInv.setAtE (h : MInv w m v xs) {r : Nat} (hr : r < xs.length) (p : K × V) :
    ∃ m', v.setAt false r p m = .ok m' ∧ MInv w m' v (xs.set r p) ∧ m'.dropped = m.dropped := by
  obtain ⟨cap, h⟩ := h
  obtain ⟨b, blk, hB⟩ := h.own (by intro e; simp [e] at hr)
  obtain ⟨m', he, hB', hE⟩ := hB.setAt false p hr
  exact ⟨m', he, ⟨_, hB'.inv⟩, by simpa using hE.dropped⟩

theorem MInv.removeAtE (h : MInv w m v xs) {r : Nat} (hr : r < xs.length) :
    ∃ v' m', v.remove r m = .ok (xs[r]?, v', m') ∧ MInv w m' v' (xs.eraseIdx r) ∧
      m'.dropped = m.dropped := by
  obtain ⟨cap, h⟩ := h
  obtain ⟨b, blk, hB⟩ := h.own (by intro e; simp [e] at hr)
  obtain ⟨v', m', blk', he, hinv, _, hE⟩ := hB.remove hr
  exact ⟨v', m', he, ⟨_, hinv.inv⟩, by simpa using hE.dropped⟩

theorem MInv.clearE (h : MInv w m v xs) (nd : Bool) :
    ∃ m', v.clear (defaultAllocator R) nd m = .ok (Vec.new, m') ∧ MInv w m' Vec.new [] ∧
      m'.live = w ∧ m'.dropped = m.dropped ++ if nd then xs else [] := by
  obtain ⟨cap, h⟩ := h
  obtain ⟨m', he, _, hw, _, hi, hE⟩ := h.clear (defaultAllocator_lawful R) nd
  exact ⟨m', he, ⟨_, hi⟩, funext fun p => hw p not_false, hE.dropped⟩

/-- One call: `ps` are the pairs the vector drops, `l` what goes out of scope in the call. -/
theorem MInv.stepD (R : RawAlloc (K × V)) (F : KeyFns σ K) (nd : Bool) (op : MapOp K V)
    (h : MInv w m v xs) (s : σ) :
    ∃ o s' v' m' ys d l ps,
      VMap.stepD (defaultAllocator R) F nd op v m s = .ok (o, s', v', m', l) ∧
      MInv w m' v' ys ∧ Called op o xs ys d ∧ (l ++ contents ps).Perm d ∧
      m'.dropped = m.dropped ++ if nd then ps else [] := by
  have hfind := fun k => h.findO F k s
  have e0 : m.dropped = m.dropped ++ if nd then [] else [] := by cases nd <;> simp
  have hp0 : ∀ l : List (K ⊕ V), (l ++ contents ([] : List (K × V))).Perm l := fun l => by
    simp [contents]
  cases op with
  | insert k x =>
    obtain ⟨s1, hf | ⟨r, hr, hf | ⟨p, hp, hf⟩⟩⟩ := hfind k
    · exact ⟨none, s1, v, m, xs, _, _, [], by simp [VMap.stepD, VMap.searchingD, hf], h,
        .panics rfl, (hp0 _).trans (List.Perm.swap _ _ _), e0⟩
    · obtain ⟨v', m', he, hi, hd⟩ := h.insertAtE (R := R) hr (k, x)
      exact ⟨_, s1, v', m', _, _, _, [], by simp [VMap.stepD, VMap.searchingD, hf, he], hi,
        .returns (.insertNew (take_cons_drop_perm ..)), hp0 _, by rw [hd]; exact e0⟩
    · obtain ⟨m', he, hi, hd⟩ := h.setAtE (List.getElem?_eq_some_iff.1 hp).1 (p.1, x)
      exact ⟨_, s1, v, m', _, _, _, [], by simp [VMap.stepD, VMap.searchingD, hf, he], hi,
        .returns (.insertOld (perm_eraseIdx hp) (perm_set hp _)), hp0 _, by rw [hd]; exact e0⟩
  | remove k =>
    obtain ⟨s1, hf | ⟨r, hr, hf | ⟨p, hp, hf⟩⟩⟩ := hfind k
    · exact ⟨none, s1, v, m, xs, _, _, [], by simp [VMap.stepD, VMap.searchingD, hf]; rfl, h,
        .panics rfl, hp0 _, e0⟩
    · exact ⟨_, s1, v, m, xs, _, _, [], by simp [VMap.stepD, VMap.searchingD, hf], h,
        .returns (.removeNone (.refl _)), hp0 _, e0⟩
    · obtain ⟨v', m', he, hi, hd⟩ := h.removeAtE (List.getElem?_eq_some_iff.1 hp).1
      rw [hp] at he
      exact ⟨_, s1, v', m', _, _, _, [], by simp [VMap.stepD, VMap.searchingD, hf, he], hi,
        .returns (.removeSome (perm_eraseIdx hp)), hp0 _, by rw [hd]; exact e0⟩
  | removeEntry k =>
    obtain ⟨s1, hf | ⟨r, hr, hf | ⟨p, hp, hf⟩⟩⟩ := hfind k
    · exact ⟨none, s1, v, m, xs, _, _, [], by simp [VMap.stepD, VMap.searchingD, hf]; rfl, h,
        .panics rfl, hp0 _, e0⟩
    · exact ⟨_, s1, v, m, xs, _, _, [], by simp [VMap.stepD, VMap.searchingD, hf], h,
        .returns (.removeEntryNone (.refl _)), hp0 _, e0⟩
    · obtain ⟨v', m', he, hi, hd⟩ := h.removeAtE (List.getElem?_eq_some_iff.1 hp).1
      rw [hp] at he
      exact ⟨_, s1, v', m', _, _, _, [], by simp [VMap.stepD, VMap.searchingD, hf, he], hi,
        .returns (.removeEntrySome (perm_eraseIdx hp)), hp0 _, by rw [hd]; exact e0⟩
  | get k =>
    obtain ⟨s1, hf | ⟨r, hr, hf | ⟨p, hp, hf⟩⟩⟩ := hfind k
    · exact ⟨none, s1, v, m, xs, _, _, [], by simp [VMap.stepD, VMap.searchingD, hf]; rfl, h,
        .panics rfl, hp0 _, e0⟩
    · exact ⟨_, s1, v, m, xs, _, _, [], by simp [VMap.stepD, VMap.searchingD, hf], h,
        .returns (.getNone (.refl _)), hp0 _, e0⟩
    · exact ⟨_, s1, v, m, xs, _, _, [], by simp [VMap.stepD, VMap.searchingD, hf], h,
        .returns (.getSome (.refl _) (List.mem_of_getElem? hp)), hp0 _, e0⟩
  | modify k f =>
    obtain ⟨s1, hf | ⟨r, hr, hf | ⟨p, hp, hf⟩⟩⟩ := hfind k
    · exact ⟨none, s1, v, m, xs, _, _, [], by simp [VMap.stepD, VMap.searchingD, hf]; rfl, h,
        .panics rfl, hp0 _, e0⟩
    · exact ⟨_, s1, v, m, xs, _, _, [], by simp [VMap.stepD, VMap.searchingD, hf], h,
        .returns (.modifyNone (.refl _)), hp0 _, e0⟩
    · obtain ⟨m', he, hi, hd⟩ := h.setAtE (List.getElem?_eq_some_iff.1 hp).1 (p.1, f p.2)
      exact ⟨_, s1, v, m', _, _, _, [], by simp [VMap.stepD, VMap.searchingD, hf, he], hi,
        .returns (.modifySome (perm_eraseIdx hp) (perm_set hp _)), hp0 _, by rw [hd]; exact e0⟩
  | contains k =>
    obtain ⟨s1, hf | ⟨r, hr, hf | ⟨p, hp, hf⟩⟩⟩ := hfind k
    · exact ⟨none, s1, v, m, xs, _, _, [], by simp [VMap.stepD, VMap.searchingD, hf]; rfl, h,
        .panics rfl, hp0 _, e0⟩
    · exact ⟨some (.bool false), s1, v, m, xs, _, _, [],
        by simp [VMap.stepD, VMap.searchingD, hf], h,
        .returns (.contains (.refl _) (by simp)), hp0 _, e0⟩
    · exact ⟨some (.bool true), s1, v, m, xs, _, _, [],
        by simp [VMap.stepD, VMap.searchingD, hf], h,
        .returns (.contains (.refl _) (fun _ e => by simp [e] at hp)), hp0 _, e0⟩
  | entry k f x =>
    obtain ⟨s1, hf | ⟨r, hr, hf | ⟨p, hp, hf⟩⟩⟩ := hfind k
    · exact ⟨none, s1, v, m, xs, _, _, [], by simp [VMap.stepD, VMap.searchingD, hf]; rfl, h,
        .panics rfl, hp0 _, e0⟩
    · obtain ⟨v', m', he, hi, hd⟩ := h.insertAtE (R := R) hr (k, x)
      have hix : VMap.index r v' m' = .ok (k, x) := hi.index (by
        rw [List.getElem?_append_right (by simp)]
        simp [hr])
      exact ⟨_, s1, v', m', _, _, _, [],
        by simp [VMap.stepD, VMap.searchingD, hf, he, hix], hi,
        .returns (.entryNew (take_cons_drop_perm ..)), hp0 _, by rw [hd]; exact e0⟩
    · have hlt := (List.getElem?_eq_some_iff.1 hp).1
      obtain ⟨m', he, hi, hd⟩ := h.setAtE hlt (p.1, f p.2)
      have hix : VMap.index r v m' = .ok (p.1, f p.2) := hi.index (by simp [hlt])
      exact ⟨_, s1, v, m', _, _, _, [],
        by simp [VMap.stepD, VMap.searchingD, hf, he, hix], hi,
        .returns (.entryOld (perm_eraseIdx hp) (perm_set hp _)), hp0 _, by rw [hd]; exact e0⟩
  | entryKey k =>
    obtain ⟨s1, hf | ⟨r, hr, hf | ⟨p, hp, hf⟩⟩⟩ := hfind k
    · exact ⟨none, s1, v, m, xs, _, _, [], by simp [VMap.stepD, VMap.searchingD, hf]; rfl, h,
        .panics rfl, hp0 _, e0⟩
    · exact ⟨_, s1, v, m, xs, _, _, [], by simp [VMap.stepD, VMap.searchingD, hf], h,
        .returns (.entryKeyNew (.refl _)), hp0 _, e0⟩
    · exact ⟨_, s1, v, m, xs, _, _, [], by simp [VMap.stepD, VMap.searchingD, hf], h,
        .returns (.entryKeyOld (.refl _) (List.mem_of_getElem? hp)), hp0 _, e0⟩
  | len =>
    obtain ⟨cap, h⟩ := h
    exact ⟨_, s, v, m, xs, _, _, [], by simp [VMap.stepD, h.len], ⟨cap, h⟩,
      .returns (.len (.refl _)), hp0 _, e0⟩
  | isEmpty =>
    obtain ⟨cap, h⟩ := h
    exact ⟨some (.bool xs.isEmpty), s, v, m, xs, _, [], [],
      by simp [VMap.stepD, h.isEmpty]; cases xs <;> rfl, ⟨cap, h⟩,
      .returns (.isEmpty (.refl _)), hp0 _, e0⟩
  | clear =>
    obtain ⟨m', he, hi, _, hd⟩ := h.clearE (R := R) nd
    exact ⟨_, s, _, m', [], _, [], xs, by simp [VMap.stepD, he], hi, .returns .clear,
      .refl _, hd⟩

theorem contents_append (a b : List (K × V)) : contents (a ++ b) = contents a ++ contents b := by
  simp [contents]

theorem MInv.runD (R : RawAlloc (K × V)) (F : KeyFns σ K) (nd : Bool) (ops : List (MapOp K V)) :
    ∀ {m : Mem (K × V)} {v : Vec} {xs : List (K × V)} (s : σ), MInv w m v xs →
    ∃ os s' v' m' ys d l ps,
      VMap.runD (defaultAllocator R) F nd ops v m s = .ok (os, s', v', m', l) ∧
      MInv w m' v' ys ∧ CalledRun ops os xs ys d ∧ (l ++ contents ps).Perm d ∧
      m'.dropped = m.dropped ++ if nd then ps else [] := by
  induction ops with
  | nil =>
    intro m v xs s h
    exact ⟨[], s, v, m, xs, [], [], [], rfl, h, .nil, .refl _, by cases nd <;> simp⟩
  | cons op ops ih =>
    intro m v xs s h
    obtain ⟨o, s1, v1, m1, ys, d, l, ps, he, hi, hh, hp, hd⟩ := h.stepD R F nd op s
    obtain ⟨os, s2, v2, m2, zs, d', l', ps', he2, hi2, hh2, hp2, hd2⟩ := ih s1 hi
    refine ⟨o :: os, s2, v2, m2, zs, d ++ d', l ++ l', ps ++ ps', by simp [VMap.runD, he, he2], hi2,
      .cons hh hh2, ?_, by rw [hd2, hd]; cases nd <;> simp⟩
    rw [contents_append]
    refine List.Perm.trans ?_ (hp.append hp2)
    rw [List.append_assoc, List.append_assoc]
    refine List.Perm.append_left l ?_
    rw [← List.append_assoc, ← List.append_assoc]
    exact List.Perm.append_right _ List.perm_append_comm

/-! ## A map that works drops what the finite map drops -/

/-- If a call returned what it returns on the finite map and left those pairs, it dropped what the
specification says. -/
theorem Honest.drops {eq : K → K → Bool} (he : PartialEquiv eq) {op : MapOp K V} {o : MapOut K V}
    {s s' : List (K × V)} {d : List (K ⊕ V)} (h : Honest op o s s' d) (hds : Distinct eq s)
    (ho : o = (op.step eq s).1) (hs : s'.Perm (op.step eq s).2) : d = op.drops eq s := by
  cases h with
  | insertNew hp =>
    rename_i k x
    cases hl : lookup eq s k with
    | none => simp [MapOp.drops, hl]
    | some p => simp [MapOp.step, hl] at ho
  | insertOld hp hp' =>
    rename_i k k' x old r
    cases hl : lookup eq s k with
    | none => simp [MapOp.step, hl] at ho
    | some p => simp [MapOp.drops, hl]
  | removeNone hp =>
    rename_i k
    cases hl : lookup eq s k with
    | none => simp [MapOp.drops, hl]
    | some p => simp [MapOp.step, hl] at ho
  | removeSome hp =>
    rename_i k k' x
    cases hl : lookup eq s k with
    | none => simp [MapOp.step, hl] at ho
    | some p =>
      simp only [MapOp.drops, hl]
      simp only [MapOp.step] at hs
      have hmem := (lookup_some he hds).1 hl
      obtain ⟨A, B, rfl⟩ := List.append_of_mem hmem.1
      have hs2 : eraseKey eq k (A ++ p :: B) = A ++ B := (setVal_mid he hds hmem.2 p.2).2
      rw [hs2] at hs
      have h1 : ((k', x) :: s').Perm (p :: s') :=
        (hp.symm.trans List.perm_middle).trans (hs.symm.cons p)
      have h2 : ((k', x) ::ₘ (s' : Multiset (K × V))) = p ::ₘ (s' : Multiset (K × V)) :=
        Multiset.coe_eq_coe.2 h1
      have := (Multiset.cons_inj_left _).1 h2
      rw [← this]
  | entryNew hp =>
    rename_i k f x
    cases hl : lookup eq s k with
    | none => simp [MapOp.drops, hl]
    | some p =>
      have := hp.length_eq.symm.trans hs.length_eq
      simp [MapOp.step, hl, setVal] at this
  | entryOld hp hp' =>
    rename_i k k' f x old r
    cases hl : lookup eq s k with
    | none =>
      have h1 := hs.length_eq
      have h2 := hp.length_eq
      have h3 := hp'.length_eq
      simp only [MapOp.step, hl, List.length_cons] at h1 h2 h3
      omega
    | some p => simp [MapOp.drops, hl]
  | _ => rfl

theorem vmap_allDrops_perm {eq : K → K → Bool} (he : PartialEquiv eq) (ops : List (MapOp K V)) :
    ∀ {s s' : List (K × V)}, s.Perm s' → Distinct eq s →
    (MapOp.allDrops eq ops s).Perm (MapOp.allDrops eq ops s') := by
  induction ops with
  | nil => intro s s' _ _; exact .refl _
  | cons op ops ih =>
    intro s s' h hd
    refine List.Perm.append ?_ (ih (step_perm he h hd op).2 (hd.step he op))
    cases op <;> simp only [MapOp.drops, ← lookup_perm he h hd] <;> try exact .refl _
    exact h.flatMap_right _

/-- One call when comparator and `==` answer like a strict weak order and its ties unless they
panic. -/
theorem MInv.stepD_fits {lt eq : K → K → Bool} (hw : StrictWeak lt) (hc : Consistent lt eq)
    (R : RawAlloc (K × V)) {F : KeyFns σ K} (hF : F.Fits lt eq) (nd : Bool) (op : MapOp K V)
    (h : MInv w m v xs) (hs : WSorted lt xs) (hd : Distinct eq xs) (s : σ) :
    ∃ o s' v' m' ys l ps,
      VMap.stepD (defaultAllocator R) F nd op v m s = .ok (o, s', v', m', l) ∧
      MInv w m' v' ys ∧ WSorted lt ys ∧ m'.dropped = (m.dropped ++ if nd then ps else []) ∧
      ((o = none ∧ ys = xs ∧ (l ++ contents ps).Perm op.owns) ∨
       (o = some (op.step eq xs).1 ∧ ys.Perm (op.step eq xs).2 ∧
        (l ++ contents ps).Perm (op.drops eq xs))) := by
  have he := hc.equiv hw
  obtain ⟨o, s', v', m', ys, d, l, ps, e1, e2, e3, e4, e5⟩ := h.stepD R F nd op s
  have e6 : VMap.stepO (defaultAllocator R) F nd op v m s = .ok (o, s', v', m') := by
    rw [stepD_erase, e1]; rfl
  cases e3 with
  | panics _ => exact ⟨none, s', v', m', xs, l, ps, e1, e2, hs, e5, .inl ⟨rfl, rfl, e4⟩⟩
  | returns hh =>
    rename_i o
    obtain ⟨s1, h1 | h1⟩ := stepO_fits hF (defaultAllocator R) nd op v m s
    · rw [h1] at e6
      simp at e6
    · obtain ⟨v2, m2, zs, f1, f2, f3, f4⟩ := h.step (R := R) hw hc nd op hs hd
      rw [f1, e6] at h1
      simp only [Except.map, Except.ok.injEq, Prod.mk.injEq, Option.some.injEq] at h1
      obtain ⟨rfl, rfl, rfl, rfl⟩ := h1
      have hz : ys = zs := by
        obtain ⟨c1, g1⟩ := e2
        obtain ⟨c2, g2⟩ := f2
        have := g1.slice.symm.trans g2.slice
        cases this
        rfl
      subst hz
      refine ⟨_, s', v', m', ys, l, ps, e1, e2, f3, e5, .inr ⟨rfl, f4, ?_⟩⟩
      rw [← Honest.drops he hh hd rfl f4]
      exact e4

theorem MInv.runD_fits {lt eq : K → K → Bool} (hw : StrictWeak lt) (hc : Consistent lt eq)
    (R : RawAlloc (K × V)) {F : KeyFns σ K} (hF : F.Fits lt eq) (nd : Bool)
    (ops : List (MapOp K V)) : ∀ {m : Mem (K × V)} {v : Vec} {xs : List (K × V)} (s : σ),
    MInv w m v xs → WSorted lt xs → Distinct eq xs →
    ∃ os s' v' m' ys l ps,
      VMap.runD (defaultAllocator R) F nd ops v m s = .ok (os, s', v', m', l) ∧
      MInv w m' v' ys ∧ m'.dropped = (m.dropped ++ if nd then ps else []) ∧
      ys.Perm (MapOp.run eq (returned ops os) xs).2 ∧
      (l ++ contents ps).Perm
        (MapOp.allDrops eq (returned ops os) xs ++ interruptedOwns ops os) := by
  have he := hc.equiv hw
  induction ops with
  | nil =>
    intro m v xs s h hs hd
    exact ⟨[], s, v, m, xs, [], [], rfl, h, by cases nd <;> simp, .refl _, .refl _⟩
  | cons op ops ih =>
    intro m v xs s h hs hd
    obtain ⟨o, s1, v1, m1, ys, l, ps, e1, e2, e3, e4, e5⟩ := h.stepD_fits hw hc R hF nd op hs hd s
    have hdy : Distinct eq ys := by
      rcases e5 with ⟨_, rfl, _⟩ | ⟨_, hp, _⟩
      · exact hd
      · exact (hd.step he op).perm he hp.symm
    obtain ⟨os, s2, v2, m2, zs, l', ps', f1, f2, f3, f4, f5⟩ := ih s1 e2 e3 hdy
    refine ⟨o :: os, s2, v2, m2, zs, l ++ l', ps ++ ps', by simp [VMap.runD, e1, f1], f2,
      by rw [f3, e4]; cases nd <;> simp, ?_, ?_⟩
    · rcases e5 with ⟨rfl, rfl, _⟩ | ⟨rfl, hp, _⟩
      · simpa [returned] using f4
      · have := (run_perm he (returned ops os) hp hdy).2
        simpa [returned, MapOp.run] using f4.trans this
    · rw [contents_append]
      have hmix : ((l ++ l') ++ (contents ps ++ contents ps')).Perm
          ((l ++ contents ps) ++ (l' ++ contents ps')) := by
        rw [List.append_assoc, List.append_assoc]
        refine List.Perm.append_left l ?_
        rw [← List.append_assoc, ← List.append_assoc]
        exact List.Perm.append_right _ List.perm_append_comm
      refine hmix.trans ?_
      rcases e5 with ⟨rfl, rfl, h1⟩ | ⟨rfl, hp, h1⟩
      · have hR : returned (op :: ops) (none :: os) = returned ops os := by simp [returned]
        have hI : interruptedOwns (op :: ops) (none :: os) = op.owns ++ interruptedOwns ops os := by
          simp [interruptedOwns]
        rw [hR, hI]
        refine (h1.append f5).trans ?_
        rw [← List.append_assoc, ← List.append_assoc]
        exact List.Perm.append_right _ List.perm_append_comm
      · have hR : ∀ x : MapOut K V, returned (op :: ops) (some x :: os) = op :: returned ops os := by
          intro x; simp [returned]
        have hI : ∀ x : MapOut K V,
            interruptedOwns (op :: ops) (some x :: os) = interruptedOwns ops os := by
          intro x; simp [interruptedOwns]
        rw [hR, hI, MapOp.allDrops, List.append_assoc (MapOp.drops eq op xs)]
        refine h1.append (f5.trans ?_)
        exact List.Perm.append_right _ (vmap_allDrops_perm he _ hp hdy)

/-! ## Bulk construction -/

theorem MInv.insertAllD (R : RawAlloc (K × V)) (F : KeyFns σ K) (nd : Bool) (kvs : List (K × V)) :
    ∀ {m : Mem (K × V)} {v : Vec} {xs : List (K × V)} (s : σ), MInv w m v xs →
    ∃ r s' m' l ps, VMap.insertAllD (defaultAllocator R) F nd kvs v m s = .ok (r, s', m', l) ∧
      m'.dropped = (m.dropped ++ if nd then ps else []) ∧
      ((∃ v' ys, r = some v' ∧ MInv w m' v' ys ∧
          (contents xs ++ contents kvs).Perm (contents ys ++ (l ++ contents ps))) ∨
        (r = none ∧ m'.live = w ∧ (contents xs ++ contents kvs).Perm (l ++ contents ps))) := by
  induction kvs with
  | nil =>
    intro m v xs s h
    exact ⟨some v, s, m, [], [], rfl, by cases nd <;> simp, .inl ⟨v, xs, rfl, h, .refl _⟩⟩
  | cons p kvs ih =>
    intro m v xs s h
    obtain ⟨o, s1, v1, m1, ys, d, l, ps, e1, e2, e3, e4, e5⟩ := h.stepD R F nd (.insert p.1 p.2) s
    have hc0 : contents (p :: kvs) = .inl p.1 :: .inr p.2 :: contents kvs := rfl
    have e4' : (l : Multiset (K ⊕ V)) + contents ps = d := by
      rw [Multiset.coe_add]; exact Multiset.coe_eq_coe.2 e4
    -- the rest of the loop, if the insert returned
    have hgo : ∀ (extra : List (K ⊕ V)),
        (contents xs ++ [.inl p.1, .inr p.2] : List (K ⊕ V)).Perm
          (contents ys ++ (extra ++ (l ++ contents ps))) →
        ∃ r s' m' l' ps', VMap.insertAllD (defaultAllocator R) F nd kvs v1 m1 s1 =
            .ok (r, s', m', l') ∧
          m'.dropped = (m.dropped ++ if nd then ps ++ ps' else []) ∧
          ((∃ v' zs, r = some v' ∧ MInv w m' v' zs ∧ (contents xs ++ contents (p :: kvs)).Perm
              (contents zs ++ (l ++ (extra ++ l') ++ contents (ps ++ ps')))) ∨
            (r = none ∧ m'.live = w ∧ (contents xs ++ contents (p :: kvs)).Perm
              (l ++ (extra ++ l') ++ contents (ps ++ ps')))) := by
      intro extra hx
      obtain ⟨r, s2, m2, l2, ps2, f1, f2, f3⟩ := ih s1 e2
      refine ⟨r, s2, m2, l2, ps2, f1, by rw [f2, e5]; cases nd <;> simp, ?_⟩
      have hx' : (contents xs : Multiset (K ⊕ V)) + ([.inl p.1, .inr p.2] : List (K ⊕ V)) =
          contents ys + (extra + (l + contents ps)) := by
        simp only [Multiset.coe_add]; exact Multiset.coe_eq_coe.2 hx
      have hk : (contents (p :: kvs) : Multiset (K ⊕ V)) =
          ([.inl p.1, .inr p.2] : List (K ⊕ V)) + contents kvs := by
        rw [Multiset.coe_add]; rfl
      rcases f3 with ⟨v', zs, rfl, g1, g2⟩ | ⟨rfl, g1, g2⟩
      · refine .inl ⟨v', zs, rfl, g1, Multiset.coe_eq_coe.1 ?_⟩
        have g2' := Multiset.coe_eq_coe.2 g2
        rw [contents_append]
        simp only [← Multiset.coe_add] at g2' ⊢
        rw [hk, ← add_assoc, hx']
        calc _ = (contents ys + contents kvs : Multiset (K ⊕ V)) +
              (extra + (l + contents ps)) := by abel
          _ = _ := by rw [g2']; abel
      · refine .inr ⟨rfl, g1, Multiset.coe_eq_coe.1 ?_⟩
        have g2' := Multiset.coe_eq_coe.2 g2
        rw [contents_append]
        simp only [← Multiset.coe_add] at g2' ⊢
        rw [hk, ← add_assoc, hx']
        calc _ = (contents ys + contents kvs : Multiset (K ⊕ V)) +
              (extra + (l + contents ps)) := by abel
          _ = _ := by rw [g2']; abel
    cases e3 with
    | panics _ =>
      obtain ⟨m2, g1, _, g2, g3⟩ := e2.clearE (R := R) nd
      refine ⟨none, s1, m2, l ++ contents kvs, ps ++ xs, ?_, by rw [g3, e5]; cases nd <;> simp,
        .inr ⟨rfl, g2, Multiset.coe_eq_coe.1 ?_⟩⟩
      · simp [VMap.insertAllD, e1, g1]
      · have hk : (contents (p :: kvs) : Multiset (K ⊕ V)) =
            ((MapOp.insert p.1 p.2).owns : List (K ⊕ V)) + contents kvs := by
          rw [Multiset.coe_add]; rfl
        rw [contents_append]
        simp only [← Multiset.coe_add]
        rw [hk, ← e4']
        abel
    | returns hh =>
      cases hh with
      | insertNew hp =>
        obtain ⟨r, s', m', l', ps', f1, f2, f3⟩ := hgo [] (Multiset.coe_eq_coe.1 (by
          have h1 := Multiset.coe_eq_coe.2 (contents_perm hp)
          have h2 : (contents ((p.1, p.2) :: xs) : Multiset (K ⊕ V)) =
              ([.inl p.1, .inr p.2] : List (K ⊕ V)) + contents xs := by
            rw [Multiset.coe_add]; rfl
          rw [h2] at h1
          simp only [← Multiset.coe_add, h1, e4']
          simp only [Multiset.coe_nil]
          abel))
        exact ⟨r, s', m', l ++ l', ps ++ ps', by simp [VMap.insertAllD, e1, f1], f2,
          by simpa using f3⟩
      | insertOld hp hp' =>
        rename_i k' old r0
        obtain ⟨r, s', m', l', ps', f1, f2, f3⟩ := hgo [.inr old] (Multiset.coe_eq_coe.1 (by
          have h1 := Multiset.coe_eq_coe.2 (contents_perm hp)
          have h2 := Multiset.coe_eq_coe.2 (contents_perm hp')
          have h3 : (contents ((k', old) :: r0) : Multiset (K ⊕ V)) =
              {.inl k'} + {.inr old} + contents r0 := rfl
          have h4 : (contents ((k', p.2) :: r0) : Multiset (K ⊕ V)) =
              {.inl k'} + {.inr p.2} + contents r0 := rfl
          have h5 : (([.inl p.1, .inr p.2] : List (K ⊕ V)) : Multiset (K ⊕ V)) =
              {.inl p.1} + {.inr p.2} := rfl
          have h6 : (([.inr old] : List (K ⊕ V)) : Multiset (K ⊕ V)) = {.inr old} := rfl
          have h7 : (([.inl p.1] : List (K ⊕ V)) : Multiset (K ⊕ V)) = {.inl p.1} := rfl
          simp only [← Multiset.coe_add, h1, h2, e4', h3, h4, h5, h6, h7]
          abel))
        exact ⟨r, s', m', l ++ .inr old :: l', ps ++ ps', by simp [VMap.insertAllD, e1, f1], f2,
          by simpa using f3⟩

end Verif
