import Verif.VectorMap.Any
import Verif.Spec.Interrupt
import Verif.Deque.Stale

/-!
# `VectorMap` whose comparator and `==` have a state and may panic

The functions of VectorMap/Model.lean again.  The comparator and `==` are run on a state, which they
may change, and return `none` if they panic.  So they may answer differently each time, also within a
call: because they count, read a clock, or because keys change through shared references.  A panic
leaves the call at once; what it owns is dropped (the log of drops records pairs only, so that is not
logged), and the caller goes on with the map.
-/

set_option autoImplicit false

namespace Verif
open Spec

variable {σ K V : Type}

/-- A comparator and an equality with state. -/
structure KeyFns (σ K : Type) where
  lt : σ → K → K → Option Bool × σ
  eq : σ → K → K → Option Bool × σ

/-- `lowerLoop` (superslice 1.0, used at src/vector_map/mod.rs:190-200) with such a closure. -/
def lowerLoopO {α : Type} (xs : List α) (less : σ → α → Option Bool × σ) :
    Nat → Nat → Nat → σ → Exec (Option Nat × σ)
  | 0, _, _, _ => .error .ub
  | fuel + 1, size, base, s =>
    if 1 < size then do
      let half := size / 2
      let mid := base + half
      let x ← sliceAt xs mid
      match less s x with
      | (none, s) => .ok (none, s)
      | (some b, s) => lowerLoopO xs less fuel (size - half) (if b then mid else base) s
    else .ok (some base, s)

/-- `superslice::Ext::lower_bound_by` (used at src/vector_map/mod.rs:190-200). -/
def lowerBoundByO {α : Type} (xs : List α) (less : σ → α → Option Bool × σ) (s : σ) :
    Exec (Option Nat × σ) :=
  if xs.length = 0 then .ok (some 0, s) else do
    let (r, s) ← lowerLoopO xs less xs.length xs.length 0 s
    match r with
    | none => .ok (none, s)
    | some base => do
      let x ← sliceAt xs base
      match less s x with
      | (none, s) => .ok (none, s)
      | (some b, s) => .ok (some (if b then base + 1 else base), s)

namespace VMap

/-- The lower bound and the test for equality (src/vector_map/mod.rs:76-79, 97-108, 119-128, 144-145,
179-182, 190-200). -/
def findO (F : KeyFns σ K) (key : K) (v : Vec) (m : Mem (K × V)) (s : σ) :
    Exec (Option (Option (K × V) × Nat) × σ) := do
  let xs ← v.asSlice m
  let (r, s) ← lowerBoundByO xs (fun s p => F.lt s p.1 key) s
  match r with
  | none => .ok (none, s)
  | some i => do
    let n ← v.len
    if i < n then do
      let p ← index i v m
      match F.eq s p.1 key with
      | (none, s) => .ok (none, s)
      | (some b, s) => .ok (some (if b then some p else none, i), s)
    else .ok (some (none, i), s)

/-- A call that searches, and goes on if no panic occurred.  In all functions the search comes first
and no key is compared afterwards. -/
def searching (F : KeyFns σ K) (key : K)
    (rest : Option (K × V) → Nat → Exec (MapOut K V × Vec × Mem (K × V))) (v : Vec)
    (m : Mem (K × V)) (s : σ) : Exec (Option (MapOut K V) × σ × Vec × Mem (K × V)) := do
  let (r, s) ← findO F key v m s
  match r with
  | none => .ok (none, s, v, m)
  | some (p, i) => do
    let (o, v, m) ← rest p i
    .ok (some o, s, v, m)

/-- One call: `insert` 142-157, `remove` 171-173, `remove_entry` 177-187, `get` 96-111, `get_mut`
118-133, `contains_key` 68-70, `entry` 74-89, `len` 165-167, `is_empty` 160-162, `clear` 59-61
(src/vector_map/mod.rs); the entry's own functions entry.rs:15-48. -/
def stepO (A : Allocator (K × V)) (F : KeyFns σ K) (nd : Bool) (op : MapOp K V) (v : Vec)
    (m : Mem (K × V)) (s : σ) : Exec (Option (MapOut K V) × σ × Vec × Mem (K × V)) :=
  match op with
  | .insert k x => searching F k (fun p i =>
      match p with
      | some p => do
        let m ← v.setAt false i (p.1, x) m
        .ok (.val (some p.2), v, m)
      | none => do
        let (v, m) ← v.insert A i (k, x) m
        .ok (.val none, v, m)) v m s
  | .remove k => searching F k (fun p i =>
      match p with
      | some _ => do
        let (r, v, m) ← v.remove i m
        .ok (.val (r.map Prod.snd), v, m)
      | none => .ok (.val none, v, m)) v m s
  | .removeEntry k => searching F k (fun p i =>
      match p with
      | some _ => do
        let (r, v, m) ← v.remove i m
        .ok (.pair r, v, m)
      | none => .ok (.pair none, v, m)) v m s
  | .get k => searching F k (fun p _ => .ok (.val (p.map Prod.snd), v, m)) v m s
  | .modify k f => searching F k (fun p i =>
      match p with
      | some p => do
        let m ← v.setAt false i (p.1, f p.2) m
        .ok (.val (some p.2), v, m)
      | none => .ok (.val none, v, m)) v m s
  | .contains k => searching F k (fun p _ => .ok (.bool (p.map Prod.snd).isSome, v, m)) v m s
  | .entry k f x => searching F k (fun p i =>
      match p with
      | some p => do
        let m ← v.setAt false i (p.1, f p.2) m
        let q ← index i v m
        .ok (.val (some q.2), v, m)
      | none => do
        let (v, m) ← v.insert A i (k, x) m
        let q ← index i v m
        .ok (.val (some q.2), v, m)) v m s
  | .entryKey k => searching F k (fun p _ =>
      match p with
      | some p => .ok (.key p.1, v, m)
      | none => .ok (.key k, v, m)) v m s
  | .len => do let n ← v.len; .ok (some (.nat n), s, v, m)
  | .isEmpty => do let b ← v.isEmpty; .ok (some (.bool b), s, v, m)
  | .clear => do let (v, m) ← v.clear A nd m; .ok (some .unit, s, v, m)

/-- A history of calls; the caller catches panics and goes on. -/
def runO (A : Allocator (K × V)) (F : KeyFns σ K) (nd : Bool) : List (MapOp K V) → Vec →
    Mem (K × V) → σ → Exec (List (Option (MapOut K V)) × σ × Vec × Mem (K × V))
  | [], v, m, s => .ok ([], s, v, m)
  | op :: ops, v, m, s => do
    let (o, s, v, m) ← stepO A F nd op v m s
    let (os, s, v, m) ← runO A F nd ops v m s
    .ok (o :: os, s, v, m)

end VMap

/-! ## The search -/

/-- The search ends inside the slice, whatever the closure says. -/
theorem lowerLoopO_any {α : Type} {xs : List α} {less : σ → α → Option Bool × σ} :
    ∀ (fuel size base : Nat) (s : σ), size ≤ fuel → 1 ≤ size → base + size ≤ xs.length →
    ∃ r s', lowerLoopO xs less fuel size base s = .ok (r, s') ∧ ∀ b, r = some b → b < xs.length := by
  intro fuel
  induction fuel with
  | zero => intro size base s h1 h2; omega
  | succ fuel ih =>
    intro size base s hf hs hb
    unfold lowerLoopO
    by_cases h1 : 1 < size
    · rw [if_pos h1]
      have hmid : base + size / 2 < xs.length := by omega
      obtain ⟨x, hx⟩ : ∃ x, xs[base + size / 2]? = some x := ⟨xs[base + size / 2], by simp [hmid]⟩
      simp only [sliceAt, hx, Exec.ok_bind]
      rcases less s x with ⟨_ | b, s'⟩
      · exact ⟨none, s', rfl, by simp⟩
      · cases b with
        | true => exact ih _ _ _ (by omega) (by omega) (by simp; omega)
        | false => exact ih _ _ _ (by omega) (by omega) (by simp; omega)
    · rw [if_neg h1]
      refine ⟨some base, s, rfl, ?_⟩
      rintro b ⟨⟩
      omega

theorem lowerBoundByO_any {α : Type} (xs : List α) (less : σ → α → Option Bool × σ) (s : σ) :
    ∃ r s', lowerBoundByO xs less s = .ok (r, s') ∧ ∀ i, r = some i → i ≤ xs.length := by
  unfold lowerBoundByO
  by_cases h0 : xs.length = 0
  · refine ⟨some 0, s, by simp [h0], ?_⟩
    rintro i ⟨⟩
    exact Nat.zero_le _
  · rw [if_neg h0]
    obtain ⟨r, s1, he, hb⟩ := lowerLoopO_any (xs := xs) (less := less) xs.length xs.length 0 s
      (Nat.le_refl _) (by omega) (by omega)
    simp only [he, Exec.ok_bind]
    cases r with
    | none => exact ⟨none, s1, rfl, by simp⟩
    | some b =>
      have hb := hb b rfl
      obtain ⟨x, hx⟩ : ∃ x, xs[b]? = some x := ⟨xs[b], by simp [hb]⟩
      simp only [sliceAt, hx, Exec.ok_bind]
      rcases less s1 x with ⟨_ | c, s2⟩
      · exact ⟨none, s2, rfl, by simp⟩
      · refine ⟨_, s2, rfl, ?_⟩
        rintro i ⟨⟩
        cases c <;> simp <;> omega

variable {R : RawAlloc (K × V)} {w : World (K × V)} {m : Mem (K × V)} {v : Vec} {xs : List (K × V)}

/-- The search finds an entry, or none, or is left by a panic. -/
theorem MInv.findO (F : KeyFns σ K) (h : MInv w m v xs) (k : K) (s : σ) :
    ∃ s', VMap.findO F k v m s = .ok (none, s') ∨
      ∃ r, r ≤ xs.length ∧ (VMap.findO F k v m s = .ok (some (none, r), s') ∨
        ∃ p, xs[r]? = some p ∧ VMap.findO F k v m s = .ok (some (some p, r), s')) := by
  obtain ⟨cap, h⟩ := h
  obtain ⟨r, s1, he, hle⟩ := lowerBoundByO_any xs (fun s (p : K × V) => F.lt s p.1 k) s
  simp only [VMap.findO, h.slice, Exec.ok_bind, he]
  cases r with
  | none => exact ⟨s1, .inl rfl⟩
  | some r =>
    have hle := hle r rfl
    simp only [h.len, Exec.ok_bind]
    by_cases hr : r < xs.length
    · obtain ⟨p, hp⟩ : ∃ p, xs[r]? = some p := ⟨xs[r], by simp [hr]⟩
      have hin : VMap.index r v m = .ok p := MInv.index ⟨cap, h⟩ hp
      simp only [hr, if_true, hin, Exec.ok_bind]
      rcases F.eq s1 p.1 k with ⟨_ | b, s2⟩
      · exact ⟨s2, .inl rfl⟩
      · cases b with
        | true => exact ⟨s2, .inr ⟨r, hle, .inr ⟨p, hp, rfl⟩⟩⟩
        | false => exact ⟨s2, .inr ⟨r, hle, .inl rfl⟩⟩
    · exact ⟨s1, .inr ⟨r, hle, .inl (by simp [hr])⟩⟩

/-- One call. -/
theorem MInv.stepO (R : RawAlloc (K × V)) (F : KeyFns σ K) (nd : Bool) (op : MapOp K V)
    (h : MInv w m v xs) (s : σ) :
    ∃ o s' v' m' ys d, VMap.stepO (defaultAllocator R) F nd op v m s = .ok (o, s', v', m') ∧
      MInv w m' v' ys ∧ Called op o xs ys d ∧ (o = none → v' = v ∧ m' = m) := by
  have hfind := fun k => h.findO F k s
  cases op with
  | insert k x =>
    obtain ⟨s1, hf | ⟨r, hr, hf | ⟨p, hp, hf⟩⟩⟩ := hfind k
    · exact ⟨none, s1, v, m, xs, _, by simp [VMap.stepO, VMap.searching, hf], h, .panics rfl,
        fun _ => ⟨rfl, rfl⟩⟩
    · obtain ⟨v', m', he, hi⟩ := h.insertAt (R := R) hr (k, x)
      exact ⟨_, s1, v', m', _, _, by simp [VMap.stepO, VMap.searching, hf, he], hi,
        .returns (.insertNew (take_cons_drop_perm ..)), by simp⟩
    · obtain ⟨m', he, hi⟩ := h.setAt (List.getElem?_eq_some_iff.1 hp).1 (p.1, x)
      exact ⟨_, s1, v, m', _, _, by simp [VMap.stepO, VMap.searching, hf, he], hi,
        .returns (.insertOld (perm_eraseIdx hp) (perm_set hp _)), by simp⟩
  | remove k =>
    obtain ⟨s1, hf | ⟨r, hr, hf | ⟨p, hp, hf⟩⟩⟩ := hfind k
    · exact ⟨none, s1, v, m, xs, _, by simp [VMap.stepO, VMap.searching, hf], h, .panics rfl,
        fun _ => ⟨rfl, rfl⟩⟩
    · exact ⟨_, s1, v, m, xs, _, by simp [VMap.stepO, VMap.searching, hf], h,
        .returns (.removeNone (.refl _)), by simp⟩
    · obtain ⟨v', m', he, hi⟩ := h.removeAt (List.getElem?_eq_some_iff.1 hp).1
      rw [hp] at he
      exact ⟨_, s1, v', m', _, _, by simp [VMap.stepO, VMap.searching, hf, he], hi,
        .returns (.removeSome (perm_eraseIdx hp)), by simp⟩
  | removeEntry k =>
    obtain ⟨s1, hf | ⟨r, hr, hf | ⟨p, hp, hf⟩⟩⟩ := hfind k
    · exact ⟨none, s1, v, m, xs, _, by simp [VMap.stepO, VMap.searching, hf], h, .panics rfl,
        fun _ => ⟨rfl, rfl⟩⟩
    · exact ⟨_, s1, v, m, xs, _, by simp [VMap.stepO, VMap.searching, hf], h,
        .returns (.removeEntryNone (.refl _)), by simp⟩
    · obtain ⟨v', m', he, hi⟩ := h.removeAt (List.getElem?_eq_some_iff.1 hp).1
      rw [hp] at he
      exact ⟨_, s1, v', m', _, _, by simp [VMap.stepO, VMap.searching, hf, he], hi,
        .returns (.removeEntrySome (perm_eraseIdx hp)), by simp⟩
  | get k =>
    obtain ⟨s1, hf | ⟨r, hr, hf | ⟨p, hp, hf⟩⟩⟩ := hfind k
    · exact ⟨none, s1, v, m, xs, _, by simp [VMap.stepO, VMap.searching, hf], h, .panics rfl,
        fun _ => ⟨rfl, rfl⟩⟩
    · exact ⟨_, s1, v, m, xs, _, by simp [VMap.stepO, VMap.searching, hf], h,
        .returns (.getNone (.refl _)), by simp⟩
    · exact ⟨_, s1, v, m, xs, _, by simp [VMap.stepO, VMap.searching, hf], h,
        .returns (.getSome (.refl _) (List.mem_of_getElem? hp)), by simp⟩
  | modify k f =>
    obtain ⟨s1, hf | ⟨r, hr, hf | ⟨p, hp, hf⟩⟩⟩ := hfind k
    · exact ⟨none, s1, v, m, xs, _, by simp [VMap.stepO, VMap.searching, hf], h, .panics rfl,
        fun _ => ⟨rfl, rfl⟩⟩
    · exact ⟨_, s1, v, m, xs, _, by simp [VMap.stepO, VMap.searching, hf], h,
        .returns (.modifyNone (.refl _)), by simp⟩
    · obtain ⟨m', he, hi⟩ := h.setAt (List.getElem?_eq_some_iff.1 hp).1 (p.1, f p.2)
      exact ⟨_, s1, v, m', _, _, by simp [VMap.stepO, VMap.searching, hf, he], hi,
        .returns (.modifySome (perm_eraseIdx hp) (perm_set hp _)), by simp⟩
  | contains k =>
    obtain ⟨s1, hf | ⟨r, hr, hf | ⟨p, hp, hf⟩⟩⟩ := hfind k
    · exact ⟨none, s1, v, m, xs, _, by simp [VMap.stepO, VMap.searching, hf], h, .panics rfl,
        fun _ => ⟨rfl, rfl⟩⟩
    · exact ⟨_, s1, v, m, xs, _, by simp [VMap.stepO, VMap.searching, hf]; rfl, h,
        .returns (.contains (.refl _) (by simp)), by simp⟩
    · exact ⟨_, s1, v, m, xs, _, by simp [VMap.stepO, VMap.searching, hf]; rfl, h,
        .returns (.contains (.refl _) (fun _ e => by simp [e] at hp)), by simp⟩
  | entry k f x =>
    obtain ⟨s1, hf | ⟨r, hr, hf | ⟨p, hp, hf⟩⟩⟩ := hfind k
    · exact ⟨none, s1, v, m, xs, _, by simp [VMap.stepO, VMap.searching, hf], h, .panics rfl,
        fun _ => ⟨rfl, rfl⟩⟩
    · obtain ⟨v', m', he, hi⟩ := h.insertAt (R := R) hr (k, x)
      have hix : VMap.index r v' m' = .ok (k, x) := hi.index (by
        rw [List.getElem?_append_right (by simp [Nat.min_le_left])]
        simp [hr])
      exact ⟨_, s1, v', m', _, _, by simp [VMap.stepO, VMap.searching, hf, he, hix], hi,
        .returns (.entryNew (take_cons_drop_perm ..)), by simp⟩
    · have hlt := (List.getElem?_eq_some_iff.1 hp).1
      obtain ⟨m', he, hi⟩ := h.setAt hlt (p.1, f p.2)
      have hix : VMap.index r v m' = .ok (p.1, f p.2) := hi.index (by simp [hlt])
      exact ⟨_, s1, v, m', _, _, by simp [VMap.stepO, VMap.searching, hf, he, hix], hi,
        .returns (.entryOld (perm_eraseIdx hp) (perm_set hp _)), by simp⟩
  | entryKey k =>
    obtain ⟨s1, hf | ⟨r, hr, hf | ⟨p, hp, hf⟩⟩⟩ := hfind k
    · exact ⟨none, s1, v, m, xs, _, by simp [VMap.stepO, VMap.searching, hf], h, .panics rfl,
        fun _ => ⟨rfl, rfl⟩⟩
    · exact ⟨_, s1, v, m, xs, _, by simp [VMap.stepO, VMap.searching, hf], h,
        .returns (.entryKeyNew (.refl _)), by simp⟩
    · exact ⟨_, s1, v, m, xs, _, by simp [VMap.stepO, VMap.searching, hf], h,
        .returns (.entryKeyOld (.refl _) (List.mem_of_getElem? hp)), by simp⟩
  | len =>
    obtain ⟨cap, h⟩ := h
    exact ⟨_, s, v, m, xs, _, by simp [VMap.stepO, h.len], ⟨cap, h⟩, .returns (.len (.refl _)),
      by simp⟩
  | isEmpty =>
    obtain ⟨cap, h⟩ := h
    exact ⟨_, s, v, m, xs, _, by simp [VMap.stepO, h.isEmpty]; cases xs <;> rfl, ⟨cap, h⟩,
      .returns (.isEmpty (.refl _)), by simp⟩
  | clear =>
    obtain ⟨cap, h⟩ := h
    obtain ⟨m', he, _, _, _, hi, _⟩ := h.clear (defaultAllocator_lawful R) nd
    exact ⟨_, s, _, m', [], _, by simp [VMap.stepO, he], ⟨_, hi⟩, .returns .clear, by simp⟩

theorem MInv.runO (R : RawAlloc (K × V)) (F : KeyFns σ K) (nd : Bool) (ops : List (MapOp K V)) :
    ∀ {m : Mem (K × V)} {v : Vec} {xs : List (K × V)} (s : σ), MInv w m v xs →
    ∃ os s' v' m' ys d, VMap.runO (defaultAllocator R) F nd ops v m s = .ok (os, s', v', m') ∧
      MInv w m' v' ys ∧ CalledRun ops os xs ys d := by
  induction ops with
  | nil => intro m v xs s h; exact ⟨[], s, v, m, xs, [], rfl, h, .nil⟩
  | cons op ops ih =>
    intro m v xs s h
    obtain ⟨o, s1, v1, m1, ys, d, he, hi, hh, _⟩ := h.stepO R F nd op s
    obtain ⟨os, s2, v2, m2, zs, d', he2, hi2, hh2⟩ := ih s1 hi
    exact ⟨o :: os, s2, v2, m2, zs, d ++ d', by simp [VMap.runO, he, he2], hi2, .cons hh hh2⟩

/-! ## Functions that answer consistently unless they panic -/

theorem Exec.bind_assoc {α β γ : Type} (x : Exec α) (f : α → Exec β) (g : β → Exec γ) :
    (x >>= f) >>= g = x >>= fun a => f a >>= g := by
  cases x <;> rfl

/-- When the functions do not panic they answer like `lt` and `eq`. -/
def KeyFns.Fits (F : KeyFns σ K) (lt eq : K → K → Bool) : Prop :=
  ∀ s a b, ((F.lt s a b).1 = none ∨ (F.lt s a b).1 = some (lt a b)) ∧
    ((F.eq s a b).1 = none ∨ (F.eq s a b).1 = some (eq a b))

theorem lowerLoopO_fits {α : Type} {xs : List α} {less : σ → α → Option Bool × σ} {p : α → Bool}
    (hp : ∀ s x, (less s x).1 = none ∨ (less s x).1 = some (p x)) :
    ∀ (fuel size base : Nat) (s : σ), ∃ s',
      lowerLoopO xs less fuel size base s = .ok (none, s') ∨
      lowerLoopO xs less fuel size base s =
        (lowerLoop xs p fuel size base).map fun b => (some b, s') := by
  intro fuel
  induction fuel with
  | zero => intro size base s; exact ⟨s, .inr rfl⟩
  | succ fuel ih =>
    intro size base s
    unfold lowerLoopO lowerLoop
    by_cases h1 : 1 < size
    · simp only [if_pos h1]
      cases sliceAt xs (base + size / 2) with
      | error e => exact ⟨s, .inr rfl⟩
      | ok x =>
        simp only [Exec.ok_bind]
        have := hp s x
        rcases hl : less s x with ⟨_ | b, s1⟩
        · exact ⟨s1, .inl rfl⟩
        · rw [hl] at this
          obtain rfl : b = p x := by simpa using this
          exact ih _ _ s1
    · simp only [if_neg h1]
      exact ⟨s, .inr rfl⟩

theorem lowerBoundByO_fits {α : Type} {xs : List α} {less : σ → α → Option Bool × σ} {p : α → Bool}
    (hp : ∀ s x, (less s x).1 = none ∨ (less s x).1 = some (p x)) (s : σ) : ∃ s',
      lowerBoundByO xs less s = .ok (none, s') ∨
      lowerBoundByO xs less s = (lowerBoundBy xs p).map fun b => (some b, s') := by
  unfold lowerBoundByO lowerBoundBy
  by_cases h0 : xs.length = 0
  · simp only [if_pos h0]
    exact ⟨s, .inr rfl⟩
  · simp only [if_neg h0]
    obtain ⟨s1, h | h⟩ := lowerLoopO_fits hp xs.length xs.length 0 s (xs := xs)
    · rw [h]
      exact ⟨s1, .inl rfl⟩
    · rw [h]
      cases lowerLoop xs p xs.length xs.length 0 with
      | error e => exact ⟨s1, .inr rfl⟩
      | ok b =>
        simp only [Except.map, Exec.ok_bind]
        cases sliceAt xs b with
        | error e => exact ⟨s1, .inr rfl⟩
        | ok x =>
          simp only [Exec.ok_bind]
          have := hp s1 x
          rcases hl : less s1 x with ⟨_ | c, s2⟩
          · exact ⟨s2, .inl rfl⟩
          · rw [hl] at this
            obtain rfl : c = p x := by simpa using this
            exact ⟨s2, .inr rfl⟩

theorem findO_fits {F : KeyFns σ K} {lt eq : K → K → Bool} (hF : F.Fits lt eq) (k : K) (v : Vec)
    (m : Mem (K × V)) (s : σ) : ∃ s',
      VMap.findO F k v m s = .ok (none, s') ∨
      VMap.findO F k v m s = (VMap.find lt eq k v m).map fun r => (some r, s') := by
  unfold VMap.findO VMap.find VMap.lowerBound
  cases v.asSlice m with
  | error e => exact ⟨s, .inr rfl⟩
  | ok xs =>
    simp only [Exec.ok_bind]
    obtain ⟨s1, h | h⟩ := lowerBoundByO_fits (xs := xs) (less := fun s (p : K × V) => F.lt s p.1 k)
      (p := fun p => lt p.1 k) (fun s x => (hF s x.1 k).1) s
    · rw [h]
      exact ⟨s1, .inl rfl⟩
    · rw [h]
      cases lowerBoundBy xs (fun p => lt p.1 k) with
      | error e => exact ⟨s1, .inr rfl⟩
      | ok i =>
        simp only [Except.map, Exec.ok_bind]
        cases v.len with
        | error e => exact ⟨s1, .inr rfl⟩
        | ok n =>
          simp only [Exec.ok_bind]
          by_cases hi : i < n
          · simp only [if_pos hi]
            cases VMap.index i v m with
            | error e => exact ⟨s1, .inr rfl⟩
            | ok p =>
              simp only [Exec.ok_bind]
              have := (hF s1 p.1 k).2
              rcases hl : F.eq s1 p.1 k with ⟨_ | b, s2⟩
              · exact ⟨s2, .inl rfl⟩
              · rw [hl] at this
                obtain rfl : b = eq p.1 k := by simpa using this
                exact ⟨s2, .inr rfl⟩
          · simp only [if_neg hi]
            exact ⟨s1, .inr rfl⟩

theorem searching_fits {F : KeyFns σ K} {lt eq : K → K → Bool} (hF : F.Fits lt eq) (k : K) (v : Vec)
    (m : Mem (K × V)) (s : σ)
    (rest : Option (K × V) → Nat → Exec (MapOut K V × Vec × Mem (K × V)))
    {full : Exec (MapOut K V × Vec × Mem (K × V))}
    (hr : full = VMap.find lt eq k v m >>= fun r => rest r.1 r.2) : ∃ s',
      VMap.searching F k rest v m s = .ok (none, s', v, m) ∨
      VMap.searching F k rest v m s = full.map fun r => (some r.1, s', r.2.1, r.2.2) := by
  subst hr
  unfold VMap.searching
  obtain ⟨s1, h | h⟩ := findO_fits hF k v m s
  · rw [h]
    exact ⟨s1, .inl rfl⟩
  · rw [h]
    cases VMap.find lt eq k v m with
    | error e => exact ⟨s1, .inr rfl⟩
    | ok r =>
      simp only [Except.map, Exec.ok_bind]
      cases rest r.1 r.2 with
      | error e => exact ⟨s1, .inr rfl⟩
      | ok x => exact ⟨s1, .inr rfl⟩

/-- A call does what it does with `lt` and `eq`, or panics and does nothing. -/
theorem stepO_fits {F : KeyFns σ K} {lt eq : K → K → Bool} (hF : F.Fits lt eq)
    (A : Allocator (K × V)) (nd : Bool) (op : MapOp K V) (v : Vec) (m : Mem (K × V)) (s : σ) :
    ∃ s', VMap.stepO A F nd op v m s = .ok (none, s', v, m) ∨
      VMap.stepO A F nd op v m s =
        (VMap.step A lt eq nd op v m).map fun r => (some r.1, s', r.2.1, r.2.2) := by
  cases op with
  | insert k x =>
    refine searching_fits hF k v m s _ ?_
    simp only [VMap.step, VMap.insert, Exec.bind_assoc]
    congr 1; funext r
    obtain ⟨_ | p, i⟩ := r <;> simp
  | remove k =>
    refine searching_fits hF k v m s _ ?_
    simp only [VMap.step, VMap.remove, VMap.removeEntry, Exec.bind_assoc]
    congr 1; funext r
    obtain ⟨_ | p, i⟩ := r <;> simp
  | removeEntry k =>
    refine searching_fits hF k v m s _ ?_
    simp only [VMap.step, VMap.removeEntry, Exec.bind_assoc]
    congr 1; funext r
    obtain ⟨_ | p, i⟩ := r <;> simp
  | get k =>
    refine searching_fits hF k v m s _ ?_
    simp only [VMap.step, VMap.get, Exec.bind_assoc]
    congr 1
  | modify k f =>
    refine searching_fits hF k v m s _ ?_
    simp only [VMap.step, VMap.modify, Exec.bind_assoc]
    congr 1; funext r
    obtain ⟨_ | p, i⟩ := r <;> simp
  | contains k =>
    refine searching_fits hF k v m s _ ?_
    simp only [VMap.step, VMap.containsKey, VMap.get, Exec.bind_assoc]
    congr 1
  | entry k f x =>
    refine searching_fits hF k v m s _ ?_
    simp only [VMap.step, VMap.entry, Exec.bind_assoc]
    congr 1; funext r
    obtain ⟨_ | p, i⟩ := r <;> simp
  | entryKey k =>
    refine searching_fits hF k v m s _ ?_
    simp only [VMap.step, VMap.entryKey, Exec.bind_assoc]
    congr 1; funext r
    obtain ⟨_ | p, i⟩ := r <;> simp
  | len =>
    refine ⟨s, .inr ?_⟩
    simp only [VMap.stepO, VMap.step]
    cases v.len <;> rfl
  | isEmpty =>
    refine ⟨s, .inr ?_⟩
    simp only [VMap.stepO, VMap.step]
    cases v.isEmpty <;> rfl
  | clear =>
    refine ⟨s, .inr ?_⟩
    simp only [VMap.stepO, VMap.step]
    cases v.clear A nd m <;> rfl

theorem runO_fits {F : KeyFns σ K} {lt eq : K → K → Bool} (hF : F.Fits lt eq)
    (A : Allocator (K × V)) (nd : Bool) (ops : List (MapOp K V)) : ∀ {v : Vec} {m : Mem (K × V)}
    {s : σ} {outs : List (Option (MapOut K V))} {s' : σ} {v' : Vec} {m' : Mem (K × V)},
    VMap.runO A F nd ops v m s = .ok (outs, s', v', m') →
    outs.length = ops.length ∧
      VMap.run A lt eq nd (returned ops outs) v m = .ok (outs.filterMap id, v', m') := by
  induction ops with
  | nil =>
    intro v m s outs s' v' m' h
    simp only [VMap.runO, Except.ok.injEq, Prod.mk.injEq] at h
    obtain ⟨rfl, rfl, rfl, rfl⟩ := h
    exact ⟨rfl, rfl⟩
  | cons op ops ih =>
    intro v m s outs s' v' m' h
    simp only [VMap.runO] at h
    obtain ⟨⟨o, s1, v1, m1⟩, h1, h⟩ := Exec.of_bind_ok h
    obtain ⟨⟨os, s2, v2, m2⟩, h2, h⟩ := Exec.of_bind_ok h
    simp only [Except.ok.injEq, Prod.mk.injEq] at h
    obtain ⟨rfl, rfl, rfl, rfl⟩ := h
    obtain ⟨g1, g2⟩ := ih h2
    refine ⟨by simp [g1], ?_⟩
    obtain ⟨s3, hs | hs⟩ := stepO_fits hF A nd op v m s
    · rw [hs] at h1
      simp only [Except.ok.injEq, Prod.mk.injEq] at h1
      obtain ⟨rfl, rfl, rfl, rfl⟩ := h1
      simpa [returned] using g2
    · rw [hs] at h1
      cases he : VMap.step A lt eq nd op v m with
      | error e => rw [he] at h1; cases h1
      | ok r =>
        rw [he] at h1
        simp only [Except.map, Except.ok.injEq, Prod.mk.injEq] at h1
        obtain ⟨rfl, rfl, rfl, rfl⟩ := h1
        have g2 : VMap.run A lt eq nd (returned ops os) r.2.1 r.2.2 = .ok (os.filterMap id, v2, m2) := g2
        have hr : returned (op :: ops) (some r.1 :: os) = op :: returned ops os := by
          simp [returned]
        rw [hr]
        simp only [VMap.run, he, Exec.ok_bind, g2, List.filterMap_cons, id]

/-! ## Functions that do not panic -/

theorem lowerLoopO_some {α : Type} {xs : List α} {less : σ → α → Option Bool × σ}
    (hp : ∀ s x, (less s x).1 ≠ none) : ∀ {fuel size base : Nat} {s : σ} {r : Option Nat} {s' : σ},
    lowerLoopO xs less fuel size base s = .ok (r, s') → r ≠ none := by
  intro fuel
  induction fuel with
  | zero => intro size base s r s' h; cases h
  | succ fuel ih =>
    intro size base s r s' h
    unfold lowerLoopO at h
    split at h
    · obtain ⟨x, _, h⟩ := Exec.of_bind_ok h
      have := hp s x
      rcases hl : less s x with ⟨_ | b, s1⟩
      · rw [hl] at this; simp at this
      · rw [hl] at h
        exact ih h
    · simp only [Except.ok.injEq, Prod.mk.injEq] at h
      rw [← h.1]; simp

theorem lowerBoundByO_some {α : Type} {xs : List α} {less : σ → α → Option Bool × σ}
    (hp : ∀ s x, (less s x).1 ≠ none) {s : σ} {r : Option Nat} {s' : σ}
    (h : lowerBoundByO xs less s = .ok (r, s')) : r ≠ none := by
  unfold lowerBoundByO at h
  split at h
  · simp only [Except.ok.injEq, Prod.mk.injEq] at h
    rw [← h.1]; simp
  · obtain ⟨⟨r1, s1⟩, h1, h⟩ := Exec.of_bind_ok h
    cases r1 with
    | none => exact absurd rfl (lowerLoopO_some hp h1)
    | some b =>
      obtain ⟨x, _, h⟩ := Exec.of_bind_ok h
      have := hp s1 x
      rcases hl : less s1 x with ⟨_ | c, s2⟩
      · rw [hl] at this; simp at this
      · simp only [hl, Except.ok.injEq, Prod.mk.injEq] at h
        rw [← h.1]; simp

theorem findO_some {F : KeyFns σ K} (hF : ∀ s a b, (F.lt s a b).1 ≠ none ∧ (F.eq s a b).1 ≠ none)
    {k : K} {v : Vec} {m : Mem (K × V)} {s : σ} {r : Option (Option (K × V) × Nat)} {s' : σ}
    (h : VMap.findO F k v m s = .ok (r, s')) : r ≠ none := by
  unfold VMap.findO at h
  obtain ⟨xs, _, h⟩ := Exec.of_bind_ok h
  obtain ⟨⟨r1, s1⟩, h1, h⟩ := Exec.of_bind_ok h
  cases r1 with
  | none => exact absurd rfl (lowerBoundByO_some (fun s x => (hF s _ _).1) h1)
  | some i =>
    obtain ⟨n, _, h⟩ := Exec.of_bind_ok h
    split at h
    · obtain ⟨p, _, h⟩ := Exec.of_bind_ok h
      have := (hF s1 p.1 k).2
      rcases hl : F.eq s1 p.1 k with ⟨_ | c, s2⟩
      · rw [hl] at this; simp at this
      · simp only [hl, Except.ok.injEq, Prod.mk.injEq] at h
        rw [← h.1]; simp
    · simp only [Except.ok.injEq, Prod.mk.injEq] at h
      rw [← h.1]; simp

theorem searching_some {F : KeyFns σ K}
    (hF : ∀ s a b, (F.lt s a b).1 ≠ none ∧ (F.eq s a b).1 ≠ none) {k : K} {v : Vec}
    {m : Mem (K × V)} {s : σ} {rest : Option (K × V) → Nat → Exec (MapOut K V × Vec × Mem (K × V))}
    {o : Option (MapOut K V)} {s' : σ} {v' : Vec} {m' : Mem (K × V)}
    (h : VMap.searching F k rest v m s = .ok (o, s', v', m')) : o ≠ none := by
  unfold VMap.searching at h
  obtain ⟨⟨r1, s1⟩, h1, h⟩ := Exec.of_bind_ok h
  cases r1 with
  | none => exact absurd rfl (findO_some hF h1)
  | some r =>
    obtain ⟨x, _, h⟩ := Exec.of_bind_ok h
    simp only [Except.ok.injEq, Prod.mk.injEq] at h
    rw [← h.1]; simp

theorem stepO_some {F : KeyFns σ K}
    (hF : ∀ s a b, (F.lt s a b).1 ≠ none ∧ (F.eq s a b).1 ≠ none) {A : Allocator (K × V)} {nd : Bool}
    {op : MapOp K V} {v : Vec} {m : Mem (K × V)} {s : σ}
    {o : Option (MapOut K V)} {s' : σ} {v' : Vec} {m' : Mem (K × V)}
    (h : VMap.stepO A F nd op v m s = .ok (o, s', v', m')) : o ≠ none := by
  cases op with
  | len | isEmpty | clear =>
    obtain ⟨x, _, h⟩ := Exec.of_bind_ok h
    simp only [Except.ok.injEq, Prod.mk.injEq] at h
    rw [← h.1]; simp
  | _ => exact searching_some hF h

end Verif
