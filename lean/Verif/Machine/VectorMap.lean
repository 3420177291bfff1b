import Verif.Machine.FixedVector
import Verif.VectorMap.Proofs
import Verif.Spec.HashTable

/-!
# `VectorMap` with `usize` arithmetic and byte sizes

Only the calls that reach `Vector::insert` and `Vector::with_capacity` compute capacities; the
others are those of `Verif.VectorMap.Model`.
-/

set_option autoImplicit false

namespace Verif
open Spec

variable {K V : Type}

namespace VMap

/-- `VectorMap::insert` (src/vector_map/mod.rs:142-157). -/
def insertM (B : Build) (A : Allocator (K × V)) (lt eq : K → K → Bool) (key : K) (value : V)
    (v : Vec) (m : Mem (K × V)) : Exec (Option V × Vec × Mem (K × V)) := do
  let (p, i) ← find lt eq key v m
  match p with
  | some p => do
    let m ← v.setAt false i (p.1, value) m
    .ok (some p.2, v, m)
  | none => do
    let (v, m) ← v.insertM B A i (key, value) m
    .ok (none, v, m)

/-- `VectorMap::entry` (src/vector_map/mod.rs:74-89), used as in `VMap.entry`
(src/vector_map/entry.rs:10-17, 39-43). -/
def entryM (B : Build) (A : Allocator (K × V)) (lt eq : K → K → Bool) (key : K) (f : V → V)
    (value : V) (v : Vec) (m : Mem (K × V)) : Exec (V × Vec × Mem (K × V)) := do
  let (p, i) ← find lt eq key v m
  match p with
  | some p => do
    let m ← v.setAt false i (p.1, f p.2) m
    let q ← index i v m
    .ok (q.2, v, m)
  | none => do
    let (v, m) ← v.insertM B A i (key, value) m
    let q ← index i v m
    .ok (q.2, v, m)

/-- One call (src/vector_map/mod.rs:61-187). -/
def stepM (B : Build) (A : Allocator (K × V)) (lt eq : K → K → Bool) (nd : Bool) (op : MapOp K V)
    (v : Vec) (m : Mem (K × V)) : Exec (MapOut K V × Vec × Mem (K × V)) :=
  match op with
  | .insert k x => do let (r, v, m) ← insertM B A lt eq k x v m; .ok (.val r, v, m)
  | .entry k f x => do let (r, v, m) ← entryM B A lt eq k f x v m; .ok (.val (some r), v, m)
  | op => step A lt eq nd op v m

/-- A history of calls (src/vector_map/mod.rs:61-187). -/
def runM (B : Build) (A : Allocator (K × V)) (lt eq : K → K → Bool) (nd : Bool) :
    List (MapOp K V) → Vec → Mem (K × V) → Exec (List (MapOut K V) × Vec × Mem (K × V))
  | [], v, m => .ok ([], v, m)
  | op :: ops, v, m => do
    let (o, v, m) ← stepM B A lt eq nd op v m
    let (os, v, m) ← runM B A lt eq nd ops v m
    .ok (o :: os, v, m)

/-- `VectorMap::with_capacity` (src/vector_map/mod.rs:46-51), then a history of calls. -/
def runFromM (B : Build) (A : Allocator (K × V)) (lt eq : K → K → Bool) (nd : Bool) (room : Nat)
    (ops : List (MapOp K V)) (m : Mem (K × V)) :
    Exec (List (MapOut K V) × Vec × Mem (K × V)) := do
  let (v, m) ← Vec.withCapacityM B A room m
  runM B A lt eq nd ops v m

end VMap

/-! ## While everything fits -/

section fits
variable (B : Build) {A : Allocator (K × V)} {R : RawAlloc (K × V)} {N : Nat}
  (hN : N < 2 ^ 63)
  (ha : ∀ c, 0 < c → c ≤ N → ∀ m : Mem (K × V), A.alloc c m = (defaultAllocator R).alloc c m)
  (hd : ∀ c, c ≤ N → ∀ (p : Ptr) (m : Mem (K × V)),
    A.dealloc p c m = (defaultAllocator R).dealloc p c m)
  {lt eq : K → K → Bool} {w : World (K × V)}
include hN ha hd

/-- An insertion after which the capacity is at most `N`: the machine does what the model does, and the
capacity stays within `N`. -/
theorem mapInsertM_agree {v : Vec} {m : Mem (K × V)} {xs : List (K × V)} {cap : Nat}
    (hi : VInv (fun _ => False) defaultFits w m v xs cap) (hcap : cap ≤ N) {i : Nat}
    (hix : i ≤ xs.length) (p : K × V)
    (hg : (if xs.length < cap then cap else if cap = 0 then 1 else 2 * cap) ≤ N) :
    v.insertM B A i p m = v.insert (defaultAllocator R) i p m ∧
      ∃ v' m' c', v.insert (defaultAllocator R) i p m = .ok (v', m') ∧ v'.capacity = .ok c' ∧
        c' ≤ N := by
  refine ⟨insertM_agree B (P := fun c => c ≤ N) (fun c hc => by omega) ha hd hi i p hcap
    (fun _ => hg), ?_⟩
  · obtain ⟨v', m', b', blk', he, hB, _⟩ := hi.insert (defaultAllocator_lawful R) p hix
    refine ⟨v', m', _, he, hB.inv.capacity, ?_⟩
    have := hi.len_le
    unfold growCap Vec.calculateGrowCapacity
    split_ifs at hg ⊢ <;> omega

/-- One call that does not add an entry, or after which the capacity is at most `N`. -/
theorem mapStepM_agree (hw : StrictWeak lt) (hc : Consistent lt eq) (nd : Bool) (op : MapOp K V)
    {v : Vec} {m : Mem (K × V)} {xs : List (K × V)} {cap : Nat}
    (hi : VInv (fun _ => False) defaultFits w m v xs cap) (hs : WSorted lt xs)
    (hdis : Distinct eq xs) (hcap : cap ≤ N)
    (hlen : (op.step eq xs).2.length = xs.length + 1 →
      (if xs.length < cap then cap else if cap = 0 then 1 else 2 * cap) ≤ N) :
    VMap.stepM B A lt eq nd op v m = VMap.step (defaultAllocator R) lt eq nd op v m ∧
      ∃ v' m' c', VMap.step (defaultAllocator R) lt eq nd op v m =
        .ok ((op.step eq xs).1, v', m') ∧ v'.capacity = .ok c' ∧ c' ≤ N := by
  have h : MInv w m v xs := ⟨cap, hi⟩
  obtain ⟨v', m', ys, hstep, _⟩ := h.step (R := R) hw hc nd op hs hdis
  obtain ⟨o, ho⟩ : ∃ o, o = (op.step eq xs).1 := ⟨_, rfl⟩
  rw [← ho] at hstep ⊢
  have hfind := fun k => MInv.find (eq := eq) hw h hs k
  have hlk := fun {k : K} {r : Nat} (hsp : Split lt xs k r) => lookup_split hw hc hs hdis hsp
  have hset : ∀ {r : Nat} {p q : K × V} {k : K}, lookup eq xs k = some q →
      lookup eq xs k = (match xs[r]? with
        | some p => if eq p.1 k then some p else none
        | none => none) → r < xs.length := by
    intro r p q k h1 h2
    rw [h1] at h2
    split at h2
    · next hp => exact (List.getElem?_eq_some_iff.1 hp).1
    · cases h2
  -- the vector stays where it is
  have hsame : v' = v → ∃ v' m' c', VMap.step (defaultAllocator R) lt eq nd op v m =
        .ok (o, v', m') ∧ v'.capacity = .ok c' ∧ c' ≤ N := by
    rintro rfl
    exact ⟨v', m', cap, hstep, hi.capacity, hcap⟩
  cases op with
  | insert k x =>
    obtain ⟨r, hsp, hf⟩ := hfind k
    obtain ⟨hu, hl⟩ := hlk hsp
    rw [← hl] at hf
    cases hlu : lookup eq xs k with
    | none =>
      simp only [MapOp.step, hlu, List.length_cons, forall_const] at hlen
      obtain ⟨h1, v1, m1, c1, h2, h3, h4⟩ :=
        mapInsertM_agree B hN ha hd hi hcap hsp.le (k, x) hlen
      constructor
      · simp only [VMap.stepM, VMap.step, VMap.insertM, VMap.insert, hf, hlu, Exec.ok_bind, h1]
      · refine ⟨v1, m1, c1, ?_, h3, h4⟩
        simp [VMap.step, VMap.insert, hf, hlu, h2, MapOp.step, ho]
    | some p =>
      refine ⟨by simp only [VMap.stepM, VMap.step, VMap.insertM, VMap.insert, hf, hlu,
        Exec.ok_bind], hsame ?_⟩
      have hs' := hstep
      simp only [VMap.step, VMap.insert, hf, hlu, Exec.ok_bind] at hs'
      obtain ⟨m2, he, _⟩ := h.setAt (hset (p := p) hlu hl) (p.1, x)
      rw [he] at hs'
      cases hs'
      rfl
  | entry k f x =>
    obtain ⟨r, hsp, hf⟩ := hfind k
    obtain ⟨hu, hl⟩ := hlk hsp
    rw [← hl] at hf
    cases hlu : lookup eq xs k with
    | none =>
      simp only [MapOp.step, hlu, List.length_cons, forall_const] at hlen
      obtain ⟨h1, v1, m1, c1, h2, h3, h4⟩ :=
        mapInsertM_agree B hN ha hd hi hcap hsp.le (k, x) hlen
      constructor
      · simp only [VMap.stepM, VMap.step, VMap.entryM, VMap.entry, hf, hlu, Exec.ok_bind, h1]
      · refine ⟨v', m', c1, hstep, ?_, h4⟩
        have hs' := hstep
        simp only [VMap.step, VMap.entry, hf, hlu, Exec.ok_bind, h2] at hs'
        cases hq : VMap.index r v1 m1 with
        | error e => rw [hq] at hs'; cases hs'
        | ok q => rw [hq] at hs'; cases hs'; exact h3
    | some p =>
      refine ⟨by simp only [VMap.stepM, VMap.step, VMap.entryM, VMap.entry, hf, hlu,
        Exec.ok_bind], hsame ?_⟩
      have hs' := hstep
      simp only [VMap.step, VMap.entry, hf, hlu, Exec.ok_bind] at hs'
      obtain ⟨m2, he, _⟩ := h.setAt (hset (p := p) hlu hl) (p.1, f p.2)
      rw [he] at hs'
      simp only [Exec.ok_bind] at hs'
      cases hq : VMap.index r v m2 with
      | error e => rw [hq] at hs'; cases hs'
      | ok q => rw [hq] at hs'; cases hs'; rfl
  | remove k =>
    refine ⟨rfl, ?_⟩
    obtain ⟨r, hsp, hf⟩ := hfind k
    obtain ⟨hu, hl⟩ := hlk hsp
    rw [← hl] at hf
    have hs' := hstep
    cases hlu : lookup eq xs k with
    | none =>
      simp only [VMap.step, VMap.remove, VMap.removeEntry, hf, hlu, Exec.ok_bind] at hs'
      cases hs'
      exact hsame rfl
    | some p =>
      have hlt := hset (p := p) hlu hl
      obtain ⟨b, blk, hB⟩ := hi.own (by intro e; simp [e] at hlt)
      obtain ⟨v1, m1, blk1, he, hB1, _⟩ := hB.remove hlt
      simp only [VMap.step, VMap.remove, VMap.removeEntry, hf, hlu, Exec.ok_bind, he] at hs'
      cases hs'
      exact ⟨v', m', cap, hstep, hB1.inv.capacity, hcap⟩
  | removeEntry k =>
    refine ⟨rfl, ?_⟩
    obtain ⟨r, hsp, hf⟩ := hfind k
    obtain ⟨hu, hl⟩ := hlk hsp
    rw [← hl] at hf
    have hs' := hstep
    cases hlu : lookup eq xs k with
    | none =>
      simp only [VMap.step, VMap.removeEntry, hf, hlu, Exec.ok_bind] at hs'
      cases hs'
      exact hsame rfl
    | some p =>
      have hlt := hset (p := p) hlu hl
      obtain ⟨b, blk, hB⟩ := hi.own (by intro e; simp [e] at hlt)
      obtain ⟨v1, m1, blk1, he, hB1, _⟩ := hB.remove hlt
      simp only [VMap.step, VMap.removeEntry, hf, hlu, Exec.ok_bind, he] at hs'
      cases hs'
      exact ⟨v', m', cap, hstep, hB1.inv.capacity, hcap⟩
  | get k =>
    refine ⟨rfl, hsame ?_⟩
    obtain ⟨r, hsp, hf⟩ := hfind k
    have hs' := hstep
    simp only [VMap.step, VMap.get, hf, Exec.ok_bind] at hs'
    cases hs'; rfl
  | modify k f =>
    refine ⟨rfl, hsame ?_⟩
    have hs' := hstep
    simp only [VMap.step] at hs'
    cases hq : VMap.modify lt eq k f v m with
    | error e => rw [hq] at hs'; cases hs'
    | ok q => rw [hq] at hs'; cases hs'; rfl
  | contains k =>
    refine ⟨rfl, hsame ?_⟩
    have hs' := hstep
    simp only [VMap.step] at hs'
    cases hq : VMap.containsKey lt eq k v m with
    | error e => rw [hq] at hs'; cases hs'
    | ok q => rw [hq] at hs'; cases hs'; rfl
  | entryKey k =>
    refine ⟨rfl, hsame ?_⟩
    have hs' := hstep
    simp only [VMap.step] at hs'
    cases hq : VMap.entryKey lt eq k v m with
    | error e => rw [hq] at hs'; cases hs'
    | ok q => rw [hq] at hs'; cases hs'; rfl
  | len =>
    refine ⟨rfl, hsame ?_⟩
    have hs' := hstep
    simp only [VMap.step, hi.len, Exec.ok_bind] at hs'
    cases hs'; rfl
  | isEmpty =>
    refine ⟨rfl, hsame ?_⟩
    have hs' := hstep
    simp only [VMap.step, hi.isEmpty, Exec.ok_bind] at hs'
    cases hs'; rfl
  | clear =>
    constructor
    · simp only [VMap.stepM, VMap.step]
      rw [clear_agree (P := fun c => c ≤ N) hd nd hi hcap]
    · obtain ⟨m2, he, _, _, _, hi2, _⟩ := hi.clear (defaultAllocator_lawful R) nd
      have hs' := hstep
      simp only [VMap.step, he, Exec.ok_bind] at hs'
      cases hs'
      exact ⟨_, m', 0, hstep, hi2.capacity, Nat.zero_le _⟩

theorem mapRunM_agree (hw : StrictWeak lt) (hc : Consistent lt eq) (nd : Bool)
    (ops : List (MapOp K V)) : ∀ {v : Vec} {m : Mem (K × V)} {xs s : List (K × V)} {cap : Nat},
    VInv (fun _ => False) defaultFits w m v xs cap → WSorted lt xs → Distinct eq xs → xs.Perm s →
    cap ≤ N → 2 * MapOp.peak eq ops s ≤ N →
    VMap.runM B A lt eq nd ops v m = VMap.run (defaultAllocator R) lt eq nd ops v m ∧
      ∀ outs v' m', VMap.run (defaultAllocator R) lt eq nd ops v m = .ok (outs, v', m') →
        ∃ ys c, VInv (fun _ => False) defaultFits w m' v' ys c ∧ c ≤ N := by
  have he := hc.equiv hw
  induction ops with
  | nil =>
    intro v m xs s cap hi _ _ _ hcap _
    refine ⟨rfl, fun outs v' m' h => ?_⟩
    cases h
    exact ⟨xs, cap, hi, hcap⟩
  | cons op ops ih =>
    intro v m xs s cap hi hs hdis hp hcap hpk
    obtain ⟨_, hp1⟩ := step_perm he hp hdis op
    have hpk1 : 2 * MapOp.peak eq ops (op.step eq s).2 ≤ N := by
      simp only [MapOp.peak] at hpk; omega
    have hle : ∀ (ops : List (MapOp K V)) (s : List (K × V)), s.length ≤ MapOp.peak eq ops s := by
      intro ops s
      cases ops with
      | nil => exact Nat.le_refl _
      | cons op ops => exact Nat.le_max_left _ _
    have h1 := hle ops (op.step eq s).2
    have hl := hp1.length_eq
    obtain ⟨h2, v1, m1, c1, h3, h4, h5⟩ := mapStepM_agree B hN ha hd hw hc nd op hi hs hdis hcap
      (fun hadd => by
        have := hi.len_le
        split_ifs <;> omega)
    obtain ⟨v2, m2, ys, h6, ⟨c2, hi2⟩, hs2, hp2⟩ :=
      MInv.step (R := R) hw hc nd op ⟨cap, hi⟩ hs hdis
    rw [h3] at h6
    cases h6
    have h7 := hi2.capacity.symm.trans h4
    cases h7
    simp only [VMap.runM, VMap.run, h2, h3, Exec.ok_bind]
    obtain ⟨h8, h9⟩ := ih hi2 hs2 ((hdis.step he op).perm he hp2.symm) (hp2.trans hp1) h5 hpk1
    rw [h8]
    refine ⟨rfl, fun outs v' m' h => ?_⟩
    cases hrun : VMap.run (defaultAllocator R) lt eq nd ops v1 m1 with
    | error e => simp [hrun, bind, Except.bind] at h
    | ok r =>
      obtain ⟨os, v3, m3⟩ := r
      simp only [hrun, Exec.ok_bind, pure, Except.pure] at h
      cases h
      exact h9 _ _ _ hrun

end fits

/-! ## Debug builds -/

section cautious
variable {A A' : Allocator (K × V)} {lt eq : K → K → Bool}
  (ha : ∀ (n : Nat) (m : Mem (K × V)), OrPanic (A.alloc n m) (A'.alloc n m))
  (hd : ∀ (p : Ptr) (n : Nat) (m : Mem (K × V)), OrPanic (A.dealloc p n m) (A'.dealloc p n m))
include ha hd

theorem mapStepM_cautious (nd : Bool) (op : MapOp K V) (v : Vec) (m : Mem (K × V)) :
    OrPanic (VMap.stepM .debug A lt eq nd op v m) (VMap.step A' lt eq nd op v m) := by
  cases op with
  | remove k => exact .rfl
  | removeEntry k => exact .rfl
  | get k => exact .rfl
  | modify k f => exact .rfl
  | contains k => exact .rfl
  | entryKey k => exact .rfl
  | len => exact .rfl
  | isEmpty => exact .rfl
  | clear => exact OrPanic.bind (clear_cautious hd nd v m) fun r _ => .rfl
  | insert k x =>
    refine OrPanic.bind ?_ fun r _ => .rfl
    unfold VMap.insertM VMap.insert
    refine OrPanic.bind .rfl fun r _ => ?_
    obtain ⟨p, i⟩ := r
    cases p with
    | some p => exact .rfl
    | none => exact OrPanic.bind (insertM_cautious ha hd i (k, x) v m) fun r _ => .rfl
  | entry k f x =>
    refine OrPanic.bind ?_ fun r _ => .rfl
    unfold VMap.entryM VMap.entry
    refine OrPanic.bind .rfl fun r _ => ?_
    obtain ⟨p, i⟩ := r
    cases p with
    | some p => exact .rfl
    | none => exact OrPanic.bind (insertM_cautious ha hd i (k, x) v m) fun r _ => .rfl

theorem mapRunM_cautious (nd : Bool) (ops : List (MapOp K V)) : ∀ (v : Vec) (m : Mem (K × V)),
    OrPanic (VMap.runM .debug A lt eq nd ops v m) (VMap.run A' lt eq nd ops v m) := by
  induction ops with
  | nil => intro v m; exact .rfl
  | cons op ops ih =>
    intro v m
    exact OrPanic.bind (mapStepM_cautious ha hd nd op v m) fun r _ =>
      OrPanic.bind (ih r.2.1 r.2.2) fun r2 _ => .rfl

end cautious

end Verif
