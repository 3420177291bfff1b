import Verif.HashTable.Facts
import Verif.Spec.EntryCalls
import Mathlib.Tactic.Abel
import Mathlib.Algebra.Order.Group.Multiset

/-!
# Entries of a hash map whose closures may panic

`Entry::and_modify` and `Entry::or_insert_with` (src/internal/hash_table/entry.rs) with closures that
may panic; src/hash_map/entry.rs passes them on.  What the closures themselves own is the caller's.
-/

set_option autoImplicit false

namespace Verif
open Spec

variable {K V σ : Type}

/-- `and_modify` (src/internal/hash_table/entry.rs:28-34): `f` leaves the value `(f x).1` and panics
if `(f x).2`.  A panic drops the entry, which is occupied then and owns nothing. -/
def HEntry.andModifyP (e : HEntry K) (f : V → V × Bool) (m : HMem K V) : Exec (Bool × HMem K V) :=
  match e with
  | .occupied p => do
    let c ← m.node p
    let m ← m.modify p fun c => { c with val := (f c.val).1 }
    .ok ((f c.val).2, m)
  | .vacant _ _ => .ok (false, m)

/-- `or_insert_with` (src/internal/hash_table/entry.rs:50-62): `default` is run before anything is
changed; if it panics (`none`) the entry is dropped, and with it the key. -/
def HEntry.orInsertWithP (E : HEnv K V σ) (e : HEntry K) (default : Option V) (t : HTable σ)
    (m : HMem K V) : Exec (Option Nat × HTable σ × HMem K V) :=
  match e with
  | .occupied p => .ok (some p, t, m)
  | .vacant b k => match default with
    | none => .ok (none, t, m.dropKey E k)
    | some v => do
      let (p, t, m) ← t.insertImpl E b k v m
      .ok (some p, t, m)

/-- `entry(k).and_modify(f).or_insert_with(default)` (src/hash_map/mod.rs:62-64,
src/hash_map/entry.rs:17-37) and reading the value through the reference it returns. -/
def HTable.closures (E : HEnv K V σ) (k : K) (f : V → V × Bool) (default : Option V)
    (t : HTable σ) (m : HMem K V) : Exec (Option (MapOut K V) × HTable σ × HMem K V) := do
  let (e, m) ← t.entry E k m
  let (panicked, m) ← e.andModifyP f m
  if panicked then .ok (none, t, e.discard E m)
  else do
    let (o, t, m) ← e.orInsertWithP E default t m
    match o with
    | none => .ok (none, t, m)
    | some p => do
      let c ← m.node p
      .ok (some (.val (some c.val)), t, m)

/-- One call. -/
def HTable.stepC (E : HEnv K V σ) (t : HTable σ) (c : EntryCall K V) (m : HMem K V) :
    Exec (Option (MapOut K V) × HTable σ × HMem K V) :=
  match c with
  | .plain op => do let (o, t, m) ← t.step E op m; .ok (some o, t, m)
  | .closures k f default => t.closures E k f default m

/-- A history of calls; the caller catches panics and goes on. -/
def HTable.runC (E : HEnv K V σ) : List (EntryCall K V) → HTable σ → HMem K V →
    Exec (List (Option (MapOut K V)) × HTable σ × HMem K V)
  | [], t, m => .ok ([], t, m)
  | c :: cs, t, m => do
    let (o, t, m) ← t.stepC E c m
    let (os, t, m) ← HTable.runC E cs t m
    .ok (o :: os, t, m)

/-! ## The finite map -/

variable {eq : K → K → Bool}

theorem EntryCall.step_perm (he : PartialEquiv eq) {s s' : List (K × V)} (h : s.Perm s')
    (hd : Distinct eq s) (c : EntryCall K V) :
    (c.step eq s).1 = (c.step eq s').1 ∧ (c.step eq s).2.Perm (c.step eq s').2 ∧
      (c.drops eq s).Perm (c.drops eq s') := by
  cases c with
  | plain op =>
    obtain ⟨h1, h2⟩ := Spec.step_perm he h hd op
    refine ⟨by simp only [EntryCall.step, h1], h2, ?_⟩
    simp only [EntryCall.drops]
    cases op <;> simp only [MapOp.drops, ← lookup_perm he h hd] <;> try exact .refl _
    exact h.flatMap_right _
  | closures k f d =>
    simp only [EntryCall.step, EntryCall.drops, ← lookup_perm he h hd k]
    cases lookup eq s k with
    | some p => exact ⟨rfl, h.map _, .refl _⟩
    | none => cases d with
      | none => exact ⟨rfl, h, .refl _⟩
      | some v => exact ⟨rfl, h.cons _, .refl _⟩

theorem EntryCall.distinct (he : PartialEquiv eq) {s : List (K × V)} (hd : Distinct eq s)
    (c : EntryCall K V) : Distinct eq (c.step eq s).2 := by
  cases c with
  | plain op => exact hd.step he op
  | closures k f d =>
    have h1 := hd.step he (.modify k fun x => (f x).1)
    simp only [EntryCall.step, MapOp.step] at h1 ⊢
    cases hl : lookup eq s k with
    | some p => rw [hl] at h1; exact h1
    | none =>
      cases d with
      | none => exact hd
      | some v =>
        have h2 := hd.step he (.insert k v)
        simp only [MapOp.step, hl] at h2
        exact h2

theorem EntryCall.run_perm (he : PartialEquiv eq) (cs : List (EntryCall K V)) :
    ∀ {s s' : List (K × V)}, s.Perm s' → Distinct eq s →
    (EntryCall.run eq cs s).1 = (EntryCall.run eq cs s').1 ∧
    (EntryCall.run eq cs s).2.Perm (EntryCall.run eq cs s').2 ∧
    (EntryCall.allDrops eq cs s).Perm (EntryCall.allDrops eq cs s') ∧
    EntryCall.peak eq cs s = EntryCall.peak eq cs s' := by
  induction cs with
  | nil => intro s s' h _; exact ⟨rfl, h, .refl _, h.length_eq⟩
  | cons c cs ih =>
    intro s s' h hd
    obtain ⟨h1, h2, h3⟩ := EntryCall.step_perm he h hd c
    obtain ⟨g1, g2, g3, g4⟩ := ih h2 (EntryCall.distinct he hd c)
    exact ⟨by simp only [EntryCall.run, h1, g1], g2, h3.append g3,
      by simp only [EntryCall.peak, h.length_eq, g4]⟩

theorem EntryCall.conserve_step (he : PartialEquiv eq) {s : List (K × V)} (hd : Distinct eq s)
    (c : EntryCall K V) :
    (contents s ++ c.taken eq s).Perm
      (contents (c.step eq s).2 ++ (c.given eq s ++ c.drops eq s)) := by
  cases c with
  | plain op => exact Verif.conserve_step he hd op
  | closures k f d =>
    simp only [EntryCall.taken, EntryCall.given, EntryCall.drops, EntryCall.step]
    cases hl : lookup eq s k with
    | some p =>
      have := contents_set he hd hl (f p.2).1
      refine List.perm_append_comm.trans (.trans ?_ List.perm_append_comm)
      exact (this.cons _).trans (List.Perm.swap _ _ _)
    | none =>
      cases d with
      | none => exact .refl _
      | some v =>
        simp only [List.append_nil]
        exact List.perm_append_comm

theorem EntryCall.conserve (he : PartialEquiv eq) (cs : List (EntryCall K V)) :
    ∀ {s : List (K × V)}, Distinct eq s →
    (contents s ++ EntryCall.allTaken eq cs s).Perm
      (contents (EntryCall.run eq cs s).2 ++
        (EntryCall.allGiven eq cs s ++ EntryCall.allDrops eq cs s)) := by
  induction cs with
  | nil => intro s _; exact .refl _
  | cons c cs ih =>
    intro s hd
    have h1 := Multiset.coe_eq_coe.2 (EntryCall.conserve_step he hd c)
    have h2 := Multiset.coe_eq_coe.2 (ih (EntryCall.distinct he hd c))
    refine Multiset.coe_eq_coe.1 ?_
    simp only [EntryCall.allTaken, EntryCall.allGiven, EntryCall.allDrops, EntryCall.run,
      ← Multiset.coe_add] at h1 h2 ⊢
    rw [← add_assoc, h1]
    generalize (contents (c.step eq s).2 : Multiset (K ⊕ V)) = C at h2 ⊢
    calc _ = (C + (EntryCall.allTaken eq cs (c.step eq s).2 : Multiset (K ⊕ V))) +
          ((c.given eq s : Multiset (K ⊕ V)) + (c.drops eq s : Multiset (K ⊕ V))) := by abel
      _ = _ := by rw [h2]; abel

theorem EntryCall.le_peak (cs : List (EntryCall K V)) (s : List (K × V)) :
    s.length ≤ EntryCall.peak eq cs s := by
  cases cs with
  | nil => exact Nat.le_refl _
  | cons c cs => simp only [EntryCall.peak]; omega

/-! ## The table -/

variable {E : HEnv K V σ} {Inv : σ → HNMem K V → List Nat → Prop} {w : World Nat}
  {wn : Nat → Option (Option (HCell K V))} {m : HMem K V} {t : HTable σ} {peak : Nat}
  {bl : List Nat} {cs : List (List (Nat × K × V))}

/-- One call. -/
theorem HRep.stepC (L : HLaw E Inv) (he : PartialEquiv E.eq) (hh : HashOk E)
    (h : HRep True E Inv w wn m t peak bl cs) (c : EntryCall K V)
    (hmax : (c.step E.eq (ents cs)).2.length ≤ maxEntries) :
    ∃ t' m' peak' bl' cs', t.stepC E c m = .ok ((c.step E.eq (ents cs)).1, t', m') ∧
      HRep True E Inv w wn m' t' peak' bl' cs' ∧ (ents cs').Perm (c.step E.eq (ents cs)).2 ∧
      m'.n.dropped.Perm (m.n.dropped ++ (c.drops E.eq (ents cs)).filter E.needs) := by
  have hcnt : t.count = (ents cs).length := by rw [ents_length]; exact h.count
  cases c with
  | plain op =>
    obtain ⟨t', m', bl', cs', e1, e2⟩ := h.step L he hh op hmax
    exact ⟨t', m', _, bl', cs', by simp only [HTable.stepC, e1, Exec.ok_bind, EntryCall.step], e2.rep,
      e2.perm, e2.drops⟩
  | closures k f d =>
    obtain ⟨l1, c, l2, hcs, g1, g2, g3, hcase⟩ := h.core.locate he hh k
    rcases hcase with ⟨c1, n, c2, rfl, hk, hc1, hlu, hf⟩ | ⟨hc, hlu, hf⟩
    · have hcore := h.core.dropKey L k
      rw [hcs] at hcore
      have hseg := hcore.chains _ (show c1 ++ n :: c2 ∈ l1 ++ (c1 ++ n :: c2) :: l2 by simp)
      have hn := hseg.node.2
      obtain ⟨m1, e1, e2, e3, e4, e5⟩ := hcore.setVal L he hk (f n.2.2).1 (fun x => (f x).1) rfl
      rw [← hcs] at e3
      refine ⟨t, m1, peak, bl, l1 ++ (c1 ++ (n.1, n.2.1, (f n.2.2).1) :: c2) :: l2, ?_,
        h.setCore e2 rfl rfl h.peak rfl (by rw [h.count, hcs]; simp), ?_, ?_⟩
      · simp only [HTable.stepC, HTable.closures, HTable.entry, hf, Exec.ok_bind,
          HEntry.andModifyP, hn, e1, EntryCall.step, hlu, HEntry.discard, HEntry.orInsertWithP, e5]
        cases (f n.2.2).2 <;> rfl
      · simp only [EntryCall.step, hlu]
        rw [e3]
      · simp only [EntryCall.drops, hlu]
        rw [e4, dropKey_dropped]
    · cases d with
      | none =>
        refine ⟨t, m.dropKey E k, peak, bl, cs, ?_,
          h.setCore (h.core.dropKey L k) rfl rfl h.peak rfl h.count, ?_, ?_⟩
        · simp only [HTable.stepC, HTable.closures, HTable.entry, hf, Exec.ok_bind,
            HEntry.andModifyP, EntryCall.step, hlu, HEntry.orInsertWithP, Bool.false_eq_true,
            if_false]
        · simp only [EntryCall.step, hlu]
          exact .refl _
        · simp only [EntryCall.drops, hlu]
          rw [dropKey_dropped]
      | some v =>
        have hlt : t.count < maxEntries := by
          simp only [EntryCall.step, hlu, List.length_cons] at hmax
          omega
        obtain ⟨p, t', m', bl', cs', e1, e2, e3, e4, e5, e6, e7, ⟨x, e8⟩, e9⟩ :=
          h.insertImpl L (fun _ => he) (v := v) (fun _ => hlu) hlt g2
        refine ⟨t', m', _, bl', cs', ?_, e2, ?_, ?_⟩
        · simp only [HTable.stepC, HTable.closures, HTable.entry, hf, Exec.ok_bind,
            HEntry.andModifyP, EntryCall.step, hlu, HEntry.orInsertWithP, Bool.false_eq_true,
            if_false, e1, e8]
        · simp only [EntryCall.step, hlu]
          exact e5.map _
        · simp only [EntryCall.drops, hlu]
          rw [e7]; simp

/-- A history of calls. -/
theorem HRep.runC (L : HLaw E Inv) (he : PartialEquiv E.eq) (hh : HashOk E)
    (calls : List (EntryCall K V)) :
    ∀ {m : HMem K V} {t : HTable σ} {peak : Nat} {bl : List Nat} {cs : List (List (Nat × K × V))},
    HRep True E Inv w wn m t peak bl cs → EntryCall.peak E.eq calls (ents cs) ≤ maxEntries →
    ∃ t' m' peak' bl' cs',
      HTable.runC E calls t m = .ok ((EntryCall.run E.eq calls (ents cs)).1, t', m') ∧
      HRep True E Inv w wn m' t' peak' bl' cs' ∧
      (ents cs').Perm (EntryCall.run E.eq calls (ents cs)).2 ∧
      m'.n.dropped.Perm
        (m.n.dropped ++ (EntryCall.allDrops E.eq calls (ents cs)).filter E.needs) := by
  induction calls with
  | nil =>
    intro m t peak bl cs h _
    exact ⟨t, m, peak, bl, cs, rfl, h, .refl _, by simp [EntryCall.allDrops]⟩
  | cons c calls ih =>
    intro m t peak bl cs h hmax
    have hle := EntryCall.le_peak (eq := E.eq) calls (c.step E.eq (ents cs)).2
    simp only [EntryCall.peak] at hmax
    obtain ⟨t1, m1, pk1, bl1, cs1, e1, e2, e3, e4⟩ := h.stepC L he hh c (by omega)
    obtain ⟨r1, r2, r3, r4⟩ := EntryCall.run_perm he calls e3 e2.core.distinct
    obtain ⟨t2, m2, pk2, bl2, cs2, f1, f2, f3, f4⟩ := ih e2 (by rw [r4]; omega)
    refine ⟨t2, m2, pk2, bl2, cs2, ?_, f2, f3.trans r2, ?_⟩
    · simp only [HTable.runC, e1, Exec.ok_bind, f1, EntryCall.run, r1]
    · refine f4.trans ?_
      simp only [EntryCall.allDrops, List.filter_append]
      rw [← List.append_assoc]
      exact List.Perm.append e4 (r3.filter _)

end Verif
