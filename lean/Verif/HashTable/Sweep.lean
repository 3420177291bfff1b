import Verif.HashTable.Iter
import Verif.Spec.Sweep

/-! Changing the values of a hash map during `iter_mut`, between calls. -/

set_option autoImplicit false

namespace Verif
open Spec

variable {K V σ : Type}

/-- A call, or a loop over `iter_mut` (src/hash_map/mod.rs:109-111) that replaces every value. -/
def HTable.stepI (E : HEnv K V σ) : MapItem K V → HTable σ → HMem K V →
    Exec (Option (MapOut K V) × HTable σ × HMem K V)
  | .call op, t, m => do
    let (o, t, m) ← t.step E op m
    .ok (some o, t, m)
  | .sweep f, t, m => do
    let it ← t.iter m
    let m ← it.updateAll f (t.count + 1) m
    .ok (none, t, m)

/-- A history of calls and loops. -/
def HTable.runI (E : HEnv K V σ) : List (MapItem K V) → HTable σ → HMem K V →
    Exec (List (Option (MapOut K V)) × HTable σ × HMem K V)
  | [], t, m => .ok ([], t, m)
  | i :: is, t, m => do
    let (o, t, m) ← t.stepI E i m
    let (os, t, m) ← HTable.runI E is t m
    .ok (o :: os, t, m)

theorem MapItem.step_perm {eq : K → K → Bool} (he : PartialEquiv eq) {s t : List (K × V)}
    (h : s.Perm t) (hd : Distinct eq s) (i : MapItem K V) :
    (i.step eq s).1 = (i.step eq t).1 ∧ (i.step eq s).2.Perm (i.step eq t).2 := by
  cases i with
  | call op =>
    obtain ⟨h1, h2⟩ := Spec.step_perm he h hd op
    exact ⟨by simp [MapItem.step, h1], h2⟩
  | sweep f => exact ⟨rfl, h.map _⟩

theorem MapItem.length_le_peak (eq : K → K → Bool) (is : List (MapItem K V)) (s : List (K × V)) :
    s.length ≤ MapItem.peak eq is s := by
  cases is with
  | nil => exact Nat.le_refl _
  | cons i is => exact Nat.le_max_left _ _

section
variable {E : HEnv K V σ} {Inv : σ → HNMem K V → List Nat → Prop} {w : World Nat}
  {wn : Nat → Option (Option (HCell K V))}

theorem HRep.runI (L : HLaw E Inv) (he : PartialEquiv E.eq) (hh : HashOk E) :
    ∀ (is : List (MapItem K V)) {m : HMem K V} {t : HTable σ} {peak : Nat} {bl : List Nat}
    {cs : List (List (Nat × K × V))} {s : List (K × V)},
    HRep True E Inv w wn m t peak bl cs → (ents cs).Perm s → MapItem.peak E.eq is s ≤ maxEntries →
    ∃ t' m' peak' bl' cs', HTable.runI E is t m = .ok ((MapItem.run E.eq is s).1, t', m') ∧
      HRep True E Inv w wn m' t' peak' bl' cs' ∧ (ents cs').Perm (MapItem.run E.eq is s).2 := by
  intro is
  induction is with
  | nil => intro m t peak bl cs s h hp _; exact ⟨t, m, peak, bl, cs, rfl, h, hp⟩
  | cons i is ih =>
    intro m t peak bl cs s h hp hpk
    have hd := h.core.distinct
    obtain ⟨g1, g2⟩ := MapItem.step_perm he hp hd i
    have hpk' : MapItem.peak E.eq is (i.step E.eq s).2 ≤ maxEntries :=
      Nat.le_trans (Nat.le_max_right _ _) hpk
    have hmax := Nat.le_trans (MapItem.length_le_peak E.eq is (i.step E.eq s).2) hpk'
    cases i with
    | call op =>
      obtain ⟨t1, m1, bl1, cs1, e1, e2⟩ := h.step L he hh op (by
        rw [show (op.step E.eq (ents cs)).2.length = _ from g2.length_eq]; exact hmax)
      obtain ⟨t2, m2, p2, bl2, cs2, f1, f2, f3⟩ := ih e2.rep (e2.perm.trans g2) hpk'
      refine ⟨t2, m2, p2, bl2, cs2, ?_, f2, f3⟩
      simp only [MapItem.step, Option.some.injEq] at g1
      simp [HTable.runI, HTable.stepI, e1, f1, MapItem.run, MapItem.step, g1]
    | sweep f =>
      obtain ⟨it, m1, e1, e2, e3, e4⟩ := h.updateAll L f
      obtain ⟨t2, m2, p2, bl2, cs2, f1, f2, f3⟩ := ih e3 (by rw [e4]; exact g2) hpk'
      refine ⟨t2, m2, p2, bl2, cs2, ?_, f2, f3⟩
      simp [HTable.runI, HTable.stepI, e1, e2, f1, MapItem.run, MapItem.step]

end

end Verif
