import Verif.HashTable.Iter
import Verif.Spec.Iterated

/-! The order in which a hash map is iterated over. -/

set_option autoImplicit false

namespace Verif
open Spec

variable {K V σ : Type} {E : HEnv K V σ} {Inv : σ → HNMem K V → List Nat → Prop} {w : World Nat}
  {wn : Nat → Option (Option (HCell K V))}

theorem fresh_none {eq : K → K → Bool} {s : List (K × V)} {op : MapOp K V}
    (h : op.fresh eq s = none) : (op.step eq s).2.length ≤ s.length := by
  cases op with
  | insert k v =>
    cases hl : lookup eq s k <;> simp_all [MapOp.fresh, MapOp.step, setVal]
  | entry k f v =>
    cases hl : lookup eq s k <;> simp_all [MapOp.fresh, MapOp.step, setVal]
  | modify k f =>
    cases hl : lookup eq s k <;> simp [MapOp.step, hl, setVal]
  | entryKey k =>
    cases hl : lookup eq s k <;> simp [MapOp.step, hl]
  | remove k => exact List.length_filter_le _ _
  | removeEntry k => exact List.length_filter_le _ _
  | clear => exact Nat.zero_le _
  | _ => exact Nat.le_refl _

theorem fresh_some {eq : K → K → Bool} {s : List (K × V)} {op : MapOp K V} {n : K × V}
    (h : op.fresh eq s = some n) : (op.step eq s).2 = n :: s := by
  cases op with
  | insert k v =>
    cases hl : lookup eq s k <;> simp_all [MapOp.fresh, MapOp.step]
  | entry k f v =>
    cases hl : lookup eq s k <;> simp_all [MapOp.fresh, MapOp.step]
  | _ => simp [MapOp.fresh] at h

theorem keys_setVal (eq : K → K → Bool) (k : K) (v : V) (s : List (K × V)) :
    (setVal eq k v s).map Prod.fst = s.map Prod.fst := by
  simp only [setVal, List.map_map]
  refine List.map_congr_left fun p _ => ?_
  simp only [Function.comp_apply]
  split <;> rfl

/-- A call that adds nothing leaves the keys it does not remove in their order. -/
theorem keys_kept {eq : K → K → Bool} {s : List (K × V)} {op : MapOp K V}
    (h : op.fresh eq s = none) (P : K → Bool) (hP : ∀ k, P k = true → op.removes eq k = false) :
    ((s.map Prod.fst).filter P).Sublist ((op.step eq s).2.map Prod.fst) := by
  have hsub : ∀ k : K, (∀ k', P k' = true → eq k' k = false) →
      ((s.map Prod.fst).filter P).Sublist ((eraseKey eq k s).map Prod.fst) := by
    intro k hk
    rw [eraseKey, List.filter_map]
    refine List.Sublist.map _ ?_
    refine List.monotone_filter_right _ fun p hp => ?_
    simp [hk p.1 hp]
  cases op with
  | insert k v =>
    cases hl : lookup eq s k with
    | none => simp [MapOp.fresh, hl] at h
    | some p =>
      simp only [MapOp.step, hl, keys_setVal]
      exact List.filter_sublist
  | entry k f v =>
    cases hl : lookup eq s k with
    | none => simp [MapOp.fresh, hl] at h
    | some p =>
      simp only [MapOp.step, hl, keys_setVal]
      exact List.filter_sublist
  | modify k f =>
    cases hl : lookup eq s k with
    | none => simp only [MapOp.step, hl]; exact List.filter_sublist
    | some p =>
      simp only [MapOp.step, hl, keys_setVal]
      exact List.filter_sublist
  | entryKey k =>
    cases hl : lookup eq s k <;> simp only [MapOp.step, hl] <;> exact List.filter_sublist
  | remove k => exact hsub k hP
  | removeEntry k => exact hsub k hP
  | clear =>
    have : (s.map Prod.fst).filter P = [] := List.filter_eq_nil_iff.2 fun k _ hk => by
      simpa [MapOp.removes] using hP k hk
    rw [this]
    exact List.nil_sublist _
  | get k => exact List.filter_sublist
  | contains k => exact List.filter_sublist
  | len => exact List.filter_sublist
  | isEmpty => exact List.filter_sublist

/-- Calls that add nothing act on the entries in the order of iteration. -/
theorem HRep.runKept (L : HLaw E Inv) (he : PartialEquiv E.eq) (hh : HashOk E) (ops : List (MapOp K V)) :
    ∀ {m : HMem K V} {t : HTable σ} {peak : Nat} {bl : List Nat} {cs : List (List (Nat × K × V))},
    HRep True E Inv w wn m t peak bl cs → MapOp.peak E.eq ops (ents cs) ≤ maxEntries →
    MapOp.AddsNone E.eq ops (ents cs) →
    ∃ t' m' peak' bl' cs', t.run E ops m = .ok ((MapOp.run E.eq ops (ents cs)).1, t', m') ∧
      HRep True E Inv w wn m' t' peak' bl' cs' ∧ t'.bucketCount = t.bucketCount ∧
      ents cs' = (MapOp.run E.eq ops (ents cs)).2 := by
  induction ops with
  | nil => intro m t peak bl cs h _ _; exact ⟨t, m, peak, bl, cs, rfl, h, rfl, rfl⟩
  | cons op ops ih =>
    intro m t peak bl cs h hmax hn
    have hle := le_peak E.eq ops (op.step E.eq (ents cs)).2
    simp only [MapOp.peak] at hmax
    obtain ⟨t1, m1, bl1, cs1, e1, e2⟩ := h.step L he hh op (by omega)
    obtain ⟨q1, q2⟩ := e2.shrink (fresh_none hn.1)
    obtain ⟨t2, m2, p2, bl2, cs2, f1, f2, f3, f4⟩ := ih e2.rep (by rw [q2]; omega) (by rw [q2]; exact hn.2)
    rw [q2] at f1 f4
    refine ⟨t2, m2, p2, bl2, cs2, ?_, f2, ?_, ?_⟩
    · simp only [HTable.run, e1, Exec.ok_bind, f1, MapOp.run]
    · rw [f3, ← e2.rep.core.len, q1, h.core.len]
    · simp only [MapOp.run, f4]

/-- While the number of buckets stays, the keys that are not removed stay in their order. -/
theorem HRep.runOrder (L : HLaw E Inv) (he : PartialEquiv E.eq) (hh : HashOk E) (P : K → Bool)
    (ops : List (MapOp K V)) :
    ∀ {m : HMem K V} {t : HTable σ} {peak : Nat} {bl : List Nat} {cs : List (List (Nat × K × V))},
    HRep True E Inv w wn m t peak bl cs → MapOp.peak E.eq ops (ents cs) ≤ maxEntries →
    (∀ op ∈ ops, ∀ k, P k = true → op.removes E.eq k = false) →
    ∃ t' m' peak' bl' cs', t.run E ops m = .ok ((MapOp.run E.eq ops (ents cs)).1, t', m') ∧
      HRep True E Inv w wn m' t' peak' bl' cs' ∧ t.bucketCount ≤ t'.bucketCount ∧
      (ents cs').Perm (MapOp.run E.eq ops (ents cs)).2 ∧
      (t'.bucketCount = t.bucketCount →
        (((ents cs).map Prod.fst).filter P).Sublist ((ents cs').map Prod.fst)) := by
  induction ops with
  | nil =>
    intro m t peak bl cs h _ _
    exact ⟨t, m, peak, bl, cs, rfl, h, Nat.le_refl _, .refl _, fun _ => List.filter_sublist⟩
  | cons op ops ih =>
    intro m t peak bl cs h hmax hn
    have hle := le_peak E.eq ops (op.step E.eq (ents cs)).2
    simp only [MapOp.peak] at hmax
    obtain ⟨t1, m1, bl1, cs1, e1, e2⟩ := h.step L he hh op (by omega)
    obtain ⟨_, a2⟩ := allDrops_perm he ops e2.perm e2.rep.core.distinct
    obtain ⟨r1, r2⟩ := run_perm he ops e2.perm e2.rep.core.distinct
    obtain ⟨t2, m2, p2, bl2, cs2, f1, f2, f3, f4, f5⟩ := ih e2.rep (by rw [a2]; omega)
      fun op hop => hn op (List.mem_cons_of_mem _ hop)
    rw [r1] at f1
    have hb : t.bucketCount ≤ t1.bucketCount := h.policy.mono e2.rep.policy (Nat.le_max_left _ _)
    refine ⟨t2, m2, p2, bl2, cs2, ?_, f2, by omega, ?_, fun hbc => ?_⟩
    · simp only [HTable.run, e1, Exec.ok_bind, f1, MapOp.run]
    · simp only [MapOp.run]; exact f4.trans r2
    · have hlen : cs1.length = cs.length := by
        rw [e2.rep.core.len, h.core.len]; omega
      have h1 : (((ents cs).map Prod.fst).filter P).Sublist ((ents cs1).map Prod.fst) := by
        cases hf : op.fresh E.eq (ents cs) with
        | none =>
          rw [(e2.shrink (fresh_none hf)).2]
          exact keys_kept hf P (hn op List.mem_cons_self)
        | some n =>
          obtain ⟨l1, l2, q1, q2⟩ := e2.grow n (fresh_some hf) hlen
          rw [q1, q2]
          refine List.filter_sublist.trans (List.Sublist.map _ ?_)
          exact (List.sublist_cons_self _ _).append_left _
      have h2 := (h1.filter P).trans ((List.Sublist.refl _).trans (.refl _))
      have h3 := f5 (by omega)
      rw [List.filter_filter] at h2
      simp only [Bool.and_self] at h2
      exact h2.trans h3

end Verif
