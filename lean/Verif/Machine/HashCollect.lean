import Verif.HashTable.Facts
import Verif.HashTable.Grants
import Verif.Machine.Hash
import Verif.Machine.MapBulk

/-! Collecting into hash maps with machine integers. -/

set_option autoImplicit false

namespace Verif
open Spec

variable {K V σ : Type}

/-- `HashTable::from_iter` (src/internal/hash_table/mod.rs:442-448) after the creation: the value
replaced by a duplicate key is dropped. -/
def HTable.insertAllM (B : Build) (E : HEnv K V σ) :
    List (K × V) → HTable σ → HMem K V → Exec (HTable σ × HMem K V)
  | [], t, m => .ok (t, m)
  | (k, v) :: kvs, t, m => do
    let (o, t, m) ← t.insertM B E k v m
    HTable.insertAllM B E kvs t (match o with | none => m | some v => m.dropVal E v)

/-- `HashSet::from_iter` (src/hash_set/mod.rs:138-142). -/
def HTable.collectSetM (B : Build) (E : HEnv K Unit σ) (a : σ) (ks : List K) (m : HMem K Unit) :
    Exec (HTable σ × HMem K Unit) :=
  HTable.insertAllM B E (ks.map fun k => (k, ())) (HTable.newIn E a) m

variable {E : HEnv K V σ} {Inv : σ → HNMem K V → List Nat → Prop} {w : World Nat}
  {wn : Nat → Option (Option (HCell K V))}

/-- A new key in a map with 2557710464 entries. -/
theorem HRep.insert_full (he : PartialEquiv E.eq) (hh : HashOk E) {m : HMem K V} {t : HTable σ}
    {peak : Nat} {bl : List Nat} {cs : List (List (Nat × K × V))}
    (h : HRep True E Inv w wn m t peak bl cs) (hc : t.count = maxEntries) {k : K}
    (hk : lookup E.eq (ents cs) k = none) (v : V) : t.insert E k v m = .error .panic := by
  obtain ⟨_, hf⟩ := h.policy.full (hc ▸ h.peak)
  rw [← hc] at hf
  obtain ⟨l1, c, l2, hcs, g1, g2, g3, hcase⟩ := h.core.locate he hh k
  rcases hcase with ⟨c1, n, c2, rfl, hk', hc1, hlu, hf'⟩ | ⟨hc', hlu, hf'⟩
  · rw [hk] at hlu; cases hlu
  · simp only [HTable.insert, hf', Exec.ok_bind, HTable.insertImpl, hf, Exec.error_bind]

/-- Machine integers make no difference to collecting, and too many keys are a panic. -/
theorem HRep.insertAllM (B : Build) (L : HLaw E Inv) (he : PartialEquiv E.eq) (hh : HashOk E) :
    ∀ (kvs : List (K × V)) {m : HMem K V} {t : HTable σ} {peak : Nat} {bl : List Nat}
      {cs : List (List (Nat × K × V))}, HRep True E Inv w wn m t peak bl cs →
    (ents cs).length ≤ maxEntries →
    HTable.insertAllM B E kvs t m = HTable.insertAll E kvs t m ∧
    (maxEntries < (MapOp.run E.eq (insertOps kvs) (ents cs)).2.length →
      HTable.insertAll E kvs t m = .error .panic) := by
  intro kvs
  induction kvs with
  | nil =>
    intro m t peak bl cs h hmax
    exact ⟨rfl, fun hlt => absurd hlt (Nat.not_lt.2 hmax)⟩
  | cons p kvs ih =>
    intro m t peak bl cs h hmax
    have hcount := h.count
    rw [← ents_length] at hcount
    have hroom : t.count + 1 < 2 ^ 32 := by unfold maxEntries at hmax; omega
    have hM := HTable.insertM_eq B E t hroom p.1 p.2 m
    rcases Nat.lt_or_ge maxEntries ((MapOp.insert p.1 p.2 : MapOp K V).step E.eq (ents cs)).2.length
      with hlt | hle
    · have hk : lookup E.eq (ents cs) p.1 = none := by
        cases hk : lookup E.eq (ents cs) p.1 with
        | none => rfl
        | some q => simp only [MapOp.step, hk, setVal_length] at hlt; omega
      have hstep := length_step_le E.eq (.insert p.1 p.2) (ents cs)
      have hins := h.insert_full he hh (by omega) hk p.2
      simp only [HTable.insertAllM, HTable.insertAll, hM, hins, Exec.error_bind, true_and,
        implies_true]
    · obtain ⟨t1, m1, bl1, cs1, e1, e2⟩ := h.step L he hh (.insert p.1 p.2) hle
      obtain ⟨o, e3⟩ : ∃ o, t.insert E p.1 p.2 m = .ok (o, t1, m1) := by
        simp only [HTable.step] at e1
        obtain ⟨⟨o, t2, m2⟩, h1, h2⟩ := Exec.bind_ok e1
        simp only [Except.ok.injEq, Prod.mk.injEq] at h2
        obtain ⟨_, rfl, rfl⟩ := h2
        exact ⟨o, h1⟩
      obtain ⟨r1, r2⟩ := run_perm he (insertOps kvs) e2.perm e2.rep.core.distinct
      have hrep : HRep True E Inv w wn (match o with | none => m1 | some v => m1.dropVal E v) t1
          (max peak (MapOp.step E.eq (.insert p.1 p.2) (ents cs)).2.length) bl1 cs1 := by
        cases o with
        | none => exact e2.rep
        | some v =>
          exact e2.rep.setCore (e2.rep.core.dropVal L v) rfl rfl e2.rep.peak rfl e2.rep.count
      obtain ⟨f1, f2⟩ := ih hrep (by rw [e2.perm.length_eq]; exact hle)
      constructor
      · simp only [HTable.insertAllM, HTable.insertAll, hM, e3, Exec.ok_bind]
        cases o <;> exact f1
      · intro hlt
        have hr : (MapOp.run E.eq (insertOps (p :: kvs)) (ents cs)).2 =
          (MapOp.run E.eq (insertOps kvs)
            ((MapOp.insert p.1 p.2 : MapOp K V).step E.eq (ents cs)).2).2 := rfl
        rw [hr, ← r2.length_eq] at hlt
        simp only [HTable.insertAll, e3, Exec.ok_bind]
        cases o <;> exact f2 hlt

/-- While pairs are inserted a map only grows. -/
theorem insertOps_peak (eq : K → K → Bool) (ps : List (K × V)) : ∀ s : List (K × V),
    MapOp.peak eq (insertOps ps) s = (MapOp.run eq (insertOps ps) s).2.length := by
  have hgrow : ∀ (qs t : List (K × V)), t.length ≤ (MapOp.run eq (insertOps qs) t).2.length := by
    intro qs
    induction qs with
    | nil => intro t; exact Nat.le_refl _
    | cons q qs ih =>
      intro t
      refine Nat.le_trans ?_ (ih ((MapOp.insert q.1 q.2 : MapOp K V).step eq t).2)
      cases hl : lookup eq t q.1 <;> simp [MapOp.step, hl, setVal_length]
  induction ps with
  | nil => intro s; rfl
  | cons p ps ih =>
    intro s
    have h1 := hgrow (p :: ps) s
    have hr : (MapOp.run eq (insertOps (p :: ps)) s).2 =
      (MapOp.run eq (insertOps ps) ((MapOp.insert p.1 p.2 : MapOp K V).step eq s).2).2 := rfl
    have hp : MapOp.peak eq (insertOps (p :: ps)) s = max s.length
      (MapOp.peak eq (insertOps ps) ((MapOp.insert p.1 p.2 : MapOp K V).step eq s).2) := rfl
    rw [hp, ih, ← hr]
    omega

end Verif
