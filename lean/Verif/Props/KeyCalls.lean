import Verif.Props.Cost
import Verif.HashTable.KeyCalls
import Verif.HashTable.Iter

/-!
# How often a hash map hashes and compares keys (C119)

The model with a hash function and an equality that record their calls is `HashTable/Oracle.lean`,
for the recorder `recordKeys`.
-/

set_option autoImplicit false

namespace Verif
open Spec

variable {K V : Type} {E : HEnv K V Unit} {m0 : HMem K V}

/-- C119.  After any history, take the entries in iteration order.  A call that asks for a key hashes
it once and compares it, stored key first, with the keys of its bucket in that order until one is
equal, and asks nothing else of keys; if the call makes the map grow it also hashes every stored key
once and the new key again.  The other calls ask nothing of keys.  (`log`: whatever was recorded
before.) -/
theorem C119_key_calls (S : HSetting E m0) (ops : List (MapOp K V))
    (hpk : MapOp.peak E.eq ops [] ≤ 2557710464) {outs : List (MapOut K V)} {t : HTable Unit}
    {m : HMem K V} (h : HTable.history E ops m0 = .ok (outs, t, m)) (op : MapOp K V)
    (hroom : (op.step E.eq (MapOp.run E.eq ops []).2).2.length ≤ 2557710464) :
    ∃ (es : List (K × V)) (it it' : HIter) (o : MapOut K V) (t' : HTable Unit) (m' : HMem K V),
      t.iter m = .ok it ∧ it.run m es.length = .ok (es.map some, it') ∧
      es.length = t.count ∧ t.step E op m = .ok (o, t', m') ∧
      ∀ log, t.stepO E (recordKeys E) op log m = .ok (some o,
        log ++ op.keyCalls E.hash E.eq (es.map Prod.fst) t.bucketCount
          (t'.bucketCount ≠ t.bucketCount), t', m') := by
  obtain ⟨bl, cs, A⟩ := S.after hpk h
  obtain ⟨it, c, ds, e1, e2, e3⟩ := A.rep.core.iter
  obtain ⟨it', _, _, f1, _⟩ := e2.run (ents cs).length
  obtain ⟨t', m', bl', cs', g1, g2⟩ := A.rep.step S.law S.equiv S.hash op (by
    rw [(step_perm S.equiv A.perm A.rep.core.distinct op).2.length_eq]; exact hroom)
  refine ⟨ents cs, it, it', _, t', m', e1, ?_, by rw [ents_length, A.rep.count], g1, fun log => ?_⟩
  · rw [f1, e3]
    change Except.ok ((List.range (ents cs).length).map fun i => (ents cs)[i]?, it') = _
    congr 2
    refine List.ext_getElem? fun i => ?_
    by_cases hi : i < (ents cs).length
    · simp [hi]
    · simp [hi]
  · obtain ⟨s', hs⟩ := stepO_like (recordKeys_like E) op log t m
    rw [g1] at hs
    have hs : t.stepO E (recordKeys E) op log m = .ok (_, s', t', m') := hs
    rw [hs, A.rep.stepO_rec hs]

/-- Whether a recorded call is one of the hash function. -/
def Spec.KeyCall.isHash {K : Type} : KeyCall K → Bool
  | .hashed _ => true
  | .compared _ _ => false

theorem MapOp.keyCalls_hashes (hash : K → Nat) (eq : K → K → Bool) (op : MapOp K V) (ks : List K)
    (n : Nat) (g : Bool) :
    (op.keyCalls hash eq ks n g).countP KeyCall.isHash =
      if op.asked.isSome then 1 + (if g then ks.length + 1 else 0) else 0 := by
  unfold MapOp.keyCalls
  have h1 : ∀ (k : K) (l : List K),
      (l.map fun x => KeyCall.compared x k).countP KeyCall.isHash = 0 := by
    intro k l; rw [List.countP_eq_zero]; simp [KeyCall.isHash]
  have h2 : ∀ l : List K, (l.map KeyCall.hashed).countP KeyCall.isHash = l.length := by
    intro l; rw [List.countP_map, List.countP_eq_length.2 (by simp [KeyCall.isHash])]
  cases op.asked with
  | none => rfl
  | some k =>
    simp only [Option.isSome_some, if_true, List.cons_append, List.countP_cons, KeyCall.isHash,
      List.countP_append, h1]
    cases g
    · simp
    · simp only [if_true, List.countP_append, h2, List.countP_cons, List.countP_nil, KeyCall.isHash]
      omega

theorem HRep.runO_hashes {σ : Type} {E : HEnv K V σ} {Inv : σ → HNMem K V → List Nat → Prop}
    {w : World Nat} {wn : Nat → Option (Option (HCell K V))} (L : HLaw E Inv) (he : PartialEquiv E.eq)
    (hh : HashOk E) (ops : List (MapOp K V)) :
    ∀ {m : HMem K V} {t : HTable σ} {peak : Nat} {bl : List Nat} {cs : List (List (Nat × K × V))},
    HRep True E Inv w wn m t peak bl cs → MapOp.peak E.eq ops (ents cs) ≤ maxEntries →
    ∀ {os : List (Option (MapOut K V))} {s s' : List (KeyCall K)} {t' : HTable σ} {m' : HMem K V}
      {l : List (Nat × Nat)}, HTable.runO E (recordKeys E) ops s t m = .ok (os, s', t', m') →
    t.rehashes E ops m = .ok l →
    s'.countP KeyCall.isHash ≤ s.countP KeyCall.isHash + (ops.filterMap MapOp.asked).length +
      (l.map Prod.fst).sum + l.length := by
  induction ops with
  | nil =>
    intro m t peak bl cs _ _ os s s' t' m' l h1 h2
    cases h1
    cases h2
    simp
  | cons op ops ih =>
    intro m t peak bl cs h hmax os s s' t' m' l h1 h2
    have hle := le_peak E.eq ops (op.step E.eq (ents cs)).2
    simp only [MapOp.peak] at hmax
    obtain ⟨t1, m1, bl1, cs1, e1, e2⟩ := h.step L he hh op (by omega)
    obtain ⟨a1, a2⟩ := allDrops_perm he ops e2.perm (e2.rep.core.distinct)
    obtain ⟨⟨o1, s1, t2, m2⟩, g1, h1⟩ := Exec.bind_ok h1
    obtain ⟨⟨os2, s2, t3, m3⟩, g2, h1⟩ := Exec.bind_ok h1
    cases h1
    have hs := h.stepO_rec g1
    obtain ⟨s1', hl⟩ := stepO_like (recordKeys_like E) op s t m
    rw [e1] at hl
    rw [hl] at g1
    cases g1
    simp only [HTable.rehashes, e1, Exec.ok_bind] at h2
    obtain ⟨l2, k1, k2⟩ := Exec.bind_ok h2
    cases k2
    have := ih e2.rep (by rw [a2]; omega) g2 k1
    rw [hs, List.countP_append, MapOp.keyCalls_hashes, List.length_map, ents_length, ← h.count] at this
    rw [List.filterMap_cons]
    have hno : op.asked = none → t1.bucketCount = t.bucketCount := by
      intro hn
      cases op <;> simp only [MapOp.asked] at hn <;> try cases hn
      · simp only [HTable.step, Except.ok.injEq, Prod.mk.injEq] at e1; rw [e1.2.1]
      · simp only [HTable.step, Except.ok.injEq, Prod.mk.injEq] at e1; rw [e1.2.1]
      · obtain ⟨⟨t4, m4⟩, q1, q2⟩ := Exec.bind_ok e1
        cases q2
        obtain ⟨⟨t5, m5⟩, q3, q4⟩ := Exec.bind_ok q1
        cases q4
        exact (freeBuckets_sizes q3).2
    cases hk : op.asked with
    | none =>
      rw [hk] at this
      simp only [hno hk, if_true]
      simpa using this
    | some k =>
      rw [hk] at this
      simp only [Option.isSome_some, if_true] at this
      by_cases hb : t1.bucketCount = t.bucketCount
      · simp only [hb, ne_eq, not_true_eq_false, decide_false, Bool.false_eq_true, if_false] at this
        simp only [hb, if_true, List.length_cons]
        omega
      · simp only [ne_eq, hb, not_false_eq_true, decide_true, if_true] at this
        simp only [hb, if_false, List.length_cons, List.map_cons, List.sum_cons]
        omega

/-- C119, in total.  A history whose largest number of entries is `N ≥ 1` calls the hash function at
most once for each call that asks for a key, and `2 N + log₂ N + 1` times more. -/
theorem C119_hash_total (S : HSetting E m0) (ops : List (MapOp K V))
    (hpos : 1 ≤ MapOp.peak E.eq ops []) (hpk : MapOp.peak E.eq ops [] ≤ 2557710464) :
    ∃ outs t m log, HTable.history E ops m0 = .ok (outs, t, m) ∧
      HTable.runO E (recordKeys E) ops [] (HTable.newIn E ()) m0 = .ok (outs.map some, log, t, m) ∧
      log.countP KeyCall.isHash ≤ (ops.filterMap MapOp.asked).length +
        (2 * MapOp.peak E.eq ops [] + Nat.log 2 (MapOp.peak E.eq ops []) + 1) := by
  obtain ⟨o, t, m, l, e1, e2, e3, e4, _⟩ := C99_rehash_amortised S ops hpos hpk
  obtain ⟨s', h1⟩ := runO_like (recordKeys_like E) ops [] (HTable.newIn E ()) m0
  rw [show HTable.run E ops (HTable.newIn E ()) m0 = _ from e1] at h1
  have h1 : HTable.runO E (recordKeys E) ops [] (HTable.newIn E ()) m0 = .ok (o.map some, s', t, m) := h1
  refine ⟨o, t, m, s', e1, h1, ?_⟩
  have := S.init.runO_hashes S.law S.equiv S.hash ops hpk h1 e2
  simp only [List.countP_nil] at this
  omega

/-- Entries with keys 6, 1 and 3 in five buckets, 6 and 1 in the same one.  Inserting 11 compares it
with both, finding 6 then takes three comparisons; inserting 2 and 7 fills the map, so that the latter
hashes every key. -/
example : (do
      let E := exampleHash (· % 100)
      let (_, t, m) ← HTable.history E [.insert 1 0, .insert 6 0, .insert 3 0] exampleHashMem
      let (_, log, t, _) ← HTable.runO E (recordKeys E)
        [.insert 11 0, .get 6, .insert 2 0, .insert 7 0] [] t m
      .ok (t.bucketCount, log)) =
      (.ok (11, [.hashed 11, .compared 1 11, .compared 6 11,
        .hashed 6, .compared 11 6, .compared 1 6, .compared 6 6, .hashed 2,
        .hashed 7, .compared 2 7, .hashed 11, .hashed 1, .hashed 6, .hashed 2, .hashed 3, .hashed 7]) :
        Exec (Nat × List (KeyCall Nat))) := by
  decide +kernel

end Verif
