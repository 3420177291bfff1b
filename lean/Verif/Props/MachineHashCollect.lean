import Verif.Machine.HashCollect
import Verif.Props.MachineHash

/-!
# Property C164: collecting into hash maps and sets, on a machine

How many items an iterator has does not matter, only how many different keys.
-/

set_option autoImplicit false

namespace Verif
open Spec

variable {K V : Type}

/-- C164. Whatever the build and the number of pairs: a map is collected from them if there are at
most 2557710464 different keys among them. It then has this many entries, and binds `k` exactly if
some pair has a key equal to `k`, to the key of the first such pair and the value of the last. If there
are more different keys, collecting panics. -/
theorem C164_collect_hash_map {E : HEnv K V Unit} {m0 : HMem K V} (S : HSetting E m0) (B : Build)
    (kvs : List (K × V)) :
    (keyCount E.eq kvs ≤ 2557710464 →
      ∃ t m, HTable.insertAllM B E kvs (HTable.newIn E ()) m0 = .ok (t, m) ∧
        t.stepM B E .len m = .ok (.nat (keyCount E.eq kvs), t, m) ∧
        ∀ k, t.get E k m = .ok (match kvs.find? (fun p => E.eq p.1 k) with
          | none => none
          | some p => (kvs.reverse.find? (fun p => E.eq p.1 k)).map fun q => (p.1, q.2))) ∧
    (2557710464 < keyCount E.eq kvs →
      HTable.insertAllM B E kvs (HTable.newIn E ()) m0 = .error .panic) := by
  have hlen : (MapOp.run E.eq (insertOps kvs) []).2.length = keyCount E.eq kvs := by
    rw [insertOps_length S.equiv, newKeys_nil]; simp
  obtain ⟨h1, h2⟩ := S.init.insertAllM B S.law S.equiv S.hash kvs (by simp [ents])
  rw [h1]
  constructor
  · intro hle
    have hpk : MapOp.peak E.eq (kvs.map fun p => .insert p.1 p.2) (ents [[]]) ≤ maxEntries := by
      have := insertOps_peak E.eq kvs []
      rw [hlen] at this
      exact Nat.le_trans (Nat.le_of_eq this) hle
    obtain ⟨t, m, bl, cs, e1, e2, e3⟩ := S.init.insertAll S.law S.equiv S.hash kvs hpk
    have hcount : t.count = keyCount E.eq kvs := by
      rw [e2.count, ← ents_length, e3.length_eq]; exact hlen
    refine ⟨t, m, e1, by simp only [HTable.stepM, HTable.step, hcount], fun k => ?_⟩
    rw [e2.core.get S.equiv S.hash]
    have h1 := lookup_perm S.equiv e3 e2.core.distinct k
    have h2 := lookup_inserts S.equiv k kvs (s := []) List.Pairwise.nil
    exact congrArg _ (h1.trans h2)
  · intro hlt
    exact h2 (by rw [← hlen] at hlt; exact hlt)

/-- C164 for sets. -/
theorem C164_collect_hash_set {E : HEnv K Unit Unit} {m0 : HMem K Unit} (S : HSetting E m0)
    (B : Build) (ks : List K) :
    (keyCount E.eq (ks.map fun k => (k, ())) ≤ 2557710464 →
      ∃ t m, HTable.collectSetM B E () ks m0 = .ok (t, m) ∧
        t.stepSetM B E .len m = .ok (.nat (keyCount E.eq (ks.map fun k => (k, ()))), t, m) ∧
        ∀ k, t.containsKey E k m = .ok (ks.any fun j => E.eq j k)) ∧
    (2557710464 < keyCount E.eq (ks.map fun k => (k, ())) →
      HTable.collectSetM B E () ks m0 = .error .panic) := by
  obtain ⟨h1, h2⟩ := C164_collect_hash_map S B (ks.map fun k => (k, ()))
  refine ⟨fun hle => ?_, h2⟩
  obtain ⟨t, m, e1, e2, e3⟩ := h1 hle
  refine ⟨t, m, e1, ?_, fun k => ?_⟩
  · have hc : t.count = keyCount E.eq (ks.map fun k => (k, ())) := by
      simp only [HTable.stepM, HTable.step, Except.ok.injEq, Prod.mk.injEq, MapOut.nat.injEq,
        and_true] at e2
      exact e2
    simp only [HTable.stepSetM, HTable.stepSet, hc]
  · simp only [HTable.containsKey, e3 k, Exec.ok_bind]
    refine congrArg Except.ok ?_
    have hany : (ks.any fun j => E.eq j k) = ((ks.map fun k => (k, ())).any fun p => E.eq p.1 k) := by
      rw [List.any_map]; rfl
    rw [hany]
    cases hf : (ks.map fun k => (k, ())).find? (fun p => E.eq p.1 k) with
    | none =>
      rw [List.find?_eq_none] at hf
      exact (List.any_eq_false.2 hf).symm
    | some p =>
      have hp := List.mem_of_find?_eq_some hf
      have hq := List.find?_some hf
      rw [List.any_eq_true.2 ⟨p, hp, hq⟩]
      cases hr : (ks.map fun k => (k, ())).reverse.find? (fun p => E.eq p.1 k) with
      | none =>
        rw [List.find?_eq_none] at hr
        exact absurd hq (hr p (List.mem_reverse.2 hp))
      | some q => rfl

/-! ## Instances -/

/-- Pairs with repeated keys, in a release build. -/
example : (do
    let (t, m) ← HTable.insertAllM .release (exampleHash (· % 100))
      [(1, 10), (2, 20), (101, 11), (201, 12)] (HTable.newIn (exampleHash (· % 100)) ()) exampleHashMem
    .ok (t.count, [← t.get (exampleHash (· % 100)) 301 m, ← t.get (exampleHash (· % 100)) 2 m,
        ← t.get (exampleHash (· % 100)) 3 m])) =
    (.ok (2, [some (1, 12), some (2, 20), none]) : Exec (Nat × List (Option (Nat × Nat)))) := by
  decide +kernel

/-- One pair can be given more often than a `u32` can count. -/
example (B : Build) (n : Nat) : ∃ t m, HTable.insertAllM B exampleNat (List.replicate (n + 1) (7, 1))
    (HTable.newIn exampleNat ()) exampleHashMem = .ok (t, m) ∧
    t.stepM B exampleNat .len m = .ok (.nat 1, t, m) := by
  have hk : keyCount exampleNat.eq (List.replicate (n + 1) (7, 1)) = 1 := by
    induction n with
    | zero => decide +kernel
    | succ n ih =>
      rw [List.replicate_succ, keyCount, ih, if_pos]
      rw [List.replicate_succ, List.any_cons]
      rfl
  obtain ⟨t, m, h1, h2, _⟩ := (C164_collect_hash_map exampleNat_ok B _).1 (by rw [hk]; decide)
  rw [hk] at h2
  exact ⟨t, m, h1, h2⟩

/-- One different key too many. -/
example (B : Build) (n : Nat) (hn : n = 2557710465) :
    HTable.insertAllM B exampleNat ((List.range n).map fun k => (k, 0))
      (HTable.newIn exampleNat ()) exampleHashMem = .error .panic := by
  have h := (countTo_run n).1
  refine (C164_collect_hash_map exampleNat_ok B _).2 ?_
  have h2 := insertOps_length exampleNat_ok.equiv ((List.range n).map fun k => (k, 0)) []
  rw [newKeys_nil] at h2
  have h3 : insertOps ((List.range n).map fun k => (k, 0)) = countTo n := by
    simp only [insertOps, countTo, List.map_map]
    rfl
  rw [h3, h] at h2
  simp only [List.length_nil, Nat.zero_add] at h2
  omega

end Verif
