import Verif.Machine.Hash
import Verif.Props.HashLimit

/-!
# Hash maps and sets with the integers of the machine (C156)

The counts of elements and buckets are `u32`, the byte size of the bucket array is a `usize`, and
their operations panic or wrap according to the build.  Neither ever happens: a map and a set
answer every history of calls as the finite map and the finite set do, or panic because the
growth policy has no larger prime, in both builds alike.
-/

set_option autoImplicit false

namespace Verif
open Spec

variable {K V : Type}

/-- A new map put through the calls `ops` in the build `B`. -/
def HTable.historyM (B : Build) (E : HEnv K V Unit) (ops : List (MapOp K V)) (m0 : HMem K V) :
    Exec (List (MapOut K V) × HTable Unit × HMem K V) :=
  (HTable.newIn E ()).runM B E ops m0

/-- A new set put through the calls `ops` in the build `B`. -/
def HTable.historySetM (B : Build) (E : HEnv K Unit Unit) (ops : List (SetOp K))
    (m0 : HMem K Unit) : Exec (List (SetOut K) × HTable Unit × HMem K Unit) :=
  (HTable.newIn E ()).runSetM B E ops m0

/-- Where a history of calls arrives, the count has room in a `u32` and removals work. -/
theorem HSetting.room {E : HEnv K V Unit} {m0 : HMem K V} (S : HSetting E m0)
    {ops : List (MapOp K V)} {outs : List (MapOut K V)} {t : HTable Unit} {m : HMem K V}
    (h : HTable.history E ops m0 = .ok (outs, t, m)) :
    t.count + 1 < 2 ^ 32 ∧ ∀ k, ∃ r, t.removeEntry E k m = .ok r := by
  have hpk : MapOp.peak E.eq ops [] ≤ 2557710464 := by
    rcases C45_any_history S ops with ⟨h1, _⟩ | ⟨_, h2⟩
    · exact h1
    · rw [h] at h2; cases h2
  obtain ⟨bl, cs, A⟩ := S.after hpk h
  have hc := A.count
  have hl := run_le_peak E.eq ops []
  refine ⟨by omega, fun k => ?_⟩
  have hle : ((MapOp.removeEntry k : MapOp K V).step E.eq (ents cs)).2.length ≤ maxEntries := by
    have h1 := List.length_filter_le (fun p => !E.eq p.1 k) (ents cs)
    have h2 := A.perm.length_eq
    unfold maxEntries
    simp only [MapOp.step, eraseKey]
    omega
  obtain ⟨t', m', _, _, e, _⟩ := A.rep.step S.law S.equiv S.hash (.removeEntry k) hle
  simp only [HTable.step] at e
  obtain ⟨r, hr, _⟩ := Exec.bind_ok e
  exact ⟨r, hr⟩

/-- C156.  Whatever the build, a map does in every history of calls what the map with unbounded
counts does. -/
theorem C156_hash_machine {E : HEnv K V Unit} {m0 : HMem K V} (S : HSetting E m0) (B : Build)
    (ops : List (MapOp K V)) : HTable.historyM B E ops m0 = HTable.history E ops m0 := by
  induction ops using List.reverseRecOn with
  | nil => rfl
  | append_singleton ops op ih =>
    unfold HTable.historyM HTable.history at ih ⊢
    rw [HTable.runM_last, HTable.run_last, ih]
    cases h : (HTable.newIn E ()).run E ops m0 with
    | error e => simp only [Exec.error_bind]
    | ok r =>
      obtain ⟨os, t, m⟩ := r
      obtain ⟨h1, h2⟩ := S.room h
      simp only [Exec.ok_bind, HTable.stepM_eq B E op t m h1 fun k _ => h2 k]

/-- C156 for sets. -/
theorem C156_set_machine {E : HEnv K Unit Unit} {m0 : HMem K Unit} (S : HSetting E m0) (B : Build)
    (ops : List (SetOp K)) : HTable.historySetM B E ops m0 = HTable.historySet E ops m0 := by
  induction ops using List.reverseRecOn with
  | nil => rfl
  | append_singleton ops op ih =>
    unfold HTable.historySetM HTable.historySet at ih ⊢
    rw [HTable.runSetM_last, HTable.runSet_last, ih]
    cases h : (HTable.newIn E ()).runSet E ops m0 with
    | error e => simp only [Exec.error_bind]
    | ok r =>
      obtain ⟨os, t, m⟩ := r
      have hs := HTable.runSet_state E ops (HTable.newIn E ()) m0
      rw [h] at hs
      cases h3 : (HTable.newIn E ()).run E (ops.map SetOp.toMap) m0 with
      | error e => rw [h3] at hs; cases hs
      | ok r =>
        obtain ⟨os', t', m'⟩ := r
        rw [h3] at hs
        simp only [Except.map, Except.ok.injEq, Prod.mk.injEq] at hs
        obtain ⟨rfl, rfl⟩ := hs
        obtain ⟨h1, h2⟩ := S.room h3
        simp only [Exec.ok_bind, HTable.stepSetM_eq B E op t m h1 fun k _ => h2 k]

/-- C156.  Whatever the build, a history of calls answers as the finite map does, or panics: the
latter exactly if it would take the map past 2557710464 entries. -/
theorem C156_hash_machine_map {E : HEnv K V Unit} {m0 : HMem K V} (S : HSetting E m0) (B : Build)
    (ops : List (MapOp K V)) :
    (MapOp.peak E.eq ops [] ≤ 2557710464 ∧
      ∃ t m, HTable.historyM B E ops m0 = .ok ((MapOp.run E.eq ops []).1, t, m)) ∨
    (2557710464 < MapOp.peak E.eq ops [] ∧ HTable.historyM B E ops m0 = .error .panic) := by
  rw [C156_hash_machine S B ops]
  exact C45_any_history S ops

/-- C156.  If the counts could reach the end of a `u32`, the builds would differ: the policy asked
for one more element wraps its sum in a release build and panics in a debug build. -/
theorem C156_sum_would_wrap (nr bc : Nat) :
    getRehashRequiredM .debug nr bc (2 ^ 32 - 1) 1 = .error .panic ∧
    getRehashRequiredM .release nr bc (2 ^ 32 - 1) 1 = .ok (none, nr) := by
  have e1 : Build.debug.wrapTo (2 ^ 32) (((2 ^ 32 - 1 : Nat) : Int) + ((1 : Nat) : Int)) =
      .error .panic := by decide +kernel
  have e2 : Build.release.wrapTo (2 ^ 32) (((2 ^ 32 - 1 : Nat) : Int) + ((1 : Nat) : Int)) =
      .ok 0 := by decide +kernel
  constructor
  · simp only [getRehashRequiredM, e1, Exec.error_bind]
  · simp only [getRehashRequiredM, e2, Exec.ok_bind, Nat.not_lt_zero, if_false]

/-- Non-vacuity: a map of numbers that grows, in both builds. -/
example (B : Build) : ∃ t m, HTable.historyM B exampleNat [.insert 7 1, .insert 7 2, .len,
    .remove 7, .len, .entry 5 (· + 1) 10, .get 5] exampleHashMem =
    .ok ([.val none, .val (some 1), .nat 1, .val (some 2), .nat 0, .val (some 10),
      .val (some 10)], t, m) := by
  rcases C156_hash_machine_map exampleNat_ok B [.insert 7 1, .insert 7 2, .len,
    .remove 7, .len, .entry 5 (· + 1) 10, .get 5] with ⟨_, h⟩ | ⟨h, _⟩
  · exact h
  · exact absurd h (by decide +kernel)

/-- Non-vacuity: in both builds, one key too many is a panic and not a wrapped count. -/
example (B : Build) : HTable.historyM B exampleNat (countTo 2557710465) exampleHashMem =
    .error .panic := by
  rw [C156_hash_machine exampleNat_ok B]
  refine C53_past_limit_panics exampleNat_ok _ ?_
  have h := (countTo_run 2557710465).2.1
  omega

end Verif
