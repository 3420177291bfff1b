import Verif.Props.HashFreeDepth
import Verif.Props.KeyCalls

/-!
# C151: lookups compare few keys
-/

set_option autoImplicit false

namespace Verif
open Spec

variable {K V : Type} {E : HEnv K V Unit} {m0 : HMem K V}

theorem searched_length_le (eq : K → K → Bool) (k : K) : ∀ l : List K,
    (searched eq k l).length ≤ l.length
  | [] => Nat.le_refl _
  | x :: l => by
    have := searched_length_le eq k l
    simp only [searched]
    split <;> simp [this]

theorem searched_absent {eq : K → K → Bool} {k : K} : ∀ {l : List K},
    (∀ x ∈ l, eq x k = false) → searched eq k l = l
  | [], _ => rfl
  | x :: l, h => by
    simp only [searched, h x (by simp), Bool.false_eq_true, if_false]
    rw [searched_absent fun y hy => h y (by simp [hy])]

theorem keyCalls_get_compares (hash : K → Nat) (eq : K → K → Bool) (k : K) (ks : List K) (n : Nat)
    (g : Bool) : ((MapOp.get k : MapOp K V).keyCalls hash eq ks n g).countP (! KeyCall.isHash ·) =
      (searched eq k (ks.filter fun x => hash x % n = hash k % n)).length := by
  have h1 : ∀ l : List K, (l.map (KeyCall.compared · k)).countP (! KeyCall.isHash ·) = l.length := by
    intro l
    rw [List.countP_map, List.countP_eq_length.2]
    intro x _
    rfl
  have h2 : ∀ l : List K, (l.map KeyCall.hashed).countP (! KeyCall.isHash ·) = 0 := by
    intro l
    rw [List.countP_map, List.countP_eq_zero]
    intro x _
    simp [KeyCall.isHash]
  simp only [MapOp.keyCalls, MapOp.asked, List.countP_append, List.countP_cons, h1]
  cases g
  · simp [KeyCall.isHash]
  · simp [KeyCall.isHash, List.countP_append, h2]

/-- C151, as far as it holds.  After any history, looking up a key compares it with at most the keys
that are in its bucket, with all of them if it is not in the map.  Missing: a bound on their number
that does not grow with the map; there is none, see `C151_lookup_linear`. -/
theorem C151_lookup_compares_partial (S : HSetting E m0) (ops : List (MapOp K V))
    (hpk : MapOp.peak E.eq ops [] ≤ 2557710464) {outs : List (MapOut K V)} {t : HTable Unit}
    {m : HMem K V} (h : HTable.history E ops m0 = .ok (outs, t, m)) (k : K) :
    ∃ keys here log, keys = (MapOp.run E.eq ops []).2.map Prod.fst ∧
      here = inBucket E.hash t.bucketCount (E.hash k % t.bucketCount) keys ∧
      t.stepO E (recordKeys E) (.get k) [] m =
        .ok (some (MapOp.step E.eq (.get k) (MapOp.run E.eq ops []).2).1, log, t, m) ∧
      log.countP (! KeyCall.isHash ·) ≤ here ∧
      ((∀ x ∈ keys, E.eq x k = false) → log.countP (! KeyCall.isHash ·) = here) := by
  obtain ⟨bl, cs, A⟩ := S.after hpk h
  have hroom : ((MapOp.get k : MapOp K V).step E.eq (MapOp.run E.eq ops []).2).2.length ≤
      2557710464 := by
    have := A.count ▸ A.rep.peak
    exact this.trans hpk
  have hout := (step_perm S.equiv A.perm A.rep.core.distinct (.get k)).1
  obtain ⟨t', m', bl', cs', g1, _⟩ := A.rep.step S.law S.equiv S.hash (.get k) (by
    rw [(step_perm S.equiv A.perm A.rep.core.distinct (.get k)).2.length_eq]; exact hroom)
  have hsame : t' = t ∧ m' = m := by
    simp only [HTable.step] at g1
    obtain ⟨o, _, g1⟩ := Exec.bind_ok g1
    simp only [Except.ok.injEq, Prod.mk.injEq] at g1
    exact ⟨g1.2.1.symm, g1.2.2.symm⟩
  obtain ⟨rfl, rfl⟩ := hsame
  obtain ⟨s', hs⟩ := stepO_like (recordKeys_like E) (.get k) [] t' m'
  rw [g1, hout] at hs
  have hs : t'.stepO E (recordKeys E) (.get k) [] m' = .ok (_, s', t', m') := hs
  refine ⟨_, _, s', rfl, rfl, hs, ?_, ?_⟩ <;>
  · rw [A.rep.stepO_rec hs, List.nil_append, keyCalls_get_compares, inBucket,
      ← (A.perm.map Prod.fst).countP_eq, List.countP_eq_length_filter]
    first
    | exact searched_length_le _ _ _
    | intro hx
      rw [searched_absent]
      intro x hx'
      exact hx x ((A.perm.map Prod.fst).mem_iff.1 (List.mem_of_mem_filter hx'))

/-- C151 is false.  With 64-bit integers as keys and the crate's hash of them, there are for every
`n` (up to the most entries a map may have) `n` different keys, and one more, such that looking up
the latter in a map of the former compares it with all of them. -/
theorem C151_lookup_linear {V : Type} {E : HEnv (BitVec 64) V Unit} {m0 : HMem (BitVec 64) V}
    (S : HSetting E m0) (hhash : ∀ k, E.hash k = (hashUnsigned k).toNat)
    (heq : ∀ a b, E.eq a b = (a == b)) (n : Nat) (h0 : 0 < n) (hn : n ≤ 2557710464) :
    ∃ (keys : List (BitVec 64)) (k : BitVec 64), keys.Nodup ∧ keys.length = n ∧ k ∉ keys ∧
      ∀ v : V, ∃ outs t m log,
        HTable.history E (keys.map (.insert · v)) m0 = .ok (outs, t, m) ∧ t.count = n ∧
        t.stepO E (recordKeys E) (.get k) [] m = .ok (some (.val none), log, t, m) ∧
        log.countP (! KeyCall.isHash ·) = n := by
  obtain ⟨p, hp, hp32, hpall⟩ := buckets_of_peak S h0 hn
  have hpn : (n + 1) * p ≤ 2 ^ 64 := calc
    (n + 1) * p ≤ 2 ^ 32 * 2 ^ 32 := Nat.mul_le_mul (by omega) hp32.le
    _ = 2 ^ 64 := by decide
  have hall := multiples_nodup hp hpn
  have hsplit : multiples p (n + 1) = multiples p n ++ [BitVec.ofNat 64 (n * p)] := by
    simp [multiples, List.range_succ]
  have hz : ∀ x ∈ multiples p (n + 1), E.hash x % p = 0 := by
    intro x hx
    rw [hhash, (C66_unsigned_hash (Nat.le_refl 64) x x).1, multiples_toNat hpn hx]
  rw [hsplit] at hall hz
  obtain ⟨hnd, _, hdis⟩ := List.nodup_append.1 hall
  have hk : BitVec.ofNat 64 (n * p) ∉ multiples p n := fun hm => hdis _ hm _ (by simp) rfl
  have hlen : (multiples p n).length = n := by simp [multiples]
  refine ⟨multiples p n, BitVec.ofNat 64 (n * p), hnd, hlen, hk, fun v => ?_⟩
  have hdist : (multiples p n).Pairwise fun a b => E.eq a b = false := by
    refine List.Pairwise.imp ?_ hnd
    intro a b hab
    rw [heq]
    simpa using hab
  have hne : ∀ x ∈ multiples p n, E.eq x (BitVec.ofNat 64 (n * p)) = false := by
    intro x hx
    rw [heq]
    simp only [beq_eq_false_iff_ne, ne_eq]
    rintro rfl
    exact hk hx
  obtain ⟨r1, r2, r4⟩ := run_inserts (eq := E.eq) v (multiples p n) [] (by simp [lookup]) hdist
  have r3 := run_inserts_fst (eq := E.eq) v (multiples p n) [] (by simp [lookup]) hdist
  simp only [List.length_nil, Nat.zero_add, hlen, List.map_nil, List.append_nil] at r1 r2 r3
  have r5 := r4 (BitVec.ofNat 64 (n * p)) rfl hne
  obtain ⟨t, m, bl, cs, e1, A⟩ := S.run ((multiples p n).map (.insert · v)) (by rw [r2]; exact hn)
  have hbc := hpall _ _ _ _ e1 r2
  obtain ⟨keys, here, log, rfl, rfl, g1, _, g2⟩ := C151_lookup_compares_partial S _
    (by rw [r2]; exact hn) e1 (BitVec.ofNat 64 (n * p))
  refine ⟨_, t, m, log, e1, A.count.trans r1, ?_, ?_⟩
  · rw [g1]
    simp only [MapOp.step, r5, Option.map_none]
  · rw [g2 (by rw [r3]; intro x hx; exact hne x (List.mem_reverse.1 hx)), r3, hbc,
      hz (BitVec.ofNat 64 (n * p)) (by simp), inBucket, List.countP_reverse,
      List.countP_eq_length.2, hlen]
    intro x hx
    rw [hz x (by simp [hx])]
    rfl

/-- Instance: seven entries in eleven buckets.  With consecutive keys looking up 77 compares it with
one of them, with multiples of eleven with all seven. -/
example : ([1, 11].map fun p => (do
      let (_, t, m) ← HTable.history exampleU64 ((multiples p 7).map (.insert · 0)) exampleU64Mem
      let (o, log, _, _) ← t.stepO exampleU64 (recordKeys exampleU64) (.get 77) [] m
      .ok (o, log.countP (! KeyCall.isHash ·)) : Exec (Option (MapOut (BitVec 64) Nat) × Nat))) =
    [.ok (some (.val none), 1), .ok (some (.val none), 7)] := by decide +kernel

end Verif
