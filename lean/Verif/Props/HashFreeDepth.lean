import Verif.HashTable.FreeDepth
import Verif.Props.HashTable
import Verif.Props.Hash

/-!
# C150: dropping a hash map needs little stack

`drop` and `clear` free each bucket by recursion along its chain of nodes.  `HTable.dropT` and
`HTable.clearT` are `drop` and `clear` again, with the most calls active at a time.
-/

set_option autoImplicit false

namespace Verif
open Spec

variable {K V : Type} {E : HEnv K V Unit} {m0 : HMem K V}

theorem HAfter.depth {ops : List (MapOp K V)} {t : HTable Unit} {m : HMem K V} {bl : List Nat}
    {cs : List (List (Nat × K × V))} (S : HSetting E m0) (A : HAfter E m0 ops t m bl cs)
    {r : (HTable Unit × HMem K V) × Nat} (h : t.freeBucketsT E m = .ok r) :
    r.2 = fullest E.hash t.bucketCount ((MapOp.run E.eq ops []).2.map Prod.fst) := by
  have hc := A.rep.core
  rw [← fullest_perm (A.perm.map Prod.fst), ← (hc.homes trivial).longest hc.len]
  unfold HTable.freeBucketsT at h
  by_cases h1 : 1 < t.bucketCount
  · rw [if_pos h1] at h
    obtain ⟨⟨⟨a, m1⟩, d⟩, h2, h⟩ := Exec.bind_ok h
    obtain ⟨m2, _, h⟩ := Exec.bind_ok h
    cases h
    rw [hc.start, ← hc.len] at h2
    exact freeChainsT_depth S.law (fuel := t.count + 1) (b := curArr E bl) (post := [sentinel])
      (cs := cs) (ps := []) (pre := []) hc.chains hc.nodup (by have := hc.fits; omega)
      (by rw [List.append_nil]; exact hc.inv) (by simpa [heads] using hc.arr) h2
  · rw [if_neg h1] at h
    cases h
    have hbc : t.bucketCount = 1 := by have := hc.pos; omega
    rw [hc.empty (A.rep.arrs.2 hbc)]
    rfl

/-- C150, as far as it holds.  After any history, dropping or clearing the map has exactly as many
calls active at a time as there are entries in its fullest bucket.  Missing: a bound on that which
is less than the number of entries; there is none, see `C150_drop_depth_linear`. -/
theorem C150_drop_depth_partial (S : HSetting E m0) (ops : List (MapOp K V))
    (hpk : MapOp.peak E.eq ops [] ≤ 2557710464) {outs : List (MapOut K V)} {t : HTable Unit}
    {m : HMem K V} (h : HTable.history E ops m0 = .ok (outs, t, m)) :
    ∃ keys depth, keys = (MapOp.run E.eq ops []).2.map Prod.fst ∧
      depth = fullest E.hash t.bucketCount keys ∧
      (∃ r, t.drop E m = .ok r ∧ t.dropT E m = .ok (r, depth)) ∧
      ∃ r, t.clear E m = .ok r ∧ t.clearT E m = .ok (r, depth) := by
  obtain ⟨bl, cs, A⟩ := S.after hpk h
  refine ⟨_, _, rfl, rfl, ?_⟩
  obtain ⟨a, m', e1, _⟩ := A.rep.freeBuckets S.law
  have e2 := e1
  rw [← HTable.freeBucketsT_fst] at e2
  cases hT : t.freeBucketsT E m with
  | error e => rw [hT] at e2; cases e2
  | ok r =>
    have hd := A.depth S hT
    obtain ⟨r1, d⟩ := r
    rw [hT] at e2
    cases e2
    simp only at hd
    subst hd
    exact ⟨⟨_, by simp [HTable.drop, e1]; rfl, by simp [HTable.dropT, hT]⟩,
      ⟨_, by simp [HTable.clear, e1]; rfl, by simp [HTable.clearT, hT]⟩⟩

theorem prime_lt {p : Nat} (h : p ∈ primeTable) : p < 2 ^ 32 := by
  have : ∀ p ∈ primeTable, p < 2 ^ 32 := by decide +kernel
  exact this p h

theorem run_inserts_fst {eq : K → K → Bool} (v : V) : ∀ (ks : List K) (s : List (K × V)),
    (∀ k ∈ ks, lookup eq s k = none) → ks.Pairwise (fun a b => eq a b = false) →
    (MapOp.run eq (ks.map fun k => .insert k v) s).2.map Prod.fst = ks.reverse ++ s.map Prod.fst := by
  intro ks
  induction ks with
  | nil => intro s _ _; rfl
  | cons k ks ih =>
    intro s hn hd
    rw [List.pairwise_cons] at hd
    have hstep : (MapOp.step eq (.insert k v) s).2 = (k, v) :: s := by
      simp only [MapOp.step, hn k (by simp)]
    have := ih ((k, v) :: s) (by
      intro k' hk'
      rw [lookup_cons, hd.1 k' hk', hn k' (by simp [hk'])]; simp) hd.2
    simp only [List.map_cons, MapOp.run, hstep, this]
    simp

/-- The number of buckets does not depend on the keys. -/
theorem buckets_of_peak (S : HSetting E m0) {n : Nat} (h0 : 0 < n) (hn : n ≤ 2557710464) :
    ∃ p, 0 < p ∧ p < 2 ^ 32 ∧ ∀ (ops : List (MapOp K V)) (outs : List (MapOut K V))
      (t : HTable Unit) (m : HMem K V), HTable.history E ops m0 = .ok (outs, t, m) →
      MapOp.peak E.eq ops [] = n → t.bucketCount = p := by
  by_cases hex : ∃ (ops : List (MapOp K V)) (outs : List (MapOut K V)) (t : HTable Unit)
      (m : HMem K V), HTable.history E ops m0 = .ok (outs, t, m) ∧ MapOp.peak E.eq ops [] = n
  · obtain ⟨ops, outs, t, m, h, hpk⟩ := hex
    have hpr := (C52_bucket_counts_prime S ops (by omega) h).2 (by omega)
    refine ⟨t.bucketCount, hpr.2.pos, prime_lt hpr.1, ?_⟩
    intro ops' outs' t' m' h' hpk'
    exact (C52_bucket_counts_determined S S ops' ops (by omega) (by omega) h' h).2 (by omega)
  · exact ⟨1, Nat.one_pos, by decide, fun ops outs t m h hpk =>
      absurd ⟨ops, outs, t, m, h, hpk⟩ hex⟩

/-- The multiples of `p` below `n * p`, as 64-bit integers. -/
def multiples (p n : Nat) : List (BitVec 64) := (List.range n).map fun i => BitVec.ofNat 64 (i * p)

theorem multiples_nodup {p n : Nat} (hp : 0 < p) (hn : n * p ≤ 2 ^ 64) : (multiples p n).Nodup := by
  refine List.Nodup.map_on ?_ List.nodup_range
  intro a ha b hb he
  have h1 := congrArg BitVec.toNat he
  have la : a * p < 2 ^ 64 := Nat.lt_of_lt_of_le
    (Nat.mul_lt_mul_of_pos_right (List.mem_range.1 ha) hp) hn
  have lb : b * p < 2 ^ 64 := Nat.lt_of_lt_of_le
    (Nat.mul_lt_mul_of_pos_right (List.mem_range.1 hb) hp) hn
  rw [BitVec.toNat_ofNat, BitVec.toNat_ofNat, Nat.mod_eq_of_lt la, Nat.mod_eq_of_lt lb] at h1
  exact Nat.eq_of_mul_eq_mul_right hp h1

theorem multiples_toNat {p n : Nat} (hn : n * p ≤ 2 ^ 64) {k : BitVec 64} (hk : k ∈ multiples p n) :
    k.toNat % p = 0 := by
  obtain ⟨i, hi, rfl⟩ := List.mem_map.1 hk
  have hle : (i + 1) * p ≤ n * p := Nat.mul_le_mul_right p (List.mem_range.1 hi)
  rw [Nat.add_mul] at hle
  by_cases hp : p = 0
  · simp [hp]
  · have hlt : i * p < 2 ^ 64 := by omega
    rw [BitVec.toNat_ofNat, Nat.mod_eq_of_lt hlt, Nat.mul_mod_left]

/-- C150 is false.  With 64-bit integers as keys and the crate's hash of them, there are for every
`n` (up to the most entries a map may have) `n` different keys such that dropping, or clearing, the
map they are inserted into has `n` calls active at a time. -/
theorem C150_drop_depth_linear {V : Type} {E : HEnv (BitVec 64) V Unit} {m0 : HMem (BitVec 64) V}
    (S : HSetting E m0) (hhash : ∀ k, E.hash k = (hashUnsigned k).toNat)
    (heq : ∀ a b, E.eq a b = (a == b)) (n : Nat) (hn : n ≤ 2557710464) :
    ∃ keys : List (BitVec 64), keys.Nodup ∧ keys.length = n ∧ ∀ v : V, ∃ outs t m,
      HTable.history E (keys.map (.insert · v)) m0 = .ok (outs, t, m) ∧ t.count = n ∧
      (∃ r, t.drop E m = .ok r ∧ t.dropT E m = .ok (r, n)) ∧
      ∃ r, t.clear E m = .ok r ∧ t.clearT E m = .ok (r, n) := by
  have hdist : ∀ {ks : List (BitVec 64)}, ks.Nodup → ks.Pairwise fun a b => E.eq a b = false := by
    intro ks h
    refine List.Pairwise.imp ?_ h
    intro a b hab
    rw [heq]
    simpa using hab
  by_cases h0 : n = 0
  · subst h0
    refine ⟨[], List.nodup_nil, rfl, fun v => ?_⟩
    obtain ⟨t, m, bl, cs, e1, A⟩ := S.run [] (by simp [MapOp.peak])
    obtain ⟨keys, d, rfl, hd, hdrop⟩ := C150_drop_depth_partial S [] (by simp [MapOp.peak]) e1
    have hz : d = 0 := by
      rw [hd]
      refine Nat.le_zero.1 (foldr_max_le ?_)
      intro x hx
      obtain ⟨i, _, rfl⟩ := List.mem_map.1 hx
      simp [inBucket, MapOp.run]
    rw [hz] at hdrop
    exact ⟨_, t, m, e1, A.count, hdrop⟩
  obtain ⟨p, hp, hp32, hpall⟩ := buckets_of_peak S (by omega) hn
  have hpn : n * p ≤ 2 ^ 64 := calc
    n * p ≤ 2 ^ 32 * 2 ^ 32 := Nat.mul_le_mul (by omega) hp32.le
    _ = 2 ^ 64 := by decide
  have hnd := multiples_nodup hp hpn
  refine ⟨multiples p n, hnd, by simp [multiples], fun v => ?_⟩
  have hlen : (multiples p n).length = n := by simp [multiples]
  obtain ⟨r1, r2, _⟩ := run_inserts (eq := E.eq) v (multiples p n) [] (by simp [lookup]) (hdist hnd)
  have r3 := run_inserts_fst (eq := E.eq) v (multiples p n) [] (by simp [lookup]) (hdist hnd)
  simp only [List.length_nil, Nat.zero_add, hlen, List.map_nil, List.append_nil] at r1 r2 r3
  obtain ⟨t, m, bl, cs, e1, A⟩ := S.run ((multiples p n).map (.insert · v)) (by rw [r2]; exact hn)
  have hbc := hpall _ _ _ _ e1 r2
  obtain ⟨keys, d, rfl, hd, hdrop⟩ := C150_drop_depth_partial S _ (by rw [r2]; exact hn) e1
  have hdn : d = n := by
    rw [hd, r3, hbc]
    have hall : inBucket E.hash p 0 (multiples p n).reverse = n := by
      rw [inBucket, List.countP_reverse, List.countP_eq_length.2, hlen]
      intro k hk
      rw [hhash, (C66_unsigned_hash (Nat.le_refl 64) k k).1, multiples_toNat hpn hk]
      rfl
    apply Nat.le_antisymm
    · refine foldr_max_le ?_
      intro x hx
      obtain ⟨i, _, rfl⟩ := List.mem_map.1 hx
      refine List.countP_le_length.trans ?_
      rw [List.length_reverse, hlen]
    · refine hall.ge.trans (foldr_max_ge ?_)
      exact List.mem_map.2 ⟨0, List.mem_range.2 hp, rfl⟩
  rw [hdn] at hdrop
  exact ⟨_, t, m, e1, A.count.trans r1, hdrop⟩

/-- A map keyed by 64-bit integers with the crate's hash. -/
def exampleU64 : HEnv (BitVec 64) Nat Unit where
  hash k := (hashUnsigned k).toNat
  eq a b := a == b
  size := 24
  align := 8
  ndK := false
  ndV := false
  A := defaultNAlloc Placer.bump none true
  R := RawAlloc.bump
  stat := 0

/-- Memory in which there is only the static bucket array. -/
def exampleU64Mem : HMem (BitVec 64) Nat where
  n := NMem.empty
  b := (exampleHashMem (V := Nat)).b

theorem exampleU64_ok : HSetting exampleU64 exampleU64Mem where
  alloc := ⟨_, rfl⟩
  size := show 0 < 24 by decide
  equiv :=
    { symm := by intro a b h; simp [exampleU64] at h ⊢; exact h.symm
      trans := by intro a b c h h'; simp [exampleU64] at h h' ⊢; exact h.trans h' }
  hash := by intro a b h; simp [exampleU64] at h ⊢; rw [h]
  wf :=
    { disj := by intro a b r r' h; cases h
      cover := by intro q h; exact absurd rfl h
      null := by intro a r h; cases h }
  static := (exampleHash_ok (fun _ => 0) (by simp)).static

/-- Instance: seven entries in eleven buckets, with keys that are consecutive, and multiples of
eleven. -/
example : (do
      let (_, t, m) ← HTable.history exampleU64 ((multiples 1 7).map (.insert · 0)) exampleU64Mem
      let (_, d) ← t.dropT exampleU64 m
      let (_, t', m') ← HTable.history exampleU64 ((multiples 11 7).map (.insert · 0)) exampleU64Mem
      let (_, d') ← t'.dropT exampleU64 m'
      let (_, d'') ← t'.clearT exampleU64 m'
      .ok ([t.bucketCount, t'.bucketCount], [d, d', d''])) =
    (.ok ([11, 11], [1, 7, 7]) : Exec (List Nat × List Nat)) := by decide +kernel

example : HSetting exampleU64 exampleU64Mem ∧
    (∀ k, exampleU64.hash k = (hashUnsigned k).toNat) ∧ ∀ a b, exampleU64.eq a b = (a == b) :=
  ⟨exampleU64_ok, fun _ => rfl, fun _ _ => rfl⟩

end Verif
