import Verif.HashTable.Two
import Verif.Spec.Interleave
import Verif.HashTable.Primes

/-!
# Properties of `HashMap`, `HashSet` and the hash table under them (C45–C59, C71, C72)

The theorems hold for every key and value type, every equivalence used as key equality, every
hash function that respects it, every node layout, with or without destructors, every placement
of nodes and bucket arrays by the global allocator, including reuse of freed addresses, every
well-formed memory the map was created in, and every history `ops` of calls in which the map
never holds more than 2557710464 entries.  (At that size the next new key panics: C53.)
-/

set_option autoImplicit false

namespace Verif
open Spec

variable {K V : Type}

/-- Where a hash map may be used. -/
structure HSetting (E : HEnv K V Unit) (m0 : HMem K V) : Prop where
  /-- nodes come from the default allocator, whatever its placement of blocks -/
  alloc : ∃ P, E.A = defaultNAlloc P none true
  size : 0 < E.size
  /-- the contract of `PartialEq`; keys may be unequal to themselves -/
  equiv : PartialEquiv E.eq
  hash : ∀ a b, E.eq a b = true → E.hash a = E.hash b
  wf : m0.n.WF
  /-- the static array of one empty bucket and the sentinel -/
  static : ArrIs m0.b E.stat [0, 2 ^ 64 - 1]

/-- A new map put through the calls `ops`. -/
def HTable.history (E : HEnv K V Unit) (ops : List (MapOp K V)) (m0 : HMem K V) :
    Exec (List (MapOut K V) × HTable Unit × HMem K V) :=
  (HTable.newIn E ()).run E ops m0

variable {E : HEnv K V Unit} {m0 : HMem K V}

theorem HSetting.law (S : HSetting E m0) : HLaw E (DefInv m0.n E.size E.align) := by
  obtain ⟨P, hP⟩ := S.alloc
  unfold HLaw
  rw [hP]
  exact defaultNAlloc_law P none true S.size (by simp) m0.n

theorem HSetting.init (S : HSetting E m0) :
    HRep True E (DefInv m0.n E.size E.align) m0.b.live m0.n.node m0 (HTable.newIn E ()) 0 [] [[]] :=
  HRep.init S.static (DefInv.init S.wf E.size E.align)

/-- What is known after a history. -/
structure HAfter (E : HEnv K V Unit) (m0 : HMem K V) (ops : List (MapOp K V)) (t : HTable Unit)
    (m : HMem K V) (bl : List Nat) (cs : List (List (Nat × K × V))) : Prop where
  rep : HRep True E (DefInv m0.n E.size E.align) m0.b.live m0.n.node m t (MapOp.peak E.eq ops []) bl cs
  perm : (ents cs).Perm (MapOp.run E.eq ops []).2
  drops : m.n.dropped.Perm (m0.n.dropped ++ (MapOp.allDrops E.eq ops []).filter E.needs)
  arrays : bl = [] → MapOp.peak E.eq ops [] = 0

theorem HSetting.run (S : HSetting E m0) (ops : List (MapOp K V))
    (hpk : MapOp.peak E.eq ops [] ≤ 2557710464) :
    ∃ t m bl cs, HTable.history E ops m0 = .ok ((MapOp.run E.eq ops []).1, t, m) ∧
      HAfter E m0 ops t m bl cs := by
  obtain ⟨t, m, bl, cs, e1, e2, e3, e4, _, e6⟩ := S.init.run S.law S.equiv S.hash ops hpk
  exact ⟨t, m, bl, cs, e1, e2.setCore e2.core rfl rfl e2.peak (Nat.zero_max _) e2.count, e3, e4, e6 rfl⟩

theorem HSetting.after (S : HSetting E m0) {ops : List (MapOp K V)} {outs : List (MapOut K V)}
    {t : HTable Unit} {m : HMem K V} (hpk : MapOp.peak E.eq ops [] ≤ 2557710464)
    (h : HTable.history E ops m0 = .ok (outs, t, m)) : ∃ bl cs, HAfter E m0 ops t m bl cs := by
  obtain ⟨t', m', bl, cs, e1, e2⟩ := S.run ops hpk
  rw [e1] at h
  simp only [Except.ok.injEq, Prod.mk.injEq] at h
  obtain ⟨_, rfl, rfl⟩ := h
  exact ⟨bl, cs, e2⟩

theorem HAfter.look {ops : List (MapOp K V)} {t : HTable Unit} {m : HMem K V} {bl : List Nat}
    {cs : List (List (Nat × K × V))} (h : HAfter E m0 ops t m bl cs) (he : PartialEquiv E.eq) (k : K) :
    lookup E.eq (ents cs) k = lookup E.eq (MapOp.run E.eq ops []).2 k :=
  lookup_perm he h.perm h.rep.core.distinct k

theorem HAfter.count {ops : List (MapOp K V)} {t : HTable Unit} {m : HMem K V} {bl : List Nat}
    {cs : List (List (Nat × K × V))} (h : HAfter E m0 ops t m bl cs) :
    t.count = (MapOp.run E.eq ops []).2.length := by
  rw [h.rep.count, ← ents_length, h.perm.length_eq]

theorem HAfter.distinct {ops : List (MapOp K V)} {t : HTable Unit} {m : HMem K V} {bl : List Nat}
    {cs : List (List (Nat × K × V))} (h : HAfter E m0 ops t m bl cs) (he : PartialEquiv E.eq) :
    Distinct E.eq (MapOp.run E.eq ops []).2 := h.rep.core.distinct.perm he h.perm

/-! ## A concrete map -/

/-- A map from numbers to numbers hashed by `hash`, whose keys are equal when they agree modulo
100. -/
def exampleHash (hash : Nat → Nat) : HEnv Nat Nat Unit where
  hash := hash
  eq a b := a % 100 == b % 100
  size := 24
  align := 8
  ndK := true
  ndV := true
  A := defaultNAlloc Placer.bump none true
  R := RawAlloc.bump
  stat := 0

/-- Memory in which there is only the static bucket array. -/
def exampleHashMem {V : Type} : HMem Nat V where
  n := NMem.empty
  b := Mem.empty.setBlock 0
    (some ⟨2, .inline, fun i => if i = 0 then some 0 else some (2 ^ 64 - 1)⟩)

theorem exampleHash_ok (hash : Nat → Nat) (hh : ∀ a b, a % 100 = b % 100 → hash a = hash b) :
    HSetting (exampleHash hash) exampleHashMem where
  alloc := ⟨_, rfl⟩
  size := show 0 < 24 by decide
  equiv :=
    { symm := by intro a b h; simp [exampleHash] at h ⊢; omega
      trans := by intro a b c h h'; simp [exampleHash] at h h' ⊢; omega }
  hash := by intro a b h; simp [exampleHash] at h ⊢; exact hh a b h
  wf :=
    { disj := by intro a b r r' h; cases h
      cover := by intro q h; exact absurd rfl h
      null := by intro a r h; cases h }
  static := ⟨_, rfl, rfl, by
    intro i hi
    match i, hi with
    | 0, _ => rfl
    | 1, _ => rfl⟩

/-! ## C45 -/

/-- C45.  Every history runs without panic and without following a dangling pointer, returns what
the same history on a finite map returns, and leaves all memory that is not the map's own
untouched. -/
theorem C45_hash_map_refines_map (S : HSetting E m0) (ops : List (MapOp K V))
    (hpk : MapOp.peak E.eq ops [] ≤ 2557710464) :
    ∃ t m, HTable.history E ops m0 = .ok ((MapOp.run E.eq ops []).1, t, m) ∧
      (∀ q, m0.n.node q ≠ none → m.n.node q = m0.n.node q) ∧
      ∀ b, m0.b.live b ≠ none → m.b.live b = m0.b.live b := by
  obtain ⟨t, m, bl, cs, e1, e2⟩ := S.run ops hpk
  refine ⟨t, m, e1, fun q hq => (e2.rep.core.keep q hq).2, fun b hb => e2.rep.core.out b fun hm => ?_⟩
  exact hb (e2.rep.core.blNew b hm).1

/-- The history used in examples: colliding keys, equal but not identical keys, three rehashes. -/
def exampleHashOps : List (MapOp Nat Nat) :=
  [.insert 1 10, .insert 7 70, .insert 101 11, .insert 13 130, .get 201, .entry 7 (· + 1) 0,
    .entry 19 (· + 1) 5, .remove 113, .removeEntry 113, .insert 25 1, .insert 31 2, .insert 37 3,
    .modify 25 (· + 7), .removeEntry 101, .contains 1, .contains 37, .len]

/-- Non-vacuity of C45, with the worst hash function and with a good one. -/
example : MapOp.peak (exampleHash (fun _ => 5)).eq exampleHashOps [] ≤ 2557710464 ∧
    HSetting (exampleHash (fun _ => 5)) exampleHashMem ∧
    HSetting (exampleHash (· % 100)) exampleHashMem ∧
    (do
      let (os, _, _) ← HTable.history (exampleHash (fun _ => 5)) exampleHashOps exampleHashMem
      .ok os) =
    (.ok [.val none, .val none, .val (some 10), .val none, .val (some 11), .val (some 71),
      .val (some 5), .val (some 130), .pair none, .val none, .val none, .val none, .val (some 1),
      .pair (some (1, 11)), .bool false, .bool true, .nat 5] : Exec (List (MapOut Nat Nat))) :=
  ⟨by decide, exampleHash_ok _ (by simp), exampleHash_ok _ (by simp), by decide +kernel⟩

/-! ## C46 -/

/-- C46.  After any history `len` is the number of keys present: the map holds that many entries,
no two with equal keys, `contains_key` finds exactly those, and `is_empty` agrees. -/
theorem C46_hash_len_counts_keys (S : HSetting E m0) (ops : List (MapOp K V))
    (hpk : MapOp.peak E.eq ops [] ≤ 2557710464) {outs : List (MapOut K V)} {t : HTable Unit}
    {m : HMem K V} (h : HTable.history E ops m0 = .ok (outs, t, m)) :
    ∃ es : List (K × V), es.Perm (MapOp.run E.eq ops []).2 ∧ Distinct E.eq es ∧
      t.step E .len m = .ok (.nat es.length, t, m) ∧
      t.step E .isEmpty m = .ok (.bool es.isEmpty, t, m) ∧
      ∀ k, t.step E (.contains k) m = .ok (.bool (es.any fun p => E.eq p.1 k), t, m) := by
  obtain ⟨bl, cs, A⟩ := S.after hpk h
  have hc := A.rep.count
  rw [← ents_length] at hc
  refine ⟨ents cs, A.perm, A.rep.core.distinct, ?_, ?_, ?_⟩
  · simp only [HTable.step, hc]
  · simp only [HTable.step, hc]
    cases ents cs <;> simp
  · intro k
    simp only [HTable.step, HTable.containsKey, A.rep.core.get S.equiv S.hash, Exec.ok_bind, lookup,
      List.isSome_find?]

/-- Non-vacuity of C46. -/
example : (do
      let (_, t, m) ← HTable.history (exampleHash (· % 100)) exampleHashOps exampleHashMem
      let (a, _, _) ← t.step (exampleHash (· % 100)) .len m
      let (b, _, _) ← t.step (exampleHash (· % 100)) (.contains 107) m
      .ok [a, b]) = (.ok [.nat 5, .bool true] : Exec (List (MapOut Nat Nat))) := by
  decide +kernel

/-! ## C47 -/

/-- C47.  Iteration yields each entry of the map exactly once, in some fixed order `es`, then
`None` for ever; it changes nothing. -/
theorem C47_hash_iterates_once (S : HSetting E m0) (ops : List (MapOp K V))
    (hpk : MapOp.peak E.eq ops [] ≤ 2557710464) {outs : List (MapOut K V)} {t : HTable Unit}
    {m : HMem K V} (h : HTable.history E ops m0 = .ok (outs, t, m)) :
    ∃ it es, t.iter m = .ok it ∧ es.Perm (MapOp.run E.eq ops []).2 ∧ Distinct E.eq es ∧
      ∀ n, ∃ it', it.run m n = .ok ((List.range n).map fun i => es[i]?, it') := by
  obtain ⟨bl, cs, A⟩ := S.after hpk h
  obtain ⟨it, c, ds, e1, e2, e3⟩ := A.rep.core.iter
  refine ⟨it, ents cs, e1, A.perm, A.rep.core.distinct, fun n => ?_⟩
  obtain ⟨it', c', ds', f1, f2, f3⟩ := e2.run n
  rw [e3] at f1
  exact ⟨it', f1⟩

/-- C47.  Replacing every value during `iter_mut` visits every entry, and the map then behaves, for
all later histories, as the finite map with all values replaced. -/
theorem C47_hash_iter_mut_updates (S : HSetting E m0) (ops : List (MapOp K V))
    (hpk : MapOp.peak E.eq ops [] ≤ 2557710464) {outs : List (MapOut K V)} {t : HTable Unit}
    {m : HMem K V} (h : HTable.history E ops m0 = .ok (outs, t, m)) (f : K → V → V) :
    ∃ it m', t.iter m = .ok it ∧ it.updateAll f (t.count + 1) m = .ok m' ∧
      ∀ more : List (MapOp K V),
        MapOp.peak E.eq more ((MapOp.run E.eq ops []).2.map fun p => (p.1, f p.1 p.2)) ≤ 2557710464 →
        ∃ t' m'', t.run E more m' =
          .ok ((MapOp.run E.eq more ((MapOp.run E.eq ops []).2.map fun p => (p.1, f p.1 p.2))).1,
            t', m'') := by
  obtain ⟨bl, cs, A⟩ := S.after hpk h
  obtain ⟨it, m', e1, e2, e3, e4⟩ := A.rep.updateAll S.law f
  refine ⟨it, m', e1, e2, fun more hm => ?_⟩
  have hp : (ents (mapVals f cs)).Perm
      ((MapOp.run E.eq ops []).2.map fun p => (p.1, f p.1 p.2)) := by
    rw [e4]; exact A.perm.map _
  obtain ⟨t', m'', _, _, f1, _⟩ := e3.run S.law S.equiv S.hash more
    (by rw [(allDrops_perm S.equiv more hp e3.core.distinct).2]; exact hm)
  rw [(run_perm S.equiv more hp e3.core.distinct).1] at f1
  exact ⟨t', m'', f1⟩

/-- Non-vacuity of C47: five entries, then `None`; doubling all values by `iter_mut`. -/
example : (do
      let (_, t, m) ← HTable.history (exampleHash (· % 100)) exampleHashOps exampleHashMem
      let it ← t.iter m
      let (a, _) ← it.run m 7
      let m ← it.updateAll (fun _ v => 2 * v) (t.count + 1) m
      let (b, _) ← it.run m 6
      .ok (a, b)) = (.ok ([some (25, 8), some (37, 3), some (7, 71), some (19, 5), some (31, 2),
        none, none], [some (25, 16), some (37, 6), some (7, 142), some (19, 10), some (31, 4), none]) :
          Exec (List (Option (Nat × Nat)) × List (Option (Nat × Nat)))) := by
  decide +kernel

/-! ## C48 -/

/-- C48.  A rehash to any number of buckets keeps every entry, each in the node it was in, puts
every node into the bucket its hash selects, and no lookup can tell.  (`dump` lists the nodes,
address, key and value, bucket by bucket.) -/
theorem C48_rehash_invisible (S : HSetting E m0) (ops : List (MapOp K V))
    (hpk : MapOp.peak E.eq ops [] ≤ 2557710464) {outs : List (MapOut K V)} {t : HTable Unit}
    {m : HMem K V} (h : HTable.history E ops m0 = .ok (outs, t, m)) {bc : Nat} (hbc : 0 < bc) :
    ∃ cs t' m' cs', t.dump m = .ok cs ∧ t.rehash E bc m = .ok (t', m') ∧ t'.dump m' = .ok cs' ∧
      cs'.flatten.Perm cs.flatten ∧ cs'.length = bc ∧ t'.count = t.count ∧
      (∀ i c, cs'[i]? = some c → ∀ n ∈ c, E.hash n.2.1 % bc = i) ∧
      m'.n.dropped = m.n.dropped ∧ (∀ k, t'.get E k m' = t.get E k m) := by
  obtain ⟨bl, cs, A⟩ := S.after hpk h
  obtain ⟨t', m', nb, cs', e1, e2, e3, e4, e5, e6, e7, e8⟩ := A.rep.core.rehash S.law (fun _ => S.equiv) hbc
  refine ⟨cs, t', m', cs', A.rep.core.dump, e1, e2.dump, e3, e2.len.trans e4, e5, ?_, e7, ?_⟩
  · have := e2.home
    rw [e4] at this
    exact this
  · intro k
    rw [e2.get S.equiv S.hash, A.rep.core.get S.equiv S.hash]
    exact congrArg _ (lookup_perm S.equiv (e3.map _) e2.distinct k)

/-- C48.  The rehash that an insertion triggers moves nothing either: across any call, an entry
that is in the map before and after keeps its node and its key. -/
theorem C48_nodes_stay (S : HSetting E m0) (ops : List (MapOp K V)) (op : MapOp K V)
    (hpk : MapOp.peak E.eq (ops ++ [op]) [] ≤ 2557710464) {outs : List (MapOut K V)}
    {t t' : HTable Unit} {m m' : HMem K V} {o : MapOut K V}
    (h : HTable.history E ops m0 = .ok (outs, t, m)) (h' : t.step E op m = .ok (o, t', m')) :
    ∃ cs cs', t.dump m = .ok cs ∧ t'.dump m' = .ok cs' ∧
      ∀ n ∈ cs.flatten, ∀ n' ∈ cs'.flatten, E.eq n.2.1 n'.2.1 = true →
        n.1 = n'.1 ∧ n.2.1 = n'.2.1 := by
  have hsplit : ∀ (ops : List (MapOp K V)) (s : List (K × V)),
      MapOp.peak E.eq (ops ++ [op]) s = max (MapOp.peak E.eq ops s)
        (op.step E.eq (MapOp.run E.eq ops s).2).2.length := by
    intro ops
    induction ops with
    | nil => intro s; simp only [List.nil_append, MapOp.peak, MapOp.run]
    | cons a ops ih => intro s; simp only [List.cons_append, MapOp.peak, MapOp.run, ih]; omega
  rw [hsplit] at hpk
  obtain ⟨bl, cs, A⟩ := S.after (by omega) h
  have hst := step_perm S.equiv A.perm A.rep.core.distinct op
  obtain ⟨t2, m2, bl2, cs2, e1, e2⟩ := A.rep.step S.law S.equiv S.hash op (by
    rw [hst.2.length_eq]; unfold maxEntries; omega)
  rw [h'] at e1
  simp only [Except.ok.injEq, Prod.mk.injEq] at e1
  obtain ⟨_, rfl, rfl⟩ := e1
  exact ⟨cs, cs2, A.rep.core.dump, e2.rep.core.dump, e2.stable⟩

/-- Non-vacuity of C48: the third insertion rehashes from 2 to 5 buckets. -/
example : (do
      let (_, t, m) ← HTable.history (exampleHash (· % 100)) [.insert 1 10, .insert 7 70]
        exampleHashMem
      let (_, t', m') ← t.step (exampleHash (· % 100)) (.insert 6 60) m
      let (t'', m'') ← t'.rehash (exampleHash (· % 100)) 3 m'
      .ok [← t.dump m, ← t'.dump m', ← t''.dump m'']) =
    (.ok [[[], [(264, 7, 70), (8, 1, 10)]],
      [[], [(2312, 6, 60), (8, 1, 10)], [(264, 7, 70)], [], []],
      [[(2312, 6, 60)], [(264, 7, 70), (8, 1, 10)], []]] :
      Exec (List (List (List (Nat × Nat × Nat))))) := by
  decide +kernel

/-! ## C49 -/

/-- C49.  `insert k v` returns the value `k` had, if any; the length grows by one exactly when `k`
was absent; afterwards `k`, and every key equal to it, is bound to `v` under the key stored first,
and every other binding is as before. -/
theorem C49_hash_insert (S : HSetting E m0) (ops : List (MapOp K V))
    (hpk : MapOp.peak E.eq ops [] ≤ 2557710464) {outs : List (MapOut K V)} {t : HTable Unit}
    {m : HMem K V} (h : HTable.history E ops m0 = .ok (outs, t, m)) (k : K) (v : V)
    (hroom : (lookup E.eq (MapOp.run E.eq ops []).2 k).isSome ∨ t.count < 2557710464) :
    ∃ old t' m', t.get E k m = .ok old ∧ t.insert E k v m = .ok (old.map Prod.snd, t', m') ∧
      t'.count = (if old.isSome then t.count else t.count + 1) ∧
      ∀ k', t'.get E k' m' =
        if E.eq k k' then .ok (some ((old.map Prod.fst).getD k, v)) else t.get E k' m := by
  obtain ⟨bl, cs, A⟩ := S.after hpk h
  have hlen := run_le_peak E.eq ops []
  rw [← A.look S.equiv] at hroom
  have hmax : ((MapOp.insert k v).step E.eq (ents cs)).2.length ≤ maxEntries := by
    have hc := A.count
    have hl := A.perm.length_eq
    simp only [MapOp.step]
    unfold maxEntries
    cases hk : lookup E.eq (ents cs) k with
    | none =>
      rw [hk] at hroom
      simp at hroom ⊢; omega
    | some p => simp [setVal]; omega
  obtain ⟨t', m', bl', cs', e1, e2⟩ := A.rep.step S.law S.equiv S.hash (.insert k v) hmax
  simp only [HTable.step] at e1
  obtain ⟨⟨o, t2, m2⟩, h1, h2⟩ := Exec.bind_ok e1
  simp only [Except.ok.injEq, Prod.mk.injEq] at h2
  obtain ⟨h2, rfl, rfl⟩ := h2
  refine ⟨lookup E.eq (ents cs) k, t2, m2, A.rep.core.get S.equiv S.hash k, ?_, ?_, ?_⟩
  · rw [h1]
    simp only [MapOp.step] at h2
    cases hk : lookup E.eq (ents cs) k <;> rw [hk] at h2 <;> simp only [MapOut.val.injEq] at h2 <;>
      rw [h2] <;> rfl
  · rw [e2.rep.count, A.rep.count, ← ents_length, e2.perm.length_eq, ← ents_length]
    simp only [MapOp.step]
    cases hk : lookup E.eq (ents cs) k <;> simp [setVal]
  · intro k'
    rw [e2.rep.core.get S.equiv S.hash, A.rep.core.get S.equiv S.hash]
    rw [(lookup_perm S.equiv e2.perm e2.rep.core.distinct k'),
      lookup_step_insert S.equiv A.rep.core.distinct]
    split <;> rfl

/-- Non-vacuity of C49: the key 1 stays when 101 is inserted. -/
example : (do
      let (_, t, m) ← HTable.history (exampleHash (· % 100)) exampleHashOps exampleHashMem
      let (o, t, m) ← t.insert (exampleHash (· % 100)) 107 9 m
      .ok (o, t.count, ← t.get (exampleHash (· % 100)) 7 m)) =
    (.ok (some 71, 5, some (7, 9)) : Exec (Option Nat × Nat × Option (Nat × Nat))) := by
  decide +kernel

/-! ## C50 -/

/-- C50.  `entry(k).and_modify(f).or_insert_with(g)`, `g` being a closure with an effect on the
caller's state `s`.  If `k` is present its value `x` becomes `f x` and `g` is not called; if not,
`g` is called once and its result inserted under `k`.  Nothing else changes, and the reference
returned is to the value bound to `k`, even if the insertion rehashed: a write through it changes
that binding and no other. -/
theorem C50_hash_entry {St : Type} (S : HSetting E m0) (ops : List (MapOp K V))
    (hpk : MapOp.peak E.eq ops [] ≤ 2557710464) {outs : List (MapOut K V)} {t : HTable Unit}
    {m : HMem K V} (h : HTable.history E ops m0 = .ok (outs, t, m)) (k : K) (f : V → V)
    (g : St → V × St) (s : St)
    (hroom : (lookup E.eq (MapOp.run E.eq ops []).2 k).isSome ∨ t.count < 2557710464) :
    ∃ old new e m1 m2 r t' m', t.get E k m = .ok old ∧
      new = (match old with | some p => (p.1, f p.2) | none => (k, (g s).1)) ∧
      t.entry E k m = .ok (e, m1) ∧ e.andModify f m1 = .ok m2 ∧
      e.orInsertWith E g s t m2 = .ok (r, if old.isSome then s else (g s).2, t', m') ∧
      t'.count = (if old.isSome then t.count else t.count + 1) ∧
      (∀ k', t'.get E k' m' = if E.eq k k' then .ok (some new) else t.get E k' m) ∧
      ∀ x, ∃ m'', m'.modify r (fun c => { c with val := x }) = .ok m'' ∧
        ∀ k', t'.get E k' m'' = if E.eq k k' then .ok (some (new.1, x)) else t.get E k' m := by
  obtain ⟨bl, cs, A⟩ := S.after hpk h
  have hlen := run_le_peak E.eq ops []
  rw [← A.look S.equiv] at hroom
  have hmax : ((MapOp.entry k f (g s).1).step E.eq (ents cs)).2.length ≤ maxEntries := by
    have hc := A.count
    have hl := A.perm.length_eq
    simp only [MapOp.step]
    unfold maxEntries
    cases hk : lookup E.eq (ents cs) k with
    | none =>
      rw [hk] at hroom
      simp at hroom ⊢; omega
    | some p => simp [setVal]; omega
  obtain ⟨e, m1, m2, p, t', m', bl', cs', n, e1, e2, e3, e4, e5, e6, e7, e8⟩ :=
    A.rep.entryWith S.law S.equiv S.hash k f g s hmax
  have hlk : ∀ k', lookup E.eq (ents cs') k' = if E.eq k k' then
      some (match lookup E.eq (ents cs) k with | some p => (p.1, f p.2) | none => (k, (g s).1))
      else lookup E.eq (ents cs) k' := by
    intro k'
    refine (lookup_perm S.equiv e5 e4.core.distinct k').trans ?_
    exact lookup_step_entry S.equiv A.rep.core.distinct k f _ k'
  refine ⟨lookup E.eq (ents cs) k, _, e, m1, m2, p, t', m', A.rep.core.get S.equiv S.hash k, rfl, e1,
    e2, e3, ?_, ?_, ?_⟩
  · rw [e4.count, A.rep.count, ← ents_length, e5.length_eq, ← ents_length]
    simp only [MapOp.step]
    cases hk : lookup E.eq (ents cs) k <;> simp [setVal]
  · intro k'
    rw [e4.core.get S.equiv S.hash, A.rep.core.get S.equiv S.hash, hlk]
    split <;> rfl
  · intro x
    rcases e8 with e8 | ⟨e8, e9⟩
    · obtain ⟨m'', cs'', f1, f2, f3⟩ := e4.setRef S.law S.equiv e6 e8 x
      rw [e7] at f1
      refine ⟨m'', f1, fun k' => ?_⟩
      have hk := hlk k
      rw [if_pos (S.equiv.trans _ _ _ (S.equiv.symm _ _ e8) e8)] at hk
      rw [f2.core.get S.equiv S.hash, A.rep.core.get S.equiv S.hash, f3,
        lookup_setVal S.equiv e4.core.distinct hk, hlk]
      split <;> rfl
    · obtain ⟨m'', cs'', P, Q, f1, f2, f3, f4⟩ := e4.setRefAny S.law e6 x
      rw [e7] at f1
      refine ⟨m'', f1, fun k' => ?_⟩
      have hkn : ∀ k', E.eq k k' = false := by
        intro k'
        cases hk : E.eq k k' with
        | false => rfl
        | true => rw [S.equiv.trans _ _ _ hk (S.equiv.symm _ _ hk)] at e9; cases e9
      have hl := hlk k'
      rw [f3, hkn, if_neg Bool.false_ne_true] at hl
      rw [f2.core.get S.equiv S.hash, A.rep.core.get S.equiv S.hash, ← hl, f4, hkn,
        if_neg Bool.false_ne_true]
      simp [lookup, List.find?_append, List.find?_cons, e8, hkn]

/-- Non-vacuity of C50: on a full table of five buckets a vacant entry rehashes; the write
through the reference reaches the new binding. -/
example : (do
      let (_, t, m) ← HTable.history (exampleHash (· % 100))
        [.insert 1 1, .insert 2 2, .insert 3 3, .insert 4 4, .insert 5 5] exampleHashMem
      let (e, m) ← t.entry (exampleHash (· % 100)) 6 m
      let (r, calls, t, m) ← e.orInsertWith (exampleHash (· % 100)) (fun n => (60, n + 1)) 0 t m
      let m ← m.modify r fun c => { c with val := 61 }
      .ok (t.bucketCount, calls, ← t.get (exampleHash (· % 100)) 6 m)) =
    (.ok (11, 1, some (6, 61)) : Exec (Nat × Nat × Option (Nat × Nat))) := by
  decide +kernel

/-! ## C51 -/

/-- C51, as far as it holds.  The number of entries is at most the number of buckets while the map
has never held 17961080 entries or more, and exceeds it by at most 195 ever after.  Missing: the
bound by the number of buckets alone, which is false; see `C51_load_factor_exceeded`. -/
theorem C51_load_factor_partial (S : HSetting E m0) (ops : List (MapOp K V))
    (hpk : MapOp.peak E.eq ops [] ≤ 2557710464) {outs : List (MapOut K V)} {t : HTable Unit}
    {m : HMem K V} (h : HTable.history E ops m0 = .ok (outs, t, m)) :
    ∃ cs, t.dump m = .ok cs ∧ cs.flatten.length ≤ cs.length + 195 ∧
      (MapOp.peak E.eq ops [] < 17961080 → cs.flatten.length ≤ cs.length) := by
  obtain ⟨bl, cs, A⟩ := S.after hpk h
  obtain ⟨h1, h2⟩ := A.rep.policy.load
  have hp := A.rep.peak
  rw [A.rep.count] at hp
  rw [← A.rep.core.len] at h1 h2
  exact ⟨cs, A.rep.core.dump, by omega, fun h => by have := h2 h; omega⟩

/-- C51 is false: a map that holds 17961080 entries for the first time has 17961079 buckets. -/
theorem C51_load_factor_exceeded (S : HSetting E m0) (ops : List (MapOp K V))
    (hpk : MapOp.peak E.eq ops [] = 17961080) (hlen : (MapOp.run E.eq ops []).2.length = 17961080)
    {outs : List (MapOut K V)} {t : HTable Unit} {m : HMem K V}
    (h : HTable.history E ops m0 = .ok (outs, t, m)) :
    t.count = 17961080 ∧ t.bucketCount = 17961079 := by
  obtain ⟨bl, cs, A⟩ := S.after (by omega) h
  refine ⟨A.count.trans hlen, ?_⟩
  have hp := A.rep.policy
  rw [hpk] at hp
  have : PolicyAt 17961079 17961080 17961080 :=
    .inr ⟨⟨8844860, 17961079, 17961080, 17961082⟩, by decide +kernel, rfl, rfl, by decide, by decide⟩
  exact (hp.unique this).1

theorem run_inserts {eq : K → K → Bool} (v : V) : ∀ (ks : List K) (s : List (K × V)),
    (∀ k ∈ ks, lookup eq s k = none) → ks.Pairwise (fun a b => eq a b = false) →
    (MapOp.run eq (ks.map fun k => .insert k v) s).2.length = s.length + ks.length ∧
    MapOp.peak eq (ks.map fun k => .insert k v) s = s.length + ks.length ∧
    ∀ k', lookup eq s k' = none → (∀ k ∈ ks, eq k k' = false) →
      lookup eq (MapOp.run eq (ks.map fun k => .insert k v) s).2 k' = none := by
  intro ks
  induction ks with
  | nil => intro s _ _; exact ⟨rfl, rfl, fun _ h _ => h⟩
  | cons k ks ih =>
    intro s hn hd
    rw [List.pairwise_cons] at hd
    have hstep : (MapOp.step eq (.insert k v) s).2 = (k, v) :: s := by
      simp only [MapOp.step, hn k (by simp)]
    obtain ⟨h1, h2, h3⟩ := ih ((k, v) :: s) (by
      intro k' hk'
      rw [lookup_cons, hd.1 k' hk', hn k' (by simp [hk'])]; simp) hd.2
    simp only [List.map_cons, MapOp.run, MapOp.peak, hstep, h1, h2, List.length_cons]
    refine ⟨by omega, by omega, ?_⟩
    intro k' hk' hne
    refine h3 k' ?_ fun x hx => hne x (by simp [hx])
    rw [lookup_cons, hne k (by simp), hk']; simp

/-- The same with the identity on numbers as hash and key equality. -/
def exampleNat : HEnv Nat Nat Unit := { exampleHash id with eq := fun a b => a == b }

theorem exampleNat_ok : HSetting exampleNat exampleHashMem :=
  { exampleHash_ok (fun _ => 0) (by simp) with
    equiv :=
      { symm := by intro a b h; simp [exampleNat] at h ⊢; omega
        trans := by intro a b c h h'; simp [exampleNat] at h h' ⊢; omega }
    hash := by intro a b h; simp [exampleNat] at h ⊢; rw [h] }

/-- Inserting the numbers below `n`. -/
def countTo (n : Nat) : List (MapOp Nat Nat) := (List.range n).map fun k => .insert k 0

theorem countTo_run (n : Nat) : (MapOp.run exampleNat.eq (countTo n) []).2.length = n ∧
    MapOp.peak exampleNat.eq (countTo n) [] = n ∧
    lookup exampleNat.eq (MapOp.run exampleNat.eq (countTo n) []).2 n = none := by
  have h := run_inserts (eq := exampleNat.eq) 0 (List.range n) [] (by simp [lookup]) (by
    refine List.Pairwise.imp ?_ List.pairwise_lt_range
    intro a b hab
    simp [exampleNat]; omega)
  simp only [List.length_nil, List.length_range, Nat.zero_add] at h
  refine ⟨h.1, h.2.1, h.2.2 n rfl ?_⟩
  intro k hk
  have := List.mem_range.1 hk
  simp [exampleNat]; omega

/-- Such a map exists: insert 17961080 different keys. -/
theorem C51_load_factor_exceeded_reached : ∃ outs t m,
    HTable.history exampleNat (countTo 17961080) exampleHashMem = .ok (outs, t, m) ∧
      t.bucketCount < t.count := by
  obtain ⟨h1, h2, h3⟩ := countTo_run 17961080
  obtain ⟨t, m, bl, cs, e1, e2⟩ := exampleNat_ok.run (countTo 17961080) (by rw [h2]; decide)
  obtain ⟨h4, h5⟩ := C51_load_factor_exceeded exampleNat_ok _ h2 h1 e1
  exact ⟨_, t, m, e1, by omega⟩

/-! ## C52 -/

/-- C52.  As soon as the map ever held an entry the number of buckets is a prime of the table. -/
theorem C52_bucket_counts_prime (S : HSetting E m0) (ops : List (MapOp K V))
    (hpk : MapOp.peak E.eq ops [] ≤ 2557710464) {outs : List (MapOut K V)} {t : HTable Unit}
    {m : HMem K V} (h : HTable.history E ops m0 = .ok (outs, t, m)) :
    (MapOp.peak E.eq ops [] = 0 → t.bucketCount = 1) ∧
    (MapOp.peak E.eq ops [] ≠ 0 → t.bucketCount ∈ primeTable ∧ t.bucketCount.Prime) := by
  obtain ⟨bl, cs, A⟩ := S.after hpk h
  have hprime : stages.all (fun g => primeTable.contains g.buckets) = true := by decide +kernel
  have hlo : ∀ g ∈ stages, 0 < g.lo := by decide +kernel
  rcases A.rep.policy with ⟨h1, h2, _⟩ | ⟨g, hg, h1, h2, h3, h4⟩
  · exact ⟨fun _ => h2, fun h => absurd h1 h⟩
  · refine ⟨fun h => ?_, fun _ => ?_⟩
    · have := hlo g hg; omega
    · have := List.all_eq_true.1 hprime g hg
      rw [h1] at this
      have := List.contains_iff_mem.1 this
      exact ⟨this, primeTable_prime _ this⟩

/-- C52.  No later history reduces the number of buckets. -/
theorem C52_bucket_counts_grow (S : HSetting E m0) (ops more : List (MapOp K V))
    (hpk : MapOp.peak E.eq ops [] ≤ 2557710464)
    (hpk' : MapOp.peak E.eq more (MapOp.run E.eq ops []).2 ≤ 2557710464)
    {outs outs' : List (MapOut K V)} {t t' : HTable Unit} {m m' : HMem K V}
    (h : HTable.history E ops m0 = .ok (outs, t, m)) (h' : t.run E more m = .ok (outs', t', m')) :
    t.bucketCount ≤ t'.bucketCount := by
  obtain ⟨bl, cs, A⟩ := S.after hpk h
  obtain ⟨t2, m2, bl2, cs2, e1, e2, _⟩ := A.rep.run S.law S.equiv S.hash more
    (by rw [(allDrops_perm S.equiv more A.perm A.rep.core.distinct).2]; exact hpk')
  rw [h'] at e1
  simp only [Except.ok.injEq, Prod.mk.injEq] at e1
  obtain ⟨_, rfl, rfl⟩ := e1
  exact A.rep.policy.mono e2.policy (Nat.le_max_left _ _)

/-- C52.  The number of buckets depends only on the largest number of entries so far: it is the
same, and grows in the same way, for any two maps of whatever keys, values, hash functions, calls
and memory. -/
theorem C52_bucket_counts_determined {K' V' : Type} {E' : HEnv K' V' Unit} {m0' : HMem K' V'}
    (S : HSetting E m0) (S' : HSetting E' m0') (ops : List (MapOp K V)) (ops' : List (MapOp K' V'))
    (hle : MapOp.peak E.eq ops [] ≤ MapOp.peak E'.eq ops' [])
    (hpk : MapOp.peak E'.eq ops' [] ≤ 2557710464)
    {outs : List (MapOut K V)} {outs' : List (MapOut K' V')} {t t' : HTable Unit} {m : HMem K V}
    {m' : HMem K' V'} (h : HTable.history E ops m0 = .ok (outs, t, m))
    (h' : HTable.history E' ops' m0' = .ok (outs', t', m')) :
    t.bucketCount ≤ t'.bucketCount ∧
      (MapOp.peak E.eq ops [] = MapOp.peak E'.eq ops' [] → t.bucketCount = t'.bucketCount) := by
  obtain ⟨bl, cs, A⟩ := S.after (hle.trans hpk) h
  obtain ⟨bl', cs', A'⟩ := S'.after hpk h'
  exact ⟨A.rep.policy.mono A'.rep.policy hle, fun he =>
    Nat.le_antisymm (A.rep.policy.mono A'.rep.policy hle) (A'.rep.policy.mono A.rep.policy he.ge)⟩

/-- Non-vacuity of C52: seven entries make eleven buckets, and removals keep them. -/
example : (do
      let (_, t, m) ← HTable.history (exampleHash (· % 100)) (exampleHashOps ++ [.clear])
        exampleHashMem
      let (_, t', _) ← t.run (exampleHash (· % 100)) [.insert 3 3, .remove 3] m
      .ok (t.bucketCount, t'.bucketCount)) = (.ok (11, 11) : Exec (Nat × Nat)) := by
  decide +kernel

/-! ## C53 -/

/-- C53, as far as it holds.  After any history, with fewer than 2557710464 entries, asking the
policy for one more entry gives an answer, and a new bucket count is larger than the old.  Missing:
the sizes from 2557710464 to 2³² - 1, where it panics; see `C53_policy_panics`. -/
theorem C53_policy_answers_partial (S : HSetting E m0) (ops : List (MapOp K V))
    (hpk : MapOp.peak E.eq ops [] ≤ 2557710464) {outs : List (MapOut K V)} {t : HTable Unit}
    {m : HMem K V} (h : HTable.history E ops m0 = .ok (outs, t, m)) (hc : t.count < 2557710464) :
    ∃ r resize, getRehashRequired t.nextResize t.bucketCount t.count 1 = .ok (r, resize) ∧
      ∀ b, r = some b → t.bucketCount < b := by
  obtain ⟨bl, cs, A⟩ := S.after hpk h
  obtain ⟨r, n, e1, _, _, e4⟩ := A.rep.policy.step A.rep.peak hc
  exact ⟨r, n, e1, fun b hb => (e4 b hb).1⟩

/-- C53 is false: a map with 2557710464 entries, though that fits in 32 bits, panics at the next
new key. -/
theorem C53_policy_panics (S : HSetting E m0) (ops : List (MapOp K V))
    (hpk : MapOp.peak E.eq ops [] ≤ 2557710464) {outs : List (MapOut K V)} {t : HTable Unit}
    {m : HMem K V} (h : HTable.history E ops m0 = .ok (outs, t, m)) (hc : t.count = 2557710464)
    (k : K) (hk : lookup E.eq (MapOp.run E.eq ops []).2 k = none) (v : V) :
    t.insert E k v m = .error .panic := by
  obtain ⟨bl, cs, A⟩ := S.after hpk h
  have hp := A.rep.peak
  obtain ⟨_, hf⟩ := A.rep.policy.full (by unfold maxEntries; omega)
  rw [← A.look S.equiv] at hk
  obtain ⟨l1, c, l2, hcs, g1, g2, g3, hcase⟩ := A.rep.core.locate S.equiv S.hash k
  rcases hcase with ⟨c1, n, c2, rfl, hk', hc1, hlu, hf'⟩ | ⟨hc', hlu, hf'⟩
  · rw [hk] at hlu; cases hlu
  · have hf2 : getRehashRequired t.nextResize t.bucketCount t.count 1 = .error .panic := by
      rw [hc]; exact hf
    simp only [HTable.insert, hf', Exec.ok_bind, HTable.insertImpl, hf2, Exec.error_bind]

/-- Such a map exists: insert 2557710464 different keys. -/
theorem C53_policy_panics_reached : ∃ outs t m,
    HTable.history exampleNat (countTo 2557710464) exampleHashMem = .ok (outs, t, m) ∧
      t.insert exampleNat 2557710464 0 m = .error .panic := by
  obtain ⟨h1, h2, h3⟩ := countTo_run 2557710464
  obtain ⟨t, m, bl, cs, e1, e2⟩ := exampleNat_ok.run (countTo 2557710464) (by rw [h2])
  exact ⟨_, t, m, e1, C53_policy_panics exampleNat_ok _ (by rw [h2]) e1 (e2.count.trans h1)
    _ h3 0⟩

/-! ## C54, C55 -/

/-- Dropping the map after a history. -/
theorem HAfter.drop {ops : List (MapOp K V)} {t : HTable Unit} {m : HMem K V} {bl : List Nat}
    {cs : List (List (Nat × K × V))} (S : HSetting E m0) (A : HAfter E m0 ops t m bl cs) :
    ∃ a m', t.drop E m = .ok (a, m') ∧ m'.n.reg = m0.n.reg ∧ m'.n.node = m0.n.node ∧
      m'.n.dropped.Perm (m.n.dropped ++ (contents (ents cs)).filter E.needs) ∧
      (∀ b ∈ bl, m0.b.live b = none ∧ m'.b.live b ≠ none) ∧
      ∀ b, b ∉ bl → m'.b.live b = m0.b.live b := by
  obtain ⟨a, m', e1, e2, e3⟩ := A.rep.freeBuckets S.law
  have hinv := e2.inv
  have hnil : addrs (List.replicate t.bucketCount ([] : List (Nat × K × V))) = [] := by
    simp [addrs]
  rw [hnil] at hinv
  refine ⟨a, m', by simp [HTable.drop, e1], hinv.done, ?_, e3, e2.blNew, e2.out⟩
  funext q
  by_cases hq : m0.n.node q = none
  · rw [hq]; exact (hinv.node q (by simp)).2 hq
  · exact (e2.keep q hq).2

/-- C54.  Dropping the map after any history frees every node it allocated, once: the ranges in
use are exactly those from before the map was created, with their contents.  (A second free is a
fault in the model.)  Every key and value moved into the map was moved out to the caller or dropped,
exactly once. -/
theorem C54_hash_frees_once (S : HSetting E m0) (ops : List (MapOp K V))
    (hpk : MapOp.peak E.eq ops [] ≤ 2557710464) {outs : List (MapOut K V)} {t : HTable Unit}
    {m : HMem K V} (h : HTable.history E ops m0 = .ok (outs, t, m)) :
    ∃ a m' D, t.drop E m = .ok (a, m') ∧ m'.n.reg = m0.n.reg ∧ m'.n.node = m0.n.node ∧
      m'.n.dropped.Perm (m0.n.dropped ++ D.filter fun x =>
        match x with | .inl _ => E.ndK | .inr _ => E.ndV) ∧
      (MapOp.allTaken E.eq ops []).Perm (MapOp.allGiven E.eq ops [] ++ D) := by
  obtain ⟨bl, cs, A⟩ := S.after hpk h
  obtain ⟨a, m', e1, e2, e3, e4, _⟩ := A.drop S
  refine ⟨a, m', MapOp.allDrops E.eq ops [] ++ contents (MapOp.run E.eq ops []).2, e1, e2, e3, ?_, ?_⟩
  · have hneeds : (fun x : K ⊕ V => match x with | .inl _ => E.ndK | .inr _ => E.ndV) = E.needs := by
      funext x; cases x <;> rfl
    rw [hneeds, List.filter_append, ← List.append_assoc]
    exact e4.trans (A.drops.append ((contents_perm A.perm).filter _))
  · have := conserve S.equiv ops (s := ([] : List (K × V))) List.Pairwise.nil
    refine this.trans ?_
    rw [← List.append_assoc (MapOp.allGiven E.eq ops [])]
    exact List.perm_append_comm

/-- Non-vacuity of C54: what was dropped in the example. -/
example : (do
      let (_, t, m) ← HTable.history (exampleHash (· % 100))
        [.insert 1 10, .insert 101 11, .insert 2 20, .remove 2, .insert 3 30] exampleHashMem
      let (_, m) ← t.drop (exampleHash (· % 100)) m
      .ok m.n.dropped) =
    (.ok [.inl 101, .inl 2, .inl 1, .inr 11, .inl 3, .inr 30] : Exec (List (Nat ⊕ Nat))) := by
  decide +kernel

/-- C55, as far as it holds.  After drop no node remains allocated, memory from before the map is
untouched, and a map that never held an entry leaves nothing allocated.  Missing: the bucket
arrays; see `C55_bucket_arrays_leak`. -/
theorem C55_drop_releases_partial (S : HSetting E m0) (ops : List (MapOp K V))
    (hpk : MapOp.peak E.eq ops [] ≤ 2557710464) {outs : List (MapOut K V)} {t : HTable Unit}
    {m : HMem K V} (h : HTable.history E ops m0 = .ok (outs, t, m)) :
    ∃ a m', t.drop E m = .ok (a, m') ∧ m'.n.reg = m0.n.reg ∧
      (∀ b, m0.b.live b ≠ none → m'.b.live b = m0.b.live b) ∧
      (t.bucketCount = 1 → m'.b.live = m0.b.live) := by
  obtain ⟨bl, cs, A⟩ := S.after hpk h
  obtain ⟨a, m', e1, e2, e3, e4, e5, e6⟩ := A.drop S
  refine ⟨a, m', e1, e2, fun b hb => e6 b fun hm => hb (e5 b hm).1, fun h1 => ?_⟩
  have hbl : bl = [] := A.rep.arrs.2 h1
  subst hbl
  exact funext fun b => e6 b (by simp)

/-- C55 is false: dropping a map that ever held an entry leaves a bucket array allocated that was
not there before the map. -/
theorem C55_bucket_arrays_leak (S : HSetting E m0) (ops : List (MapOp K V))
    (hpk : MapOp.peak E.eq ops [] ≤ 2557710464) (hne : MapOp.peak E.eq ops [] ≠ 0)
    {outs : List (MapOut K V)} {t : HTable Unit} {m : HMem K V}
    (h : HTable.history E ops m0 = .ok (outs, t, m)) :
    ∃ a m' b, t.drop E m = .ok (a, m') ∧ m0.b.live b = none ∧ m'.b.live b ≠ none := by
  obtain ⟨bl, cs, A⟩ := S.after hpk h
  obtain ⟨a, m', e1, e2, e3, e4, e5, e6⟩ := A.drop S
  cases bl with
  | nil => exact absurd (A.arrays rfl) hne
  | cons b bl => exact ⟨a, m', b, e1, e5 b (by simp)⟩

/-- Non-vacuity of both: three arrays, of 3, 6 and 12 cells, remain after drop; none if nothing was
inserted. -/
example : (do
      let (_, t, m) ← HTable.history (exampleHash (· % 100)) exampleHashOps exampleHashMem
      let (_, m) ← t.drop (exampleHash (· % 100)) m
      .ok ((List.range 5).map fun b => (m.b.live b).map Block.size)) =
      (.ok [some 2, some 3, some 6, some 12, none] : Exec (List (Option Nat))) ∧
    (do
      let (_, t, m) ← HTable.history (exampleHash (· % 100)) [.remove 3, .clear] exampleHashMem
      let (_, m) ← t.drop (exampleHash (· % 100)) m
      .ok ((List.range 5).map fun b => (m.b.live b).map Block.size)) =
      (.ok [some 2, none, none, none, none] : Exec (List (Option Nat))) := by
  decide +kernel

/-! ## C56 -/

/-- C56.  No history, and no drop after it, writes the static array: a write would be a fault, the
history runs without fault, and the array has its old contents at the end, hence, every prefix of a
history being a history, at all times. -/
theorem C56_static_array_unwritten (S : HSetting E m0) (ops : List (MapOp K V))
    (hpk : MapOp.peak E.eq ops [] ≤ 2557710464) :
    (∀ (m : HMem K V) (i x : Nat), m.writeBucket E (.loc E.stat i) x = .error .ub) ∧
    ∃ outs t m a m', HTable.history E ops m0 = .ok (outs, t, m) ∧ t.drop E m = .ok (a, m') ∧
      m.b.live E.stat = m0.b.live E.stat ∧ m'.b.live E.stat = m0.b.live E.stat := by
  refine ⟨fun m i x => by simp [HMem.writeBucket], ?_⟩
  obtain ⟨t, m, bl, cs, e1, A⟩ := S.run ops hpk
  obtain ⟨a, m', f1, f2, f3, f4, f5, f6⟩ := A.drop S
  have hb : E.stat ∉ bl := fun hm => A.rep.core.stat (A.rep.core.blNew _ hm).1
  exact ⟨_, t, m, a, m', e1, f1, A.rep.core.out _ hb, f6 _ hb⟩

/-- Non-vacuity of C56: a map that is emptied again, then cleared. -/
example : HSetting (exampleHash (· % 100)) exampleHashMem ∧
    MapOp.peak (exampleHash (· % 100)).eq [.insert 1 10, .remove 1, .clear, .insert 1 1] [] ≤
      2557710464 :=
  ⟨exampleHash_ok _ (by simp), by decide⟩

/-! ## C57 -/

/-- A new `HashSet` put through the calls `ops`. -/
def HTable.historySet {K : Type} (E : HEnv K Unit Unit) (ops : List (SetOp K))
    (m0 : HMem K Unit) : Exec (List (SetOut K) × HTable Unit × HMem K Unit) :=
  (HTable.newIn E ()).runSet E ops m0

/-- C57, as far as it holds.  Every history on a `HashSet` has the effects of a mathematical set,
and all results are those of a set except those of `insert`, which are inverted: true if the key
was already present.  Missing: `insert` returning true on success; see
`C57_insert_result_inverted`. -/
theorem C57_hash_set_partial {K : Type} {E : HEnv K Unit Unit} {m0 : HMem K Unit}
    (S : HSetting E m0) (ops : List (SetOp K)) (hpk : SetOp.peak E.eq ops [] ≤ 2557710464) :
    ∃ t m it, ∃ es : List K, HTable.historySet E ops m0 =
        .ok ((SetOp.run (fun new => !new) E.eq ops []).1, t, m) ∧
      t.iter m = .ok it ∧ es.Perm (SetOp.run id E.eq ops []).2 ∧
      ∀ n, ∃ it', it.run m n = .ok ((List.range n).map fun i => es[i]?.map fun k => (k, ()), it') := by
  obtain ⟨t, m, pk, bl, cs, e1, e2, e3⟩ := S.init.runSet S.law S.equiv S.hash ops hpk
  obtain ⟨it, c, ds, f1, f2, f3⟩ := e2.core.iter
  refine ⟨t, m, it, keys (ents cs), e1, f1, ?_, fun n => ?_⟩
  · have h0 : (SetOp.run (!·) E.eq ops []).2 = (SetOp.run id E.eq ops []).2 := by
      rw [show ([] : List K) = keys ([] : List (K × Unit)) from rfl, ← set_run, ← set_run]
    rw [← h0]
    exact e3
  · obtain ⟨it', c', ds', g1, _⟩ := f2.run n
    rw [f3] at g1
    refine ⟨it', ?_⟩
    rw [g1]
    congr 2
    refine List.map_congr_left fun i _ => ?_
    simp only [keys, ents, List.getElem?_map]
    cases cs.flatten[i]? <;> rfl

/-- C57 is false: whatever happened before, inserting a new key returns false and inserting a key
that is present returns true. -/
theorem C57_insert_result_inverted {K : Type} {E : HEnv K Unit Unit} {m0 : HMem K Unit}
    (S : HSetting E m0) (ops : List (SetOp K)) (k : K)
    (hpk : SetOp.peak E.eq (ops ++ [.insert k]) [] ≤ 2557710464) :
    ∃ outs t m, HTable.historySet E (ops ++ [.insert k]) m0 =
      .ok (outs ++ [.bool (member E.eq (SetOp.run id E.eq ops []).2 k).isSome], t, m) := by
  obtain ⟨t, m, it, es, e1, _⟩ := C57_hash_set_partial S (ops ++ [.insert k]) hpk
  have hsplit : ∀ (ops : List (SetOp K)) (s : List K),
      (SetOp.run (fun new => !new) E.eq (ops ++ [.insert k]) s).1 =
        (SetOp.run (fun new => !new) E.eq ops s).1 ++
          [.bool (member E.eq (SetOp.run id E.eq ops s).2 k).isSome] := by
    have h0 : ∀ (op : SetOp K) (s : List K),
        (op.step (fun new => !new) E.eq s).2 = (op.step id E.eq s).2 := by
      intro op s
      cases op <;> simp only [SetOp.step]
      split <;> rfl
    intro ops
    induction ops with
    | nil =>
      intro s
      simp only [List.nil_append, SetOp.run, SetOp.step]
      cases h : (member E.eq s k).isSome <;> simp
    | cons op ops ih =>
      intro s
      simp only [List.cons_append, SetOp.run, ih, h0]
  rw [hsplit] at e1
  exact ⟨_, t, m, e1⟩

/-- The set of numbers of the examples. -/
def exampleSet : HEnv Nat Unit Unit where
  hash := id
  eq a b := a == b
  size := 16
  align := 8
  ndK := true
  ndV := false
  A := defaultNAlloc Placer.bump none true
  R := RawAlloc.bump
  stat := 0

theorem exampleSet_ok : HSetting exampleSet exampleHashMem where
  alloc := ⟨_, rfl⟩
  size := show 0 < 16 by decide
  equiv := exampleNat_ok.equiv
  hash := exampleNat_ok.hash
  wf :=
    { disj := by intro a b r r' h; cases h
      cover := by intro q h; exact absurd rfl h
      null := by intro a r h; cases h }
  static := ⟨_, rfl, rfl, by
    intro i hi
    match i, hi with
    | 0, _ => rfl
    | 1, _ => rfl⟩

/-- Non-vacuity of C57, and the wrong results of `insert`. -/
example : HSetting exampleSet exampleHashMem ∧ (do
      let (os, _, _) ← HTable.historySet exampleSet
        [.insert 1, .insert 2, .insert 1, .contains 1, .remove 1, .contains 1, .insert 1, .len]
        exampleHashMem
      .ok os) = (.ok [.bool false, .bool false, .bool true, .bool true, .key (some 1), .bool false,
        .bool false, .nat 2] : Exec (List (SetOut Nat))) :=
  ⟨exampleSet_ok, by decide +kernel⟩

/-! ## C58 -/

/-- C58.  After `clear` the map is empty for every observer, and every later history behaves as on
a new map. -/
theorem C58_hash_clear (S : HSetting E m0) (ops : List (MapOp K V))
    (hpk : MapOp.peak E.eq ops [] ≤ 2557710464) {outs : List (MapOut K V)} {t : HTable Unit}
    {m : HMem K V} (h : HTable.history E ops m0 = .ok (outs, t, m)) :
    ∃ t' m' it, t.clear E m = .ok (t', m') ∧ t'.count = 0 ∧ (∀ k, t'.get E k m' = .ok none) ∧
      t'.iter m' = .ok it ∧ (∀ n, ∃ it', it.run m' n = .ok (List.replicate n none, it')) ∧
      ∀ more : List (MapOp K V), MapOp.peak E.eq more [] ≤ 2557710464 →
        ∃ t'' m'', t'.run E more m' = .ok ((MapOp.run E.eq more []).1, t'', m'') := by
  obtain ⟨bl, cs, A⟩ := S.after hpk h
  obtain ⟨a, m', e1, e2, e3⟩ := A.rep.freeBuckets S.law
  have hents : ents (List.replicate t.bucketCount ([] : List (Nat × K × V))) = [] := by simp [ents]
  obtain ⟨it, c, ds, f1, f2, f3⟩ := e2.iter
  refine ⟨{ t with al := a, count := 0 }, m', it, by simp [HTable.clear, e1], rfl, fun k => ?_, f1,
    fun n => ?_, fun more hm => ?_⟩
  · rw [e2.get S.equiv S.hash, hents]; rfl
  · obtain ⟨it', c', ds', g1, _⟩ := f2.run n
    rw [f3] at g1
    refine ⟨it', ?_⟩
    rw [g1]
    congr 2
    apply List.ext_getElem <;> simp
  · have hrep := A.rep.setCore e2 rfl rfl (Nat.zero_le _) rfl (by simp)
    obtain ⟨t'', m'', _, _, g1, _⟩ := HRep.run S.law S.equiv S.hash more hrep (by rw [hents]; exact hm)
    rw [hents] at g1
    exact ⟨t'', m'', g1⟩

/-- Non-vacuity of C58. -/
example : (do
      let (_, t, m) ← HTable.history (exampleHash (· % 100)) exampleHashOps exampleHashMem
      let (t, m) ← t.clear (exampleHash (· % 100)) m
      let (os, _, _) ← t.run (exampleHash (· % 100)) [.len, .get 7, .insert 107 3, .get 7, .len] m
      .ok os) = (.ok [.nat 0, .val none, .val none, .val (some 3), .nat 1] :
        Exec (List (MapOut Nat Nat))) := by
  decide +kernel

/-! ## C59 -/

theorem ArrIs.len_eq {m : Mem Nat} {b : Nat} {xs ys : List Nat} (h : ArrIs m b xs)
    (h' : ArrIs m b ys) : xs.length = ys.length := by
  obtain ⟨blk, h1, h2, _⟩ := h
  obtain ⟨blk', h1', h2', _⟩ := h'
  rw [h1] at h1'
  cases h1'
  omega

/-- C59.  An iterator at any position, converted to its C++-compatible form and back, is the same
iterator, hence yields the same remaining entries.  The end of the compatible range is the address
one past the last bucket, where the sentinel is. -/
theorem C59_hash_compat_round_trip (S : HSetting E m0) (ops : List (MapOp K V))
    (hpk : MapOp.peak E.eq ops [] ≤ 2557710464) {outs seen : List _} {t : HTable Unit}
    {m : HMem K V} (h : HTable.history E ops m0 = .ok (outs, t, m)) {n : Nat} {it it' : HIter}
    (hit : t.iter m = .ok it) (hn : it.run m n = .ok (seen, it')) :
    ∃ b e, it'.intoCompat m = .ok (b, e) ∧ HIter.fromCompat b e = .ok it' ∧ b.node = it'.node ∧
      m.b.ptrAdd t.buckets t.bucketCount = .ok e.bucket ∧
      m.b.read e.bucket = .ok (2 ^ 64 - 1) ∧ e.node = 0 := by
  obtain ⟨bl, cs, A⟩ := S.after hpk h
  obtain ⟨i0, c, ds, f1, f2, f3⟩ := A.rep.core.iter
  rw [f1] at hit
  cases hit
  obtain ⟨i1, c', ds', g1, g2, g3⟩ := f2.run n
  rw [g1] at hn
  simp only [Except.ok.injEq, Prod.mk.injEq] at hn
  obtain ⟨_, rfl⟩ := hn
  obtain ⟨pre, hp, ha⟩ := g2.at'
  have hlen := ha.len_eq A.rep.core.arr
  simp only [heads, List.length_append, List.length_map, List.length_cons, List.length_nil,
    A.rep.core.len] at hlen
  obtain ⟨b, e, e1, e2, e3, e4⟩ := g2.compat
  have hadd := ha.ptrAdd (i := pre.length) (n := ds'.length) (by simp)
  simp only [HIter.intoCompat, hp, g2.rest, hadd, Exec.ok_bind, Except.ok.injEq,
    Prod.mk.injEq] at e1
  obtain ⟨rfl, rfl⟩ := e1
  refine ⟨_, _, by simp only [HIter.intoCompat, hp, g2.rest, hadd, Exec.ok_bind], e2, rfl, ?_, ?_,
    rfl⟩
  · rw [A.rep.core.start, A.rep.core.arr.ptrAdd (i := 0) (n := t.bucketCount)
      (by simp [heads, A.rep.core.len])]
    congr 2
    omega
  · refine ha.read (i := pre.length + ds'.length) ?_
    rw [List.getElem?_append_right (by simp)]
    simp [sentinel]

/-- Non-vacuity of C59: after two of five entries. -/
example : (do
      let (_, t, m) ← HTable.history (exampleHash (· % 100)) exampleHashOps exampleHashMem
      let it ← t.iter m
      let (_, it) ← it.run m 2
      let (b, e) ← it.intoCompat m
      let it' ← HIter.fromCompat b e
      let (os, _) ← it'.run m 4
      .ok (e.bucket, os)) =
    (.ok (.loc 3 11, [some (7, 71), some (19, 5), some (31, 2), none]) :
      Exec (Ptr × List (Option (Nat × Nat)))) := by
  decide +kernel

/-! ## C71 -/

/-- Two maps alive at the same time with interleaved calls: `(false, op)` calls the first. -/
def HTable.run2 (E : HEnv K V Unit) : List (Bool × MapOp K V) → HTable Unit → HTable Unit →
    HMem K V → Exec (List (Bool × MapOut K V) × HTable Unit × HTable Unit × HMem K V)
  | [], t1, t2, m => .ok ([], t1, t2, m)
  | (false, op) :: ops, t1, t2, m => do
    let (o, t1, m) ← t1.step E op m
    let (os, r) ← HTable.run2 E ops t1 t2 m
    .ok ((false, o) :: os, r)
  | (true, op) :: ops, t1, t2, m => do
    let (o, t2, m) ← t2.step E op m
    let (os, r) ← HTable.run2 E ops t1 t2 m
    .ok ((true, o) :: os, r)

/-- C71.  Two maps alive at the same time, sharing the allocators and, while empty, the static
bucket array, do not interfere: under any interleaving of calls each map returns what its own calls
return on a finite map of its own. -/
theorem C71_hash_maps_do_not_interfere (S : HSetting E m0) (ops : List (Bool × MapOp K V))
    (hpk1 : MapOp.peak E.eq (sentTo false ops) [] ≤ 2557710464)
    (hpk2 : MapOp.peak E.eq (sentTo true ops) [] ≤ 2557710464) :
    ∃ os r, HTable.run2 E ops (HTable.newIn E ()) (HTable.newIn E ()) m0 = .ok (os, r) ∧
      os.map Prod.fst = ops.map Prod.fst ∧
      sentTo false os = (MapOp.run E.eq (sentTo false ops) []).1 ∧
      sentTo true os = (MapOp.run E.eq (sentTo true ops) []).1 := by
  have key : ∀ (ops : List (Bool × MapOp K V)) (t1 t2 : HTable Unit) (m : HMem K V)
      (s1 s2 : List (K × V)) (bl1 bl2 : List Nat) (cs1 cs2 : List (List (Nat × K × V))),
      TwoTables E m0.n m t1 t2 s1 s2 bl1 bl2 cs1 cs2 →
      MapOp.peak E.eq (sentTo false ops) s1 ≤ maxEntries →
      MapOp.peak E.eq (sentTo true ops) s2 ≤ maxEntries →
      ∃ os r, HTable.run2 E ops t1 t2 m = .ok (os, r) ∧ os.map Prod.fst = ops.map Prod.fst ∧
        sentTo false os = (MapOp.run E.eq (sentTo false ops) s1).1 ∧
        sentTo true os = (MapOp.run E.eq (sentTo true ops) s2).1 := by
    intro ops
    induction ops with
    | nil => intros; exact ⟨[], _, rfl, rfl, rfl, rfl⟩
    | cons op ops ih =>
      intro t1 t2 m s1 s2 bl1 bl2 cs1 cs2 h p1 p2
      obtain ⟨b, op⟩ := op
      cases b with
      | false =>
        have hs : sentTo false ((false, op) :: ops) = op :: sentTo false ops := by simp [sentTo]
        have hs' : sentTo true ((false, op) :: ops) = sentTo true ops := by simp [sentTo]
        rw [hs'] at p2
        rw [hs] at p1
        simp only [MapOp.peak] at p1
        have hle := le_peak E.eq (sentTo false ops) (op.step E.eq s1).2
        obtain ⟨t1', m', bl1', cs1', h1, h2⟩ := h.step S.law S.equiv S.hash op (by omega)
        obtain ⟨os, r, h3, h4, h5, h6⟩ := ih _ _ _ _ _ _ _ _ _ h2 (by omega) p2
        refine ⟨(false, (op.step E.eq s1).1) :: os, r, by simp [HTable.run2, h1, h3], by simp [h4],
          ?_, ?_⟩
        · rw [hs]; simpa [sentTo, MapOp.run] using h5
        · rw [hs']; simpa [sentTo] using h6
      | true =>
        have hs : sentTo true ((true, op) :: ops) = op :: sentTo true ops := by simp [sentTo]
        have hs' : sentTo false ((true, op) :: ops) = sentTo false ops := by simp [sentTo]
        rw [hs'] at p1
        rw [hs] at p2
        simp only [MapOp.peak] at p2
        have hle := le_peak E.eq (sentTo true ops) (op.step E.eq s2).2
        obtain ⟨t2', m', bl2', cs2', h1, h2⟩ := h.symm.step S.law S.equiv S.hash op (by omega)
        obtain ⟨os, r, h3, h4, h5, h6⟩ := ih _ _ _ _ _ _ _ _ _ h2.symm p1 (by omega)
        refine ⟨(true, (op.step E.eq s2).1) :: os, r, by simp [HTable.run2, h1, h3], by simp [h4],
          ?_, ?_⟩
        · rw [hs']; simpa [sentTo] using h5
        · rw [hs]; simpa [sentTo, MapOp.run] using h6
  have hi : HRep True E (fun a m ps => DefInv m0.n E.size E.align a m
      (ps ++ addrs ([[]] : List (List (Nat × K × V))))) (arraysBut m0 [])
      (nodesBut m0 (addrs ([[]] : List (List (Nat × K × V))))) m0 (HTable.newIn E ()) 0 [] [[]] :=
    S.init.other (fun _ _ => rfl) (fun _ _ => rfl) rfl S.init.core.inv
  exact key ops _ _ m0 [] [] [] [] [[]] [[]] ⟨⟨0, hi⟩, ⟨0, hi⟩, .refl _, .refl _, by simp⟩ hpk1 hpk2

/-- Non-vacuity of C71. -/
example : (do
      let (os, _) ← HTable.run2 (exampleHash (· % 100))
        [(false, .insert 1 1), (true, .insert 1 2), (true, .insert 3 3), (false, .remove 1),
          (true, .insert 5 5), (false, .insert 7 7), (true, .get 1), (false, .get 3), (true, .clear),
          (false, .get 7)] (HTable.newIn (exampleHash (· % 100)) ())
        (HTable.newIn (exampleHash (· % 100)) ()) exampleHashMem
      .ok (sentTo false os, sentTo true os)) =
    (.ok ([.val none, .val (some 1), .val none, .val none, .val (some 7)],
      [.val none, .val none, .val none, .val (some 2), .unit]) :
      Exec (List (MapOut Nat Nat) × List (MapOut Nat Nat))) := by
  decide +kernel

/-! ## C72 -/

/-- The inserts of `from_iter` on a finite map. -/
theorem lookup_inserts {eq : K → K → Bool} (he : PartialEquiv eq) (k : K) : ∀ (kvs : List (K × V))
    {s : List (K × V)}, Distinct eq s →
    lookup eq (MapOp.run eq (kvs.map fun p => .insert p.1 p.2) s).2 k =
      (match (s ++ kvs).find? (fun p => eq p.1 k) with
        | none => none
        | some p => (((s ++ kvs).reverse.find? (fun p => eq p.1 k)).map fun q => (p.1, q.2))) := by
  intro kvs
  induction kvs using List.reverseRecOn with
  | nil =>
    intro s hd
    simp only [List.map_nil, MapOp.run, List.append_nil]
    cases h : lookup eq s k with
    | none => rw [show s.find? (fun p => eq p.1 k) = none from h]
    | some p =>
      rw [show s.find? (fun p => eq p.1 k) = some p from h]
      have : lookup eq s.reverse k = some p := by
        rw [← h]; exact (lookup_perm he (List.reverse_perm s).symm hd k).symm
      rw [show s.reverse.find? (fun p => eq p.1 k) = some p from this]
      rfl
  | append_singleton kvs q ih =>
    intro s hd
    have hrun : ∀ (l : List (MapOp K V)) (s : List (K × V)) (op : MapOp K V),
        (MapOp.run eq (l ++ [op]) s).2 = (op.step eq (MapOp.run eq l s).2).2 := by
      intro l
      induction l with
      | nil => intros; rfl
      | cons a l ih => intro s op; simp only [List.cons_append, MapOp.run, ih]
    have hdr : ∀ (l : List (MapOp K V)) {s : List (K × V)}, Distinct eq s →
        Distinct eq (MapOp.run eq l s).2 := by
      intro l
      induction l with
      | nil => intro s h; exact h
      | cons a l ih => intro s h; exact ih (h.step he a)
    rw [List.map_append, List.map_singleton, hrun, lookup_step_insert he (hdr _ hd), ← List.append_assoc]
    by_cases hq : eq q.1 k = true
    · rw [if_pos hq]
      have hcong : lookup eq (MapOp.run eq (kvs.map fun p => .insert p.1 p.2) s).2 q.1 =
          lookup eq (MapOp.run eq (kvs.map fun p => .insert p.1 p.2) s).2 k := by
        unfold lookup
        congr 1
        funext p
        cases h1 : eq p.1 q.1 <;> cases h2 : eq p.1 k <;> try rfl
        · rw [he.trans _ _ _ h2 (he.symm _ _ hq)] at h1; cases h1
        · rw [he.trans _ _ _ h1 hq] at h2; cases h2
      rw [hcong, ih hd]
      simp only [List.reverse_append, List.reverse_cons, List.reverse_nil, List.nil_append,
        List.singleton_append, List.find?_cons, hq, List.find?_append (xs := s ++ kvs)]
      cases h1 : (s ++ kvs).find? (fun p => eq p.1 k) with
      | none => simp [hq]
      | some p =>
        have h2 : ((s ++ kvs).reverse.find? (fun p => eq p.1 k)).isSome := by
          rw [List.isSome_find?, List.any_reverse, ← List.isSome_find?, h1]; rfl
        obtain ⟨r, hr⟩ := Option.isSome_iff_exists.1 h2
        simp only [List.reverse_append] at hr
        simp [hr]
    · rw [if_neg hq, ih hd]
      have hq : eq q.1 k = false := by simpa using hq
      simp [List.find?_append (xs := s ++ kvs), List.find?_cons, hq, List.reverse_append,
        List.find?_append]

/-- C72.  A map collected from pairs binds `k` exactly if some pair has a key equal to `k`, to the
key of the first such pair and the value of the last. -/
theorem C72_hash_from_iter (S : HSetting E m0) (kvs : List (K × V))
    (hlen : kvs.length ≤ 2557710464) :
    ∃ t m, HTable.insertAll E kvs (HTable.newIn E ()) m0 = .ok (t, m) ∧
      ∀ k, t.get E k m = .ok (match kvs.find? (fun p => E.eq p.1 k) with
        | none => none
        | some p => (kvs.reverse.find? (fun p => E.eq p.1 k)).map fun q => (p.1, q.2)) := by
  have hpeak : ∀ (kvs : List (K × V)) (s : List (K × V)),
      MapOp.peak E.eq (kvs.map fun p => .insert p.1 p.2) s ≤ s.length + kvs.length := by
    intro kvs
    induction kvs with
    | nil => intro s; exact Nat.le_refl _
    | cons q kvs ih =>
      intro s
      have := ih (MapOp.step E.eq (.insert q.1 q.2) s).2
      have h2 : (MapOp.step E.eq (.insert q.1 q.2) s).2.length ≤ s.length + 1 := by
        simp only [MapOp.step]
        cases lookup E.eq s q.1 <;> simp [setVal]
      simp only [List.map_cons, MapOp.peak, List.length_cons]
      omega
  obtain ⟨t, m, bl, cs, e1, e2, e3⟩ := S.init.insertAll S.law S.equiv S.hash kvs (by
    have := hpeak kvs []
    simp only [List.length_nil, Nat.zero_add] at this
    exact Nat.le_trans this hlen)
  refine ⟨t, m, e1, fun k => ?_⟩
  rw [e2.core.get S.equiv S.hash]
  have h1 := lookup_perm S.equiv e3 e2.core.distinct k
  have h2 := lookup_inserts S.equiv k kvs (s := []) List.Pairwise.nil
  exact congrArg _ (h1.trans h2)

/-- Non-vacuity of C72. -/
example : (do
      let (t, m) ← HTable.insertAll (exampleHash (· % 100)) [(1, 10), (2, 20), (101, 11), (201, 12)]
        (HTable.newIn (exampleHash (· % 100)) ()) exampleHashMem
      .ok [← t.get (exampleHash (· % 100)) 301 m, ← t.get (exampleHash (· % 100)) 2 m,
        ← t.get (exampleHash (· % 100)) 3 m]) =
    (.ok [some (1, 12), some (2, 20), none] : Exec (List (Option (Nat × Nat)))) := by
  decide +kernel

end Verif
