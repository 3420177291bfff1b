import Verif.HashTable.PolicyProofs
import Verif.HashTable.Model
import Verif.LinkedList.Counter
import Verif.FixedVector.Proofs
import Verif.Machine.VectorProofs

/-! The hash table with its integers as they are.

`Verif.HashTable.Model` counts with unbounded numbers and takes the one overflow it mentions for a
panic.  Here every function that computes with the `u32` counts of elements and buckets, or with the
`usize` byte size of the bucket array, is modelled again for both build modes. -/

set_option autoImplicit false

namespace Verif
open Spec

variable {K V σ : Type}

/-- `get_rehash_required` (src/internal/hash_table/rehash_policy.rs:61-87): the sum of lines 67 and
72 is a `u32`. -/
def getRehashRequiredM (B : Build) (nextResize bucketCount elementCount elementAdd : Nat) :
    Exec (Option Nat × Nat) := do
  let sum ← B.wrapTo (2 ^ 32) (elementCount + elementAdd)
  if nextResize < sum then
    let bucketCount := if bucketCount = 1 then 0 else bucketCount
    let minBuckets := f32OfU32 sum
    if f32OfU32 bucketCount < minBuckets then do
      let minBuckets := max minBuckets (2 * f32OfU32 bucketCount)
      let p ← primeAtLeast (u32OfF32 minBuckets)
      .ok (some p, u32OfF32 (f32OfU32 p))
    else .ok (none, u32OfF32 (f32OfU32 bucketCount))
  else .ok (none, nextResize)

namespace HTable

/-- `rehash` (src/internal/hash_table/mod.rs:388-418): `bucket_count + 1` is a `u32` (lines 392 and
393), and the bucket array is asked for in bytes, eight for each pointer. -/
def rehashM (B : Build) (E : HEnv K V σ) (t : HTable σ) (bc : Nat) (m : HMem K V) :
    Exec (HTable σ × HMem K V) := do
  let len ← B.wrapTo (2 ^ 32) (bc + 1)
  let (nb, b) ← (byteAllocator B 8 8 E.R.total).alloc len m.b
  let m := { m with b := b }
  let m ← fillNull E nb len m
  let s ← m.b.ptrAdd nb bc
  let m ← m.writeBucket E s sentinel
  let m ← moveChains E (t.count + 1) nb bc t.buckets t.bucketCount m
  let (t, m) ← t.freeBuckets E m
  .ok ({ t with buckets := nb, bucketCount := bc }, m)

/-- `insert_impl` (src/internal/hash_table/mod.rs:357-381): `element_count += 1` on a `u32`. -/
def insertImplM (B : Build) (E : HEnv K V σ) (t : HTable σ) (target : Ptr) (k : K) (v : V)
    (m : HMem K V) : Exec (Nat × HTable σ × HMem K V) := do
  let (r, nr) ← getRehashRequiredM B t.nextResize t.bucketCount t.count 1
  let t := { t with nextResize := nr }
  let (target, t, m) ← (match r with
    | some bc => do
      let (t, m) ← t.rehashM B E bc m
      let target ← t.bucketForKey E k m
      .ok (target, t, m)
    | none => .ok (target, t, m))
  let (p, a, n) ← E.A.alloc E.size E.align t.al m.n
  let m := { m with n := n }
  let h ← m.b.read target
  let n ← m.n.modify p fun _ => some ⟨k, v, h⟩
  let m := { m with n := n }
  let m ← m.writeBucket E target p
  let c ← B.wrapTo (2 ^ 32) (t.count + 1)
  .ok (p, { t with al := a, count := c }, m)

/-- `insert` (src/internal/hash_table/mod.rs:122-133). -/
def insertM (B : Build) (E : HEnv K V σ) (t : HTable σ) (k : K) (v : V) (m : HMem K V) :
    Exec (Option V × HTable σ × HMem K V) := do
  let (b, o) ← t.find E k m
  match o with
  | some p => do
    let c ← m.node p
    let m ← m.modify p fun c => { c with val := v }
    .ok (some c.val, t, m.dropKey E k)
  | none => do
    let (_, t, m) ← t.insertImplM B E b k v m
    .ok (none, t, m)

/-- `remove_entry` (src/internal/hash_table/mod.rs:197-220): `element_count -= 1` on a `u32`. -/
def removeEntryM (B : Build) (E : HEnv K V σ) (t : HTable σ) (k : K) (m : HMem K V) :
    Exec (Option (K × V) × HTable σ × HMem K V) := do
  let b ← t.bucketForKey E k m
  let (s, p) ← removeLoop E k (t.count + 1) (.bucket b) m
  if p = 0 then .ok (none, t, m)
  else do
    let c ← m.node p
    let m ← s.write E m c.next
    let (a, n) ← E.A.dealloc p E.size E.align t.al m.n
    let len ← B.wrapTo (2 ^ 32) ((t.count : Int) - 1)
    .ok (some (c.key, c.val), { t with al := a, count := len }, { m with n := n })

/-- `remove` (src/internal/hash_table/mod.rs:187-189). -/
def removeM (B : Build) (E : HEnv K V σ) (t : HTable σ) (k : K) (m : HMem K V) :
    Exec (Option V × HTable σ × HMem K V) := do
  let (o, t, m) ← t.removeEntryM B E k m
  match o with
  | none => .ok (none, t, m)
  | some (k, v) => .ok (some v, t, m.dropKey E k)

end HTable

/-- `or_insert_with` (src/internal/hash_table/entry.rs:50-62). -/
def HEntry.orInsertWithM {S : Type} (B : Build) (E : HEnv K V σ) (e : HEntry K)
    (default : S → V × S) (s : S) (t : HTable σ) (m : HMem K V) :
    Exec (Nat × S × HTable σ × HMem K V) :=
  match e with
  | .occupied p => .ok (p, s, t, m)
  | .vacant b k => do
    let (v, s) := default s
    let (p, t, m) ← t.insertImplM B E b k v m
    .ok (p, s, t, m)

/-- `or_insert` (src/internal/hash_table/entry.rs:41-43). -/
def HEntry.orInsertM (B : Build) (E : HEnv K V σ) (e : HEntry K) (v : V) (t : HTable σ)
    (m : HMem K V) : Exec (Nat × HTable σ × HMem K V) := do
  let (p, used, t, m) ← e.orInsertWithM B E (fun _ => (v, true)) false t m
  .ok (p, t, if used then m else m.dropVal E v)

/-- One public call on a `HashMap` (src/hash_map/mod.rs:37-180).  The calls that compute with no
count are those of `HTable.step`. -/
def HTable.stepM (B : Build) (E : HEnv K V σ) :
    MapOp K V → HTable σ → HMem K V → Exec (MapOut K V × HTable σ × HMem K V)
  | .insert k v, t, m => do let (o, t, m) ← t.insertM B E k v m; .ok (.val o, t, m)
  | .remove k, t, m => do let (o, t, m) ← t.removeM B E k m; .ok (.val o, t, m)
  | .removeEntry k, t, m => do let (o, t, m) ← t.removeEntryM B E k m; .ok (.pair o, t, m)
  | .entry k f v, t, m => do
    let (e, m) ← t.entry E k m
    let m ← e.andModify f m
    let (p, t, m) ← e.orInsertM B E v t m
    let c ← m.node p
    .ok (.val (some c.val), t, m)
  | op, t, m => t.step E op m

/-- A history of public calls. -/
def HTable.runM (B : Build) (E : HEnv K V σ) :
    List (MapOp K V) → HTable σ → HMem K V → Exec (List (MapOut K V) × HTable σ × HMem K V)
  | [], t, m => .ok ([], t, m)
  | op :: ops, t, m => do
    let (o, t, m) ← t.stepM B E op m
    let (os, t, m) ← HTable.runM B E ops t m
    .ok (o :: os, t, m)

/-- One public call on a `HashSet` (src/hash_set/mod.rs:33-131). -/
def HTable.stepSetM (B : Build) (E : HEnv K Unit σ) :
    SetOp K → HTable σ → HMem K Unit → Exec (SetOut K × HTable σ × HMem K Unit)
  | .insert k, t, m => do let (o, t, m) ← t.insertM B E k () m; .ok (.bool o.isSome, t, m)
  | .remove k, t, m => do
    let (o, t, m) ← t.removeEntryM B E k m
    .ok (.key (o.map Prod.fst), t, m)
  | op, t, m => t.stepSet E op m

/-- A history of public calls on a `HashSet`. -/
def HTable.runSetM (B : Build) (E : HEnv K Unit σ) :
    List (SetOp K) → HTable σ → HMem K Unit → Exec (List (SetOut K) × HTable σ × HMem K Unit)
  | [], t, m => .ok ([], t, m)
  | op :: ops, t, m => do
    let (o, t, m) ← t.stepSetM B E op m
    let (os, t, m) ← HTable.runSetM B E ops t m
    .ok (o :: os, t, m)

/-! ## Agreement with the unbounded model -/

theorem Build.wrapTo_fits (B : Build) {M : Nat} {x : Nat} (h : x < M) :
    B.wrapTo M (x : Int) = .ok x := by
  unfold Build.wrapTo
  rw [if_pos ⟨Int.natCast_nonneg x, by exact_mod_cast h⟩]
  rfl

theorem getRehashRequiredM_eq (B : Build) (nr bc : Nat) {n k : Nat} (h : n + k < 2 ^ 32) :
    getRehashRequiredM B nr bc n k = getRehashRequired nr bc n k := by
  have e : B.wrapTo (2 ^ 32) ((n : Int) + (k : Int)) = .ok (n + k) := by
    have := B.wrapTo_fits (M := 2 ^ 32) (x := n + k) h
    rwa [Int.natCast_add] at this
  simp only [getRehashRequiredM, getRehashRequired, if_neg (Nat.not_le.2 h), e, Exec.ok_bind]

/-- Every prime of the policy leaves room for the sentinel in a `u32`. -/
theorem prime_room : ∀ p ∈ primeTable, p + 1 < 2 ^ 32 := by
  have h : primeTable.all (fun p => decide (p + 1 < 2 ^ 32)) = true := by decide +kernel
  intro p hp
  exact of_decide_eq_true (List.all_eq_true.1 h p hp)

/-- A bucket count asked for by the policy is one of its primes. -/
theorem getRehashRequired_prime {nr bc n k p nr' : Nat}
    (h : getRehashRequired nr bc n k = .ok (some p, nr')) : p + 1 < 2 ^ 32 := by
  unfold getRehashRequired at h
  split at h
  · cases h
  · split at h
    · dsimp only at h
      generalize (if bc = 1 then 0 else bc) = c at h
      split at h
      · cases hq : primeAtLeast (u32OfF32 (max (f32OfU32 (n + k)) (2 * f32OfU32 c))) with
        | error e => rw [hq] at h; cases h
        | ok q =>
          rw [hq] at h
          simp only [Exec.ok_bind, Except.ok.injEq, Prod.mk.injEq, Option.some.injEq] at h
          obtain ⟨rfl, _⟩ := h
          exact prime_room _ (primeAtLeast_mem hq)
      · cases h
    · cases h

namespace HTable

/-- The bytes of a bucket array fit into a `usize`. -/
theorem rehashM_eq (B : Build) (E : HEnv K V σ) (t : HTable σ) {bc : Nat} (h : bc + 1 < 2 ^ 32)
    (m : HMem K V) : t.rehashM B E bc m = t.rehash E bc m := by
  have e : B.wrapTo (2 ^ 32) ((bc : Int) + 1) = .ok (bc + 1) := by
    have := B.wrapTo_fits (M := 2 ^ 32) (x := bc + 1) h
    rwa [Int.natCast_add] at this
  have hl : TypeLayout 8 8 := ⟨by decide, ⟨3, by decide, rfl⟩, Nat.dvd_refl 8, by decide⟩
  have ha := byteAllocator_alloc B hl E.R (n := bc + 1) (by omega)
    (by unfold Representable; omega) m.b
  simp only [rehashM, rehash, e, Exec.ok_bind, ha]

/-- Growing the bucket array keeps the count. -/
theorem rehash_count {E : HEnv K V σ} {t t' : HTable σ} {bc : Nat} {m m' : HMem K V}
    (h : t.rehash E bc m = .ok (t', m')) : t'.count = t.count := by
  unfold rehash at h
  obtain ⟨⟨nb, b⟩, _, h⟩ := Exec.bind_ok h
  obtain ⟨m1, _, h⟩ := Exec.bind_ok h
  obtain ⟨s, _, h⟩ := Exec.bind_ok h
  obtain ⟨m2, _, h⟩ := Exec.bind_ok h
  obtain ⟨m3, _, h⟩ := Exec.bind_ok h
  obtain ⟨⟨t1, m4⟩, h1, h⟩ := Exec.bind_ok h
  simp only [Except.ok.injEq, Prod.mk.injEq] at h
  obtain ⟨rfl, _⟩ := h
  unfold freeBuckets at h1
  split at h1
  · obtain ⟨⟨a, m5⟩, _, h1⟩ := Exec.bind_ok h1
    obtain ⟨m6, _, h1⟩ := Exec.bind_ok h1
    simp only [Except.ok.injEq, Prod.mk.injEq] at h1
    obtain ⟨rfl, _⟩ := h1
    rfl
  · simp only [Except.ok.injEq, Prod.mk.injEq] at h1
    obtain ⟨rfl, _⟩ := h1
    rfl

theorem insertImplM_eq (B : Build) (E : HEnv K V σ) (t : HTable σ) (h : t.count + 1 < 2 ^ 32)
    (target : Ptr) (k : K) (v : V) (m : HMem K V) :
    t.insertImplM B E target k v m = t.insertImpl E target k v m := by
  have hw : B.wrapTo (2 ^ 32) ((t.count : Int) + 1) = .ok (t.count + 1) := by
    have := B.wrapTo_fits (M := 2 ^ 32) (x := t.count + 1) h
    rwa [Int.natCast_add] at this
  simp only [insertImplM, insertImpl, getRehashRequiredM_eq B _ _ h]
  cases hg : getRehashRequired t.nextResize t.bucketCount t.count 1 with
  | error e => simp only [Exec.error_bind]
  | ok r =>
    obtain ⟨o, nr⟩ := r
    simp only [Exec.ok_bind]
    cases o with
    | none => simp only [Exec.ok_bind, hw]
    | some bc =>
      simp only [rehashM_eq B E _ (getRehashRequired_prime hg)]
      cases hr : HTable.rehash E { t with nextResize := nr } bc m with
      | error e => simp only [Exec.error_bind]
      | ok r =>
        obtain ⟨t1, m1⟩ := r
        have hc : t1.count = t.count := rehash_count (t := { t with nextResize := nr }) hr
        simp only [Exec.ok_bind]
        cases t1.bucketForKey E k m1 with
        | error e => simp only [Exec.error_bind]
        | ok tg => simp only [Exec.ok_bind, hc, hw]

theorem insertM_eq (B : Build) (E : HEnv K V σ) (t : HTable σ) (h : t.count + 1 < 2 ^ 32)
    (k : K) (v : V) (m : HMem K V) : t.insertM B E k v m = t.insert E k v m := by
  simp only [insertM, insert, insertImplM_eq B E t h]
  rfl

/-- If taking out a key works with unbounded counts, it works with `u32` counts. -/
theorem removeEntryM_eq (B : Build) (E : HEnv K V σ) (t : HTable σ) (h : t.count + 1 < 2 ^ 32)
    (k : K) (m : HMem K V) {r : Option (K × V) × HTable σ × HMem K V}
    (hr : t.removeEntry E k m = .ok r) : t.removeEntryM B E k m = .ok r := by
  unfold removeEntry at hr
  obtain ⟨b, e1, hr⟩ := Exec.bind_ok hr
  obtain ⟨⟨s, p⟩, e2, hr⟩ := Exec.bind_ok hr
  simp only [removeEntryM, e1, e2, Exec.ok_bind]
  dsimp only at hr
  split at hr
  · rename_i hp; rw [if_pos hp]; exact hr
  · rename_i hp
    rw [if_neg hp]
    obtain ⟨c, e3, hr⟩ := Exec.bind_ok hr
    obtain ⟨m1, e4, hr⟩ := Exec.bind_ok hr
    obtain ⟨⟨a, n⟩, e5, hr⟩ := Exec.bind_ok hr
    dsimp only at hr
    split at hr
    · cases hr
    · rename_i h0
      have hw : B.wrapTo (2 ^ 32) ((t.count : Int) - 1) = .ok (t.count - 1) := by
        have := B.wrapTo_fits (M := 2 ^ 32) (x := t.count - 1) (by omega)
        rwa [Int.natCast_sub (by omega)] at this
      simp only [e3, e4, e5, Exec.ok_bind, hw]
      exact hr

end HTable

theorem HEntry.orInsertM_eq (B : Build) (E : HEnv K V σ) (e : HEntry K) (v : V) (t : HTable σ)
    (h : t.count + 1 < 2 ^ 32) (m : HMem K V) : e.orInsertM B E v t m = e.orInsert E v t m := by
  cases e with
  | occupied p => rfl
  | vacant b k =>
    simp only [HEntry.orInsertM, HEntry.orInsert, HEntry.orInsertWithM, HEntry.orInsertWith,
      HTable.insertImplM_eq B E t h]

/-- A call does the same on the machine, if the count has room and the removals work. -/
theorem HTable.stepM_eq (B : Build) (E : HEnv K V σ) (op : MapOp K V) (t : HTable σ) (m : HMem K V)
    (h : t.count + 1 < 2 ^ 32)
    (hrm : ∀ k, op = .remove k ∨ op = .removeEntry k → ∃ r, t.removeEntry E k m = .ok r) :
    t.stepM B E op m = t.step E op m := by
  cases op with
  | insert k v => simp only [HTable.stepM, HTable.step, insertM_eq B E t h]
  | remove k =>
    obtain ⟨r, hr⟩ := hrm k (.inl rfl)
    simp only [HTable.stepM, HTable.step, HTable.removeM, HTable.remove, hr,
      removeEntryM_eq B E t h k m hr]
    rfl
  | removeEntry k =>
    obtain ⟨r, hr⟩ := hrm k (.inr rfl)
    simp only [HTable.stepM, HTable.step, hr, removeEntryM_eq B E t h k m hr]
  | entry k f v =>
    simp only [HTable.stepM, HTable.step]
    cases t.entry E k m with
    | error e => simp only [Exec.error_bind]
    | ok r =>
      obtain ⟨e, m1⟩ := r
      simp only [Exec.ok_bind]
      cases e.andModify f m1 with
      | error e => simp only [Exec.error_bind]
      | ok m2 => simp only [Exec.ok_bind, HEntry.orInsertM_eq B E e v t h]
  | _ => rfl

theorem HTable.stepSetM_eq (B : Build) (E : HEnv K Unit σ) (op : SetOp K) (t : HTable σ)
    (m : HMem K Unit) (h : t.count + 1 < 2 ^ 32)
    (hrm : ∀ k, op = .remove k → ∃ r, t.removeEntry E k m = .ok r) :
    t.stepSetM B E op m = t.stepSet E op m := by
  cases op with
  | insert k => simp only [HTable.stepSetM, HTable.stepSet, insertM_eq B E t h]
  | remove k =>
    obtain ⟨r, hr⟩ := hrm k rfl
    simp only [HTable.stepSetM, HTable.stepSet, hr, removeEntryM_eq B E t h k m hr]
  | _ => rfl

/-! ## Histories, call by call from the end -/

theorem HTable.run_last (E : HEnv K V σ) (op : MapOp K V) : ∀ (ops : List (MapOp K V))
    (t : HTable σ) (m : HMem K V), t.run E (ops ++ [op]) m = (do
      let (os, t, m) ← t.run E ops m
      let (o, t, m) ← t.step E op m
      .ok (os ++ [o], t, m)) := by
  intro ops
  induction ops with
  | nil =>
    intro t m
    simp only [List.nil_append, HTable.run, Exec.ok_bind]
  | cons a ops ih =>
    intro t m
    simp only [List.cons_append, HTable.run]
    cases t.step E a m with
    | error e => simp only [Exec.error_bind]
    | ok r =>
      obtain ⟨o1, t1, m1⟩ := r
      simp only [Exec.ok_bind, ih]
      cases t1.run E ops m1 with
      | error e => simp only [Exec.error_bind]
      | ok r =>
        obtain ⟨o2, t2, m2⟩ := r
        simp only [Exec.ok_bind]
        cases t2.step E op m2 <;> simp only [Exec.error_bind, Exec.ok_bind, List.cons_append]

theorem HTable.runM_last (B : Build) (E : HEnv K V σ) (op : MapOp K V) : ∀ (ops : List (MapOp K V))
    (t : HTable σ) (m : HMem K V), t.runM B E (ops ++ [op]) m = (do
      let (os, t, m) ← t.runM B E ops m
      let (o, t, m) ← t.stepM B E op m
      .ok (os ++ [o], t, m)) := by
  intro ops
  induction ops with
  | nil =>
    intro t m
    simp only [List.nil_append, HTable.runM, Exec.ok_bind]
  | cons a ops ih =>
    intro t m
    simp only [List.cons_append, HTable.runM]
    cases t.stepM B E a m with
    | error e => simp only [Exec.error_bind]
    | ok r =>
      obtain ⟨o1, t1, m1⟩ := r
      simp only [Exec.ok_bind, ih]
      cases t1.runM B E ops m1 with
      | error e => simp only [Exec.error_bind]
      | ok r =>
        obtain ⟨o2, t2, m2⟩ := r
        simp only [Exec.ok_bind]
        cases t2.stepM B E op m2 <;> simp only [Exec.error_bind, Exec.ok_bind, List.cons_append]

theorem HTable.runSet_last (E : HEnv K Unit σ) (op : SetOp K) : ∀ (ops : List (SetOp K))
    (t : HTable σ) (m : HMem K Unit), t.runSet E (ops ++ [op]) m = (do
      let (os, t, m) ← t.runSet E ops m
      let (o, t, m) ← t.stepSet E op m
      .ok (os ++ [o], t, m)) := by
  intro ops
  induction ops with
  | nil =>
    intro t m
    simp only [List.nil_append, HTable.runSet, Exec.ok_bind]
  | cons a ops ih =>
    intro t m
    simp only [List.cons_append, HTable.runSet]
    cases t.stepSet E a m with
    | error e => simp only [Exec.error_bind]
    | ok r =>
      obtain ⟨o1, t1, m1⟩ := r
      simp only [Exec.ok_bind, ih]
      cases t1.runSet E ops m1 with
      | error e => simp only [Exec.error_bind]
      | ok r =>
        obtain ⟨o2, t2, m2⟩ := r
        simp only [Exec.ok_bind]
        cases t2.stepSet E op m2 <;> simp only [Exec.error_bind, Exec.ok_bind, List.cons_append]

theorem HTable.runSetM_last (B : Build) (E : HEnv K Unit σ) (op : SetOp K) :
    ∀ (ops : List (SetOp K)) (t : HTable σ) (m : HMem K Unit), t.runSetM B E (ops ++ [op]) m = (do
      let (os, t, m) ← t.runSetM B E ops m
      let (o, t, m) ← t.stepSetM B E op m
      .ok (os ++ [o], t, m)) := by
  intro ops
  induction ops with
  | nil =>
    intro t m
    simp only [List.nil_append, HTable.runSetM, Exec.ok_bind]
  | cons a ops ih =>
    intro t m
    simp only [List.cons_append, HTable.runSetM]
    cases t.stepSetM B E a m with
    | error e => simp only [Exec.error_bind]
    | ok r =>
      obtain ⟨o1, t1, m1⟩ := r
      simp only [Exec.ok_bind, ih]
      cases t1.runSetM B E ops m1 with
      | error e => simp only [Exec.error_bind]
      | ok r =>
        obtain ⟨o2, t2, m2⟩ := r
        simp only [Exec.ok_bind]
        cases t2.stepSetM B E op m2 <;> simp only [Exec.error_bind, Exec.ok_bind, List.cons_append]

end Verif
