import Verif.HashTable.Leaks

/-!
# Hash tables over any allocator of bucket arrays

The functions of `HashTable/Model.lean` that allocate a bucket array again, with the allocator as
an argument, so that it may be one that reports that there is no memory.
-/

set_option autoImplicit false

namespace Verif
open Spec

variable {K V σ : Type}

namespace HTable

/-- `rehash` (src/internal/hash_table/mod.rs:388-418); `B` is the allocator in line 391. -/
def rehashA (E : HEnv K V σ) (B : Allocator Nat) (t : HTable σ) (bc : Nat) (m : HMem K V) :
    Exec (HTable σ × HMem K V) := do
  let (nb, b) ← B.alloc (bc + 1) m.b
  let m := { m with b := b }
  let m ← fillNull E nb (bc + 1) m
  let s ← m.b.ptrAdd nb bc
  let m ← m.writeBucket E s sentinel
  let m ← moveChains E (t.count + 1) nb bc t.buckets t.bucketCount m
  let (t, m) ← t.freeBuckets E m
  .ok ({ t with buckets := nb, bucketCount := bc }, m)

/-- `insert_impl` (src/internal/hash_table/mod.rs:357-381). -/
def insertImplA (E : HEnv K V σ) (B : Allocator Nat) (t : HTable σ) (target : Ptr) (k : K) (v : V)
    (m : HMem K V) : Exec (Nat × HTable σ × HMem K V) := do
  let (r, nr) ← getRehashRequired t.nextResize t.bucketCount t.count 1
  let t := { t with nextResize := nr }
  let (target, t, m) ← (match r with
    | some bc => do
      let (t, m) ← t.rehashA E B bc m
      let target ← t.bucketForKey E k m
      .ok (target, t, m)
    | none => .ok (target, t, m))
  let (p, a, n) ← E.A.alloc E.size E.align t.al m.n
  let m := { m with n := n }
  let h ← m.b.read target
  let n ← m.n.modify p fun _ => some ⟨k, v, h⟩
  let m := { m with n := n }
  let m ← m.writeBucket E target p
  .ok (p, { t with al := a, count := t.count + 1 }, m)

/-- One public call (src/hash_map/mod.rs:37-180; compare `HTable.step`).  Only `insert`
(src/internal/hash_table/mod.rs:122-133) and `or_insert` of an entry
(src/internal/hash_table/entry.rs:41-62) get to allocate a bucket array. -/
def stepA (E : HEnv K V σ) (B : Allocator Nat) (op : MapOp K V) (t : HTable σ) (m : HMem K V) :
    Exec (MapOut K V × HTable σ × HMem K V) :=
  match op with
  | .insert k v => do
    let (b, o) ← t.find E k m
    match o with
    | some p => do
      let c ← m.node p
      let m ← m.modify p fun c => { c with val := v }
      .ok (.val (some c.val), t, m.dropKey E k)
    | none => do
      let (_, t, m) ← t.insertImplA E B b k v m
      .ok (.val none, t, m)
  | .entry k f v => do
    let (e, m) ← t.entry E k m
    let m ← e.andModify f m
    let (p, t, m) ← (match e with
      | .occupied p => .ok (p, t, m.dropVal E v)
      | .vacant b k => t.insertImplA E B b k v m)
    let c ← m.node p
    .ok (.val (some c.val), t, m)
  | op => t.step E op m

end HTable

/-- With the allocator the table has, it is the same table. -/
theorem stepA_default (E : HEnv K V σ) (op : MapOp K V) (t : HTable σ) (m : HMem K V) :
    t.stepA E (defaultAllocator E.R) op m = t.step E op m := by
  have hi : ∀ (b : Ptr) (k : K) (v : V) (m : HMem K V),
      t.insertImplA E (defaultAllocator E.R) b k v m = t.insertImpl E b k v m := fun _ _ _ _ => rfl
  cases op with
  | insert k v =>
    simp only [HTable.stepA, HTable.step, HTable.insert, hi]
    cases t.find E k m with
    | error e => rfl
    | ok x =>
      obtain ⟨b, o⟩ := x
      simp only [Exec.ok_bind]
      cases o with
      | none =>
        simp only
        cases t.insertImpl E b k v m <;> rfl
      | some p =>
        simp only
        cases m.node p with
        | error e => rfl
        | ok c =>
          simp only [Exec.ok_bind]
          cases m.modify p fun c => { c with val := v } <;> rfl
  | entry k f v =>
    simp only [HTable.stepA, HTable.step, HEntry.orInsert, HEntry.orInsertWith, hi]
    cases t.entry E k m with
    | error e => rfl
    | ok x =>
      obtain ⟨e, m1⟩ := x
      simp only [Exec.ok_bind]
      cases e.andModify f m1 with
      | error e => rfl
      | ok m2 =>
        simp only [Exec.ok_bind]
        cases e with
        | occupied p => rfl
        | vacant b k =>
          simp only
          cases t.insertImpl E b k v m2 <;> rfl
  | _ => rfl

/-- An allocator of bucket arrays with no memory left (src/allocator.rs:105-119). -/
def noArrays (B : Allocator Nat) : Allocator Nat := { B with alloc := fun _ m => .ok (.null, m) }

theorem rehashA_none (E : HEnv K V σ) (B : Allocator Nat) (t : HTable σ) (bc : Nat) (m : HMem K V) :
    t.rehashA E (noArrays B) bc m = .error .ub := by
  have hal : (noArrays B).alloc (bc + 1) m.b = .ok (.null, m.b) := rfl
  have hw : fillNull E .null (bc + 1) { m with b := m.b } = .error .ub := by
    simp [fillNull, HMem.writeBucket]
  simp only [HTable.rehashA, hal, Exec.ok_bind, hw, Exec.error_bind]

/-- What a new key does, when it goes well with memory, does without memory for arrays. -/
theorem insertImplA_none {E : HEnv K V σ} (B : Allocator Nat) {t t' : HTable σ} {b : Ptr} {k : K}
    {v : V} {p : Nat} {m m' : HMem K V} (h : t.insertImpl E b k v m = .ok (p, t', m')) :
    (t'.bucketCount = t.bucketCount ∧ t.insertImplA E (noArrays B) b k v m = .ok (p, t', m')) ∨
    ((∃ nr, getRehashRequired t.nextResize t.bucketCount t.count 1 =
        .ok (some t'.bucketCount, nr)) ∧ t.insertImplA E (noArrays B) b k v m = .error .ub) := by
  have h0 := h
  obtain ⟨⟨r, nr⟩, h1, h⟩ := Exec.bind_ok h
  obtain ⟨⟨tg, t1, m1⟩, h2, h⟩ := Exec.bind_ok h
  obtain ⟨⟨p1, a1, n1⟩, _, h⟩ := Exec.bind_ok h
  obtain ⟨hd, _, h⟩ := Exec.bind_ok h
  obtain ⟨n2, _, h⟩ := Exec.bind_ok h
  obtain ⟨m2, h3, h⟩ := Exec.bind_ok h
  cases h
  cases r with
  | none =>
    cases h2
    refine .inl ⟨rfl, ?_⟩
    rw [← h0]
    simp only [HTable.insertImplA, HTable.insertImpl, h1, Exec.ok_bind]
  | some bc =>
    obtain ⟨⟨t2, m2⟩, h4, h2⟩ := Exec.bind_ok h2
    obtain ⟨_, _, h2⟩ := Exec.bind_ok h2
    cases h2
    obtain ⟨g1, nb, g2, g3⟩ := rehash_sizes h4
    refine .inr ⟨⟨nr, ?_⟩, ?_⟩
    · show _ = Except.ok (some t1.bucketCount, nr)
      rw [g1]; exact h1
    · simp only [HTable.insertImplA, h1, Exec.ok_bind, rehashA_none, Exec.error_bind]

theorem removeEntry_count {E : HEnv K V σ} {t t' : HTable σ} {k : K} {o : Option (K × V)}
    {m m' : HMem K V} (h : t.removeEntry E k m = .ok (o, t', m')) :
    t'.bucketCount = t.bucketCount := by
  obtain ⟨b, _, h⟩ := Exec.bind_ok h
  obtain ⟨⟨s, p⟩, _, h⟩ := Exec.bind_ok h
  by_cases hp : p = 0
  · simp only [hp, if_true] at h
    cases h; rfl
  · simp only [hp, if_false] at h
    obtain ⟨c, _, h⟩ := Exec.bind_ok h
    obtain ⟨m1, h1, h⟩ := Exec.bind_ok h
    obtain ⟨⟨a, n⟩, _, h⟩ := Exec.bind_ok h
    by_cases hc : t.count = 0
    · simp only [hc, if_true] at h; cases h
    simp only [hc, if_false] at h
    cases h
    rfl

theorem freeBuckets_count {E : HEnv K V σ} {t t' : HTable σ} {m m' : HMem K V}
    (h : t.freeBuckets E m = .ok (t', m')) : t'.bucketCount = t.bucketCount := by
  unfold HTable.freeBuckets at h
  by_cases hc : 1 < t.bucketCount
  · simp only [hc, if_true] at h
    obtain ⟨⟨a, m1⟩, _, h⟩ := Exec.bind_ok h
    obtain ⟨m2, _, h⟩ := Exec.bind_ok h
    cases h; rfl
  · simp only [hc, if_false] at h
    cases h; rfl

theorem stepA_none {E : HEnv K V σ} (B : Allocator Nat) {t t' : HTable σ} {op : MapOp K V}
    {o : MapOut K V} {m m' : HMem K V} (h : t.step E op m = .ok (o, t', m')) :
    (t'.bucketCount = t.bucketCount ∧ t.stepA E (noArrays B) op m = .ok (o, t', m')) ∨
    ((∃ nr, getRehashRequired t.nextResize t.bucketCount t.count 1 =
        .ok (some t'.bucketCount, nr)) ∧ t.stepA E (noArrays B) op m = .error .ub) := by
  have h0 := h
  cases op with
  | insert k v =>
    obtain ⟨⟨r, t1, m1⟩, h1, h⟩ := Exec.bind_ok h
    cases h
    obtain ⟨⟨b, q⟩, hf, h1⟩ := Exec.bind_ok h1
    cases q with
    | some p =>
      obtain ⟨c, hc, h1⟩ := Exec.bind_ok h1
      obtain ⟨m2, h2, h1⟩ := Exec.bind_ok h1
      cases h1
      refine .inl ⟨rfl, ?_⟩
      simp only [HTable.stepA, hf, Exec.ok_bind, hc, h2]
    | none =>
      obtain ⟨⟨p, t2, m2⟩, h2, h1⟩ := Exec.bind_ok h1
      cases h1
      rcases insertImplA_none B h2 with ⟨e1, e2⟩ | ⟨e1, e2⟩
      · exact .inl ⟨e1, by simp only [HTable.stepA, hf, Exec.ok_bind, e2]⟩
      · exact .inr ⟨e1, by simp only [HTable.stepA, hf, Exec.ok_bind, e2, Exec.error_bind]⟩
  | entry k f v =>
    obtain ⟨⟨e, m1⟩, h1, h⟩ := Exec.bind_ok h
    obtain ⟨m2, h2, h⟩ := Exec.bind_ok h
    obtain ⟨⟨p, t3, m3⟩, h3, h⟩ := Exec.bind_ok h
    obtain ⟨c, h4, h⟩ := Exec.bind_ok h
    cases h
    obtain ⟨⟨p', used, t4, m4⟩, h5, h3⟩ := Exec.bind_ok h3
    cases h3
    cases e with
    | occupied q =>
      cases h5
      refine .inl ⟨rfl, ?_⟩
      simp only [HTable.stepA, h1, h2, Exec.ok_bind, Bool.false_eq_true, if_false] at h4 ⊢
      simp only [h4, Exec.ok_bind]
    | vacant b k' =>
      obtain ⟨⟨p'', t5, m5⟩, h6, h5⟩ := Exec.bind_ok h5
      cases h5
      rcases insertImplA_none B h6 with ⟨e1, e2⟩ | ⟨e1, e2⟩
      · refine .inl ⟨e1, ?_⟩
        simp only [HTable.stepA, h1, h2, Exec.ok_bind, e2, if_true] at h4 ⊢
        simp only [h4, Exec.ok_bind]
      · refine .inr ⟨e1, ?_⟩
        simp only [HTable.stepA, h1, h2, Exec.ok_bind, e2, Exec.error_bind]
  | remove k =>
    obtain ⟨⟨r, t1, m1⟩, h1, h⟩ := Exec.bind_ok h
    cases h
    obtain ⟨⟨q, t2, m2⟩, h2, h1⟩ := Exec.bind_ok h1
    refine .inl ⟨?_, h0⟩
    cases q <;> (cases h1; exact removeEntry_count h2)
  | removeEntry k =>
    obtain ⟨⟨r, t1, m1⟩, h1, h⟩ := Exec.bind_ok h
    cases h
    exact .inl ⟨removeEntry_count h1, h0⟩
  | get k =>
    obtain ⟨_, _, h⟩ := Exec.bind_ok h
    cases h; exact .inl ⟨rfl, h0⟩
  | modify k f =>
    obtain ⟨⟨r, m1⟩, h1, h⟩ := Exec.bind_ok h
    cases h; exact .inl ⟨rfl, h0⟩
  | contains k =>
    obtain ⟨_, _, h⟩ := Exec.bind_ok h
    cases h; exact .inl ⟨rfl, h0⟩
  | entryKey k =>
    obtain ⟨⟨e, m1⟩, _, h⟩ := Exec.bind_ok h
    obtain ⟨_, _, h⟩ := Exec.bind_ok h
    cases h; exact .inl ⟨rfl, h0⟩
  | len => cases h; exact .inl ⟨rfl, h0⟩
  | isEmpty => cases h; exact .inl ⟨rfl, h0⟩
  | clear =>
    obtain ⟨⟨t1, m1⟩, h1, h⟩ := Exec.bind_ok h
    cases h
    obtain ⟨⟨t2, m2⟩, h2, h1⟩ := Exec.bind_ok h1
    cases h1
    exact .inl ⟨(freeBuckets_count h2 : t2.bucketCount = _), h0⟩

end Verif
