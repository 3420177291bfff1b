import Verif.HashTable.Inv
import Verif.FixedVector.Proofs

/-! Which bucket arrays are allocated: only a rehash allocates one, and none is ever freed. -/

set_option autoImplicit false

namespace Verif
open Spec

variable {K V σ : Type} {E : HEnv K V σ}

/-- The number of cells of an array, if it is allocated. -/
def arrSize (m : HMem K V) (b : Nat) : Option Nat := (m.b.live b).map Block.size

theorem Mem.write_sizes {α : Type} {m m' : Mem α} {p : Ptr} {x : α} (h : m.write p x = .ok m')
    (b : Nat) : (m'.live b).map Block.size = (m.live b).map Block.size := by
  unfold Mem.write at h
  cases p with
  | null => cases h
  | loc b' o =>
    simp only at h
    cases hb : m.live b' with
    | none => rw [hb] at h; cases h
    | some blk =>
      rw [hb] at h
      simp only at h
      split_ifs at h with ho
      simp only [Except.ok.injEq] at h
      subst h
      by_cases hbb : b = b'
      · subst hbb; simp [Mem.setBlock, hb]
      · simp [Mem.setBlock, hbb]

theorem writeBucket_sizes {m m' : HMem K V} {p : Ptr} {x : Nat} (h : m.writeBucket E p x = .ok m') :
    arrSize m' = arrSize m := by
  unfold HMem.writeBucket at h
  cases p with
  | null => cases h
  | loc b o =>
    simp only at h
    split_ifs at h
    obtain ⟨b', h1, h2⟩ := Exec.bind_ok h
    cases h2
    exact funext fun b => Mem.write_sizes h1 b

theorem modify_arrs {m m' : HMem K V} {p : Nat} {f : HCell K V → HCell K V}
    (h : m.modify p f = .ok m') : m'.b = m.b := by
  obtain ⟨_, _, h⟩ := Exec.bind_ok h
  obtain ⟨_, _, h⟩ := Exec.bind_ok h
  cases h; rfl

theorem arrSize_congr {m m' : HMem K V} (h : m'.b = m.b) : arrSize m' = arrSize m := by
  funext b; simp [arrSize, h]

theorem fillNull_sizes : ∀ (n : Nat) {p : Ptr} {m m' : HMem K V}, fillNull E p n m = .ok m' →
    arrSize m' = arrSize m
  | 0, _, _, _, h => by cases h; rfl
  | n + 1, p, m, m', h => by
    obtain ⟨m1, h1, h2⟩ := Exec.bind_ok h
    exact (fillNull_sizes n h2).trans (writeBucket_sizes h1)

theorem freeBucket_arrs : ∀ (f : Nat) {p : Nat} {a a' : σ} {m m' : HMem K V},
    HTable.freeBucket E f p a m = .ok (a', m') → m'.b = m.b
  | 0, _, _, _, _, _, h => by cases h
  | f + 1, p, a, a', m, m', h => by
    obtain ⟨c, _, h⟩ := Exec.bind_ok h
    obtain ⟨⟨a1, m1⟩, h1, h⟩ := Exec.bind_ok h
    obtain ⟨c', _, h⟩ := Exec.bind_ok h
    obtain ⟨⟨a2, n2⟩, _, h⟩ := Exec.bind_ok h
    cases h
    show m1.b = m.b
    split_ifs at h1
    · cases h1; rfl
    · exact freeBucket_arrs f h1

theorem freeChains_arrs {f : Nat} : ∀ (n : Nat) {p : Ptr} {a a' : σ} {m m' : HMem K V},
    HTable.freeChains E f p n a m = .ok (a', m') → m'.b = m.b
  | 0, _, _, _, _, _, h => by cases h; rfl
  | n + 1, p, a, a', m, m', h => by
    obtain ⟨hd, _, h⟩ := Exec.bind_ok h
    obtain ⟨⟨a1, m1⟩, h1, h⟩ := Exec.bind_ok h
    refine (freeChains_arrs n h).trans ?_
    split_ifs at h1
    · cases h1; rfl
    · exact freeBucket_arrs f h1

theorem freeBuckets_sizes {t t' : HTable σ} {m m' : HMem K V}
    (h : t.freeBuckets E m = .ok (t', m')) :
    arrSize m' = arrSize m ∧ t'.bucketCount = t.bucketCount := by
  unfold HTable.freeBuckets at h
  split_ifs at h
  · obtain ⟨⟨a1, m1⟩, h1, h⟩ := Exec.bind_ok h
    obtain ⟨m2, h2, h⟩ := Exec.bind_ok h
    cases h
    exact ⟨(fillNull_sizes _ h2).trans (arrSize_congr (freeChains_arrs _ h1)), rfl⟩
  · cases h; exact ⟨rfl, rfl⟩

theorem moveChain_sizes {nb : Ptr} {bc : Nat} : ∀ (f : Nat) {p : Nat} {m m' : HMem K V},
    HTable.moveChain E nb bc f p m = .ok m' → arrSize m' = arrSize m
  | 0, _, _, _, h => by cases h
  | f + 1, p, m, m', h => by
    unfold HTable.moveChain at h
    split_ifs at h
    · cases h; rfl
    · obtain ⟨c, _, h⟩ := Exec.bind_ok h
      obtain ⟨i, _, h⟩ := Exec.bind_ok h
      obtain ⟨s, _, h⟩ := Exec.bind_ok h
      obtain ⟨hd, _, h⟩ := Exec.bind_ok h
      obtain ⟨m1, h1, h⟩ := Exec.bind_ok h
      obtain ⟨m2, h2, h⟩ := Exec.bind_ok h
      exact (moveChain_sizes f h).trans ((writeBucket_sizes h2).trans (arrSize_congr (modify_arrs h1)))

theorem moveChains_sizes {f bc : Nat} {nb : Ptr} : ∀ (n : Nat) {p : Ptr} {m m' : HMem K V},
    HTable.moveChains E f nb bc p n m = .ok m' → arrSize m' = arrSize m
  | 0, _, _, _, h => by cases h; rfl
  | n + 1, p, m, m', h => by
    obtain ⟨hd, _, h⟩ := Exec.bind_ok h
    obtain ⟨m1, h1, h⟩ := Exec.bind_ok h
    refine (moveChains_sizes n h).trans ?_
    split_ifs at h1
    · cases h1; rfl
    · obtain ⟨m2, h2, h1⟩ := Exec.bind_ok h1
      exact (writeBucket_sizes h1).trans (moveChain_sizes f h2)

/-- A rehash allocates one array, of one cell more than buckets. -/
theorem rehash_sizes {t t' : HTable σ} {bc : Nat} {m m' : HMem K V}
    (h : t.rehash E bc m = .ok (t', m')) :
    t'.bucketCount = bc ∧ ∃ nb, arrSize m nb = none ∧
      arrSize m' = Function.update (arrSize m) nb (some (bc + 1)) := by
  obtain ⟨⟨nb, b⟩, h1, h⟩ := Exec.bind_ok h
  obtain ⟨m1, h2, h⟩ := Exec.bind_ok h
  obtain ⟨s, _, h⟩ := Exec.bind_ok h
  obtain ⟨m2, h3, h⟩ := Exec.bind_ok h
  obtain ⟨m3, h4, h⟩ := Exec.bind_ok h
  obtain ⟨⟨t5, m5⟩, h5, h⟩ := Exec.bind_ok h
  cases h
  refine ⟨rfl, E.R.pick m.b (bc + 1), by simp [arrSize, E.R.fresh], ?_⟩
  rw [(freeBuckets_sizes h5).1, moveChains_sizes _ h4, writeBucket_sizes h3, fillNull_sizes _ h2]
  simp only [defaultAllocator, Nat.add_one_ne_zero, if_false, RawAlloc.alloc, Except.ok.injEq,
    Prod.mk.injEq] at h1
  obtain ⟨_, rfl⟩ := h1
  funext b
  by_cases hb : b = E.R.pick m.b (bc + 1)
  · subst hb; simp [arrSize]
  · simp [arrSize, Function.update_of_ne hb]

/-- Either nothing was allocated, or the policy asked for a new number of buckets, which the table
now has, and one array was allocated. -/
def Grew (t : HTable σ) (m : HMem K V) (t' : HTable σ) (m' : HMem K V) : Prop :=
  (t'.bucketCount = t.bucketCount ∧ arrSize m' = arrSize m) ∨
  ((∃ nr, getRehashRequired t.nextResize t.bucketCount t.count 1 = .ok (some t'.bucketCount, nr)) ∧
    ∃ nb, arrSize m nb = none ∧
      arrSize m' = Function.update (arrSize m) nb (some (t'.bucketCount + 1)))

theorem Grew.same {t t' : HTable σ} {m m' : HMem K V} (h1 : t'.bucketCount = t.bucketCount)
    (h2 : m'.b = m.b) : Grew t m t' m' := .inl ⟨h1, arrSize_congr h2⟩

theorem Grew.pre {t t' : HTable σ} {m m1 m' : HMem K V} (h : Grew t m1 t' m') (h1 : m1.b = m.b) :
    Grew t m t' m' := by
  unfold Grew at *
  rwa [arrSize_congr h1] at h

theorem Grew.post {t t' : HTable σ} {m m1 m' : HMem K V} (h : Grew t m t' m1) (h1 : m'.b = m1.b) :
    Grew t m t' m' := by
  unfold Grew at *
  rwa [arrSize_congr h1]

theorem insertImpl_grew {t t' : HTable σ} {b : Ptr} {k : K} {v : V} {p : Nat} {m m' : HMem K V}
    (h : t.insertImpl E b k v m = .ok (p, t', m')) : Grew t m t' m' := by
  obtain ⟨⟨r, nr⟩, h1, h⟩ := Exec.bind_ok h
  obtain ⟨⟨tg, t1, m1⟩, h2, h⟩ := Exec.bind_ok h
  obtain ⟨⟨p1, a1, n1⟩, _, h⟩ := Exec.bind_ok h
  obtain ⟨hd, _, h⟩ := Exec.bind_ok h
  obtain ⟨n2, _, h⟩ := Exec.bind_ok h
  obtain ⟨m2, h3, h⟩ := Exec.bind_ok h
  cases h
  have hs : arrSize m' = arrSize m1 := (writeBucket_sizes h3).trans (arrSize_congr rfl)
  cases r with
  | none =>
    cases h2
    exact .inl ⟨rfl, hs⟩
  | some bc =>
    obtain ⟨⟨t2, m2⟩, h4, h2⟩ := Exec.bind_ok h2
    obtain ⟨_, _, h2⟩ := Exec.bind_ok h2
    cases h2
    obtain ⟨g1, nb, g2, g3⟩ := rehash_sizes h4
    refine .inr ⟨⟨nr, ?_⟩, nb, g2, ?_⟩
    · show _ = Except.ok (some t1.bucketCount, nr)
      rw [g1]; exact h1
    · rw [hs, g3]
      rw [← g1]

theorem removeEntry_grew {t t' : HTable σ} {k : K} {o : Option (K × V)} {m m' : HMem K V}
    (h : t.removeEntry E k m = .ok (o, t', m')) : Grew t m t' m' := by
  obtain ⟨b, _, h⟩ := Exec.bind_ok h
  obtain ⟨⟨s, p⟩, _, h⟩ := Exec.bind_ok h
  by_cases hp : p = 0
  · simp only [hp, if_true] at h
    cases h; exact .same rfl rfl
  · simp only [hp, if_false] at h
    obtain ⟨c, _, h⟩ := Exec.bind_ok h
    obtain ⟨m1, h1, h⟩ := Exec.bind_ok h
    obtain ⟨⟨a, n⟩, _, h⟩ := Exec.bind_ok h
    by_cases hc : t.count = 0
    · simp only [hc, if_true] at h; cases h
    simp only [hc, if_false] at h
    cases h
    refine .inl ⟨rfl, ?_⟩
    show arrSize m1 = _
    cases s with
    | bucket p => exact writeBucket_sizes h1
    | next p => exact arrSize_congr (modify_arrs h1)

theorem step_grew {t t' : HTable σ} {op : MapOp K V} {o : MapOut K V} {m m' : HMem K V}
    (h : t.step E op m = .ok (o, t', m')) : Grew t m t' m' := by
  cases op with
  | insert k v =>
    obtain ⟨⟨r, t1, m1⟩, h1, h⟩ := Exec.bind_ok h
    cases h
    obtain ⟨⟨b, q⟩, _, h1⟩ := Exec.bind_ok h1
    cases q with
    | some p =>
      obtain ⟨c, _, h1⟩ := Exec.bind_ok h1
      obtain ⟨m2, h2, h1⟩ := Exec.bind_ok h1
      cases h1
      exact .same rfl (show m2.b = m.b from modify_arrs h2)
    | none =>
      obtain ⟨⟨p, t2, m2⟩, h2, h1⟩ := Exec.bind_ok h1
      cases h1
      exact insertImpl_grew h2
  | remove k =>
    obtain ⟨⟨r, t1, m1⟩, h1, h⟩ := Exec.bind_ok h
    cases h
    obtain ⟨⟨q, t2, m2⟩, h2, h1⟩ := Exec.bind_ok h1
    cases q with
    | none => cases h1; exact removeEntry_grew h2
    | some q => cases h1; exact (removeEntry_grew h2).post rfl
  | removeEntry k =>
    obtain ⟨⟨r, t1, m1⟩, h1, h⟩ := Exec.bind_ok h
    cases h
    exact removeEntry_grew h1
  | get k =>
    obtain ⟨_, _, h⟩ := Exec.bind_ok h
    cases h; exact .same rfl rfl
  | modify k f =>
    obtain ⟨⟨r, m1⟩, h1, h⟩ := Exec.bind_ok h
    cases h
    obtain ⟨⟨b, q⟩, _, h1⟩ := Exec.bind_ok h1
    cases q with
    | none => cases h1; exact .same rfl rfl
    | some p =>
      obtain ⟨c, _, h1⟩ := Exec.bind_ok h1
      obtain ⟨m2, h2, h1⟩ := Exec.bind_ok h1
      cases h1
      exact .same rfl (modify_arrs h2)
  | contains k =>
    obtain ⟨_, _, h⟩ := Exec.bind_ok h
    cases h; exact .same rfl rfl
  | entry k f v =>
    obtain ⟨⟨e, m1⟩, h1, h⟩ := Exec.bind_ok h
    obtain ⟨m2, h2, h⟩ := Exec.bind_ok h
    obtain ⟨⟨p, t1, m3⟩, h3, h⟩ := Exec.bind_ok h
    obtain ⟨c, _, h⟩ := Exec.bind_ok h
    cases h
    have e1 : m1.b = m.b := by
      obtain ⟨⟨b, q⟩, _, h1⟩ := Exec.bind_ok h1
      cases q <;> (cases h1; rfl)
    have e2 : m2.b = m1.b := by
      cases e with
      | occupied p => exact modify_arrs h2
      | vacant b k => cases h2; rfl
    obtain ⟨⟨p', u, t2, m4⟩, h4, h3⟩ := Exec.bind_ok h3
    have e3 : m'.b = m4.b := by
      cases h3
      cases u <;> rfl
    have et : t' = t2 := by cases h3; rfl
    subst et
    refine Grew.post (Grew.pre ?_ (e2.trans e1)) e3
    cases e with
    | occupied p => cases h4; exact .same rfl rfl
    | vacant b k =>
      obtain ⟨⟨p5, t5, m5⟩, h5, h4⟩ := Exec.bind_ok h4
      cases h4
      exact insertImpl_grew h5
  | entryKey k =>
    obtain ⟨⟨e, m1⟩, h1, h⟩ := Exec.bind_ok h
    obtain ⟨k', _, h⟩ := Exec.bind_ok h
    cases h
    have e1 : m1.b = m.b := by
      obtain ⟨⟨b, q⟩, _, h1⟩ := Exec.bind_ok h1
      cases q <;> (cases h1; rfl)
    refine .same rfl (Eq.trans ?_ e1)
    cases e <;> rfl
  | len => cases h; exact .same rfl rfl
  | isEmpty => cases h; exact .same rfl rfl
  | clear =>
    obtain ⟨⟨t1, m1⟩, h1, h⟩ := Exec.bind_ok h
    cases h
    obtain ⟨⟨t2, m2⟩, h2, h1⟩ := Exec.bind_ok h1
    cases h1
    obtain ⟨g1, g2⟩ := freeBuckets_sizes h2
    exact .inl ⟨g2, g1⟩

end Verif
