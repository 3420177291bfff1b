import Verif.HashTable.Oracle
import Verif.MemLemmas

/-! A hash function and an equality that answer like functions. -/

set_option autoImplicit false

namespace Verif
open Spec

variable {τ K V σ : Type} {E : HEnv K V σ} {F : HashFns τ K}

/-- Whatever the state is, `F` answers as the hash function and equality of `E`. -/
structure HashFns.Like (F : HashFns τ K) (E : HEnv K V σ) : Prop where
  hash : ∀ s k, (F.hash s k).1 = some (E.hash k)
  eq : ∀ s a b, (F.eq s a b).1 = some (E.eq a b)

theorem HashFns.Like.hash' (h : F.Like E) (s : τ) (k : K) : ∃ s', F.hash s k = (some (E.hash k), s') :=
  ⟨_, Prod.ext (h.hash s k) rfl⟩

theorem HashFns.Like.eq' (h : F.Like E) (s : τ) (a b : K) : ∃ s', F.eq s a b = (some (E.eq a b), s') :=
  ⟨_, Prod.ext (h.eq s a b) rfl⟩

theorem findInBucketO_like (h : F.Like E) (k : K) (m : HMem K V) : ∀ (fuel p : Nat) (s : τ),
    ∃ s', findInBucketO F fuel p k s m = (findInBucket E fuel p k m).map fun o => (some o, s') := by
  intro fuel
  induction fuel with
  | zero => exact fun p s => ⟨s, rfl⟩
  | succ f ih =>
    intro p s
    simp only [findInBucketO, findInBucket]
    by_cases hp : p = 0
    · simp only [if_pos hp]; exact ⟨s, rfl⟩
    · simp only [if_neg hp]
      cases m.node p with
      | error x => exact ⟨s, rfl⟩
      | ok c =>
        obtain ⟨s', hs⟩ := h.eq' s c.key k
        simp only [Exec.ok_bind, hs]
        cases E.eq c.key k with
        | true => exact ⟨s', rfl⟩
        | false => simpa using ih c.next s'

theorem bucketAt_like (t : HTable σ) (k : K) (m : HMem K V) :
    t.bucketAt (E.hash k) m = t.bucketForKey E k m := by
  simp only [HTable.bucketAt, HTable.bucketForKey, bucketIndex]
  split <;> rfl

theorem findO_like (h : F.Like E) (t : HTable σ) (k : K) (s : τ) (m : HMem K V) :
    ∃ s', t.findO F k s m = (t.find E k m).map fun o => (some o, s') := by
  obtain ⟨s1, hs⟩ := h.hash' s k
  simp only [HTable.findO, HTable.find, hs, bucketAt_like]
  cases t.bucketForKey E k m with
  | error x => exact ⟨s, rfl⟩
  | ok b =>
    simp only [Exec.ok_bind]
    cases m.b.read b with
    | error x => exact ⟨s, rfl⟩
    | ok p =>
      obtain ⟨s2, h2⟩ := findInBucketO_like h k m (t.count + 1) p s1
      refine ⟨s2, ?_⟩
      simp only [Exec.ok_bind, h2]
      cases findInBucket E (t.count + 1) p k m <;> rfl

theorem removeLoopO_like (h : F.Like E) (k : K) (m : HMem K V) : ∀ (fuel : Nat) (sl : HSlot) (s : τ),
    ∃ s', HTable.removeLoopO F k fuel sl s m =
      (HTable.removeLoop E k fuel sl m).map fun o => (some o, s') := by
  intro fuel
  induction fuel with
  | zero => exact fun p s => ⟨s, rfl⟩
  | succ f ih =>
    intro sl s
    simp only [HTable.removeLoopO, HTable.removeLoop]
    cases sl.read m with
    | error x => exact ⟨s, rfl⟩
    | ok p =>
    simp only [Exec.ok_bind]
    by_cases hp : p = 0
    · simp only [if_pos hp]; exact ⟨s, rfl⟩
    · simp only [if_neg hp]
      cases m.node p with
      | error x => exact ⟨s, rfl⟩
      | ok c =>
        obtain ⟨s', hs⟩ := h.eq' s c.key k
        simp only [Exec.ok_bind, hs]
        cases E.eq c.key k with
        | true => exact ⟨s', rfl⟩
        | false => simpa using ih (.next p) s'

theorem moveChainO_like (h : F.Like E) (nb : Ptr) (bc : Nat) : ∀ (fuel p : Nat) (s : τ)
    (m : HMem K V), ∃ s', HTable.moveChainO E F nb bc fuel p s m =
      (HTable.moveChain E nb bc fuel p m).map fun m => (true, s', m) := by
  intro fuel
  induction fuel with
  | zero => exact fun p s m => ⟨s, rfl⟩
  | succ f ih =>
    intro p s m
    simp only [HTable.moveChainO, HTable.moveChain]
    by_cases hp : p = 0
    · simp only [if_pos hp]; exact ⟨s, rfl⟩
    · simp only [if_neg hp]
      cases m.node p with
      | error x => exact ⟨s, rfl⟩
      | ok c =>
        obtain ⟨s', hs⟩ := h.hash' s c.key
        simp only [Exec.ok_bind, hs, bucketIndex]
        by_cases hb : bc = 0
        · simp only [if_pos hb]; exact ⟨s, rfl⟩
        · simp only [if_neg hb, Exec.ok_bind]
          cases m.b.ptrAdd nb (E.hash c.key % bc) with
          | error x => exact ⟨s, rfl⟩
          | ok q =>
            simp only [Exec.ok_bind]
            cases m.b.read q with
            | error x => exact ⟨s, rfl⟩
            | ok x =>
              simp only [Exec.ok_bind]
              cases m.modify p fun c => { c with next := x } with
              | error x => exact ⟨s, rfl⟩
              | ok m1 =>
                simp only [Exec.ok_bind]
                cases m1.writeBucket E q p with
                | error x => exact ⟨s, rfl⟩
                | ok m2 => exact ih c.next s' m2

theorem moveChainsO_like (h : F.Like E) (fuel : Nat) (nb : Ptr) (bc : Nat) : ∀ (l : Nat) (p : Ptr)
    (s : τ) (m : HMem K V), ∃ s', HTable.moveChainsO E F fuel nb bc p l s m =
      (HTable.moveChains E fuel nb bc p l m).map fun m => (true, s', m) := by
  intro l
  induction l with
  | zero => exact fun p s m => ⟨s, rfl⟩
  | succ l ih =>
    intro p s m
    simp only [HTable.moveChainsO, HTable.moveChains]
    cases m.b.read p with
    | error x => exact ⟨s, rfl⟩
    | ok x =>
      simp only [Exec.ok_bind]
      by_cases hx : x = 0
      · simp only [if_pos hx, Exec.ok_bind]
        exact ih p.next s m
      · simp only [if_neg hx]
        obtain ⟨s1, h1⟩ := moveChainO_like h nb bc fuel x s m
        rw [h1]
        cases HTable.moveChain E nb bc fuel x m with
        | error x => exact ⟨s, rfl⟩
        | ok m1 =>
          simp only [Except.map, Exec.ok_bind]
          cases m1.writeBucket E p 0 with
          | error x => exact ⟨s, rfl⟩
          | ok m2 => exact ih p.next s1 m2

theorem rehashO_like (h : F.Like E) (t : HTable σ) (bc : Nat) (s : τ) (m : HMem K V) :
    ∃ s', t.rehashO E F bc s m = (t.rehash E bc m).map fun r => (true, s', r.1, r.2) := by
  simp only [HTable.rehashO, HTable.rehash]
  cases (defaultAllocator E.R).alloc (bc + 1) m.b with
  | error x => exact ⟨s, rfl⟩
  | ok r =>
    simp only [Exec.ok_bind]
    cases fillNull E r.1 (bc + 1) { m with b := r.2 } with
    | error x => exact ⟨s, rfl⟩
    | ok m1 =>
      simp only [Exec.ok_bind]
      cases m1.b.ptrAdd r.1 bc with
      | error x => exact ⟨s, rfl⟩
      | ok q =>
        simp only [Exec.ok_bind]
        cases m1.writeBucket E q sentinel with
        | error x => exact ⟨s, rfl⟩
        | ok m2 =>
          obtain ⟨s1, h1⟩ := moveChainsO_like h (t.count + 1) r.1 bc t.bucketCount t.buckets s m2
          refine ⟨s1, ?_⟩
          simp only [Exec.ok_bind, h1]
          cases HTable.moveChains E (t.count + 1) r.1 bc t.buckets t.bucketCount m2 with
          | error x => rfl
          | ok m3 =>
            simp only [Except.map, Exec.ok_bind]
            cases t.freeBuckets E m3 <;> rfl

theorem insertImplO_like (h : F.Like E) (t : HTable σ) (b : Ptr) (k : K) (v : V) (s : τ)
    (m : HMem K V) : ∃ s', t.insertImplO E F b k v s m =
      (t.insertImpl E b k v m).map fun r => (some r.1, s', r.2.1, r.2.2) := by
  simp only [HTable.insertImplO, HTable.insertImpl]
  cases getRehashRequired t.nextResize t.bucketCount t.count 1 with
  | error x => exact ⟨s, rfl⟩
  | ok r =>
    obtain ⟨r, nr⟩ := r
    simp only [Exec.ok_bind]
    have hend : ∀ (s : τ) (b : Ptr) (t : HTable σ) (m : HMem K V), ((do
        let (p, a, n) ← E.A.alloc E.size E.align t.al m.n
        let m : HMem K V := { m with n := n }
        let x ← m.b.read b
        let n ← m.n.modify p fun _ => some ⟨k, v, x⟩
        let m : HMem K V := { m with n := n }
        let m ← m.writeBucket E b p
        .ok (some p, s, { t with al := a, count := t.count + 1 }, m)) :
          Exec (Option Nat × τ × HTable σ × HMem K V)) = ((do
        let (p, a, n) ← E.A.alloc E.size E.align t.al m.n
        let m : HMem K V := { m with n := n }
        let x ← m.b.read b
        let n ← m.n.modify p fun _ => some ⟨k, v, x⟩
        let m : HMem K V := { m with n := n }
        let m ← m.writeBucket E b p
        .ok (p, { t with al := a, count := t.count + 1 }, m)) :
          Exec (Nat × HTable σ × HMem K V)).map fun r => (some r.1, s, r.2.1, r.2.2) := by
      intro s b t m
      cases E.A.alloc E.size E.align t.al m.n with
      | error x => rfl
      | ok q =>
        simp only [Exec.ok_bind]
        cases m.b.read b with
        | error x => rfl
        | ok x =>
          simp only [Exec.ok_bind]
          cases q.2.2.modify q.1 fun _ => some ⟨k, v, x⟩ with
          | error x => rfl
          | ok n =>
            simp only [Exec.ok_bind]
            cases HMem.writeBucket E ({ m with n := n } : HMem K V) b q.1 <;> rfl
    cases r with
    | none =>
      simp only [Exec.ok_bind]
      exact ⟨s, hend s b { t with nextResize := nr } m⟩
    | some bc =>
      obtain ⟨s1, h1⟩ := rehashO_like h { t with nextResize := nr } bc s m
      simp only [h1]
      cases ({ t with nextResize := nr } : HTable σ).rehash E bc m with
      | error x => exact ⟨s, rfl⟩
      | ok r =>
        obtain ⟨s2, h2⟩ := h.hash' s1 k
        simp only [Except.map, Exec.ok_bind, h2, bucketAt_like]
        cases r.1.bucketForKey E k r.2 with
        | error x => exact ⟨s, rfl⟩
        | ok b1 =>
          simp only [Exec.ok_bind]
          exact ⟨s2, hend s2 b1 r.1 r.2⟩

theorem removeEntryO_like (h : F.Like E) (t : HTable σ) (k : K) (s : τ)
    (m : HMem K V) : ∃ s', t.removeEntryO E F k s m =
      (t.removeEntry E k m).map fun r => (some r.1, s', r.2.1, r.2.2) := by
  obtain ⟨s1, hs⟩ := h.hash' s k
  simp only [HTable.removeEntryO, HTable.removeEntry, hs, bucketAt_like]
  cases t.bucketForKey E k m with
  | error x => exact ⟨s, rfl⟩
  | ok b =>
    obtain ⟨s2, h2⟩ := removeLoopO_like h k m (t.count + 1) (.bucket b) s1
    refine ⟨s2, ?_⟩
    simp only [Exec.ok_bind, h2]
    cases HTable.removeLoop E k (t.count + 1) (.bucket b) m with
    | error x => rfl
    | ok r =>
      simp only [Except.map, Exec.ok_bind]
      by_cases hp : r.2 = 0
      · simp only [if_pos hp]
      · simp only [if_neg hp]
        cases m.node r.2 with
        | error x => rfl
        | ok c =>
          simp only [Exec.ok_bind]
          cases r.1.write E m c.next with
          | error x => rfl
          | ok m1 =>
            simp only [Exec.ok_bind]
            cases E.A.dealloc r.2 E.size E.align t.al m1.n with
            | error x => rfl
            | ok q =>
              simp only [Exec.ok_bind]
              split <;> rfl

/-- One call. -/
theorem stepO_like (h : F.Like E) (op : MapOp K V) (s : τ) (t : HTable σ) (m : HMem K V) :
    ∃ s', t.stepO E F op s m = (t.step E op m).map fun r => (some r.1, s', r.2.1, r.2.2) := by
  cases op with
  | insert k v =>
    obtain ⟨s1, h1⟩ := findO_like h t k s m
    simp only [HTable.stepO, HTable.step, HTable.insertO, HTable.insert, h1]
    cases t.find E k m with
    | error x => exact ⟨s, rfl⟩
    | ok r =>
      obtain ⟨b, o⟩ := r
      simp only [Except.map, Exec.ok_bind]
      cases o with
      | some p =>
        refine ⟨s1, ?_⟩
        dsimp only
        cases m.node p with
        | error x => rfl
        | ok c =>
          simp only [Exec.ok_bind]
          cases m.modify p fun c => { c with val := v } <;> rfl
      | none =>
        obtain ⟨s2, h2⟩ := insertImplO_like h t b k v s1 m
        refine ⟨s2, ?_⟩
        simp only [h2]
        cases t.insertImpl E b k v m <;> rfl
  | remove k =>
    obtain ⟨s1, h1⟩ := removeEntryO_like h t k s m
    refine ⟨s1, ?_⟩
    simp only [HTable.stepO, HTable.step, HTable.remove, h1]
    cases t.removeEntry E k m with
    | error x => rfl
    | ok r =>
      obtain ⟨o, t1, m1⟩ := r
      cases o <;> rfl
  | removeEntry k =>
    obtain ⟨s1, h1⟩ := removeEntryO_like h t k s m
    refine ⟨s1, ?_⟩
    simp only [HTable.stepO, HTable.step, h1]
    cases t.removeEntry E k m <;> rfl
  | get k =>
    obtain ⟨s1, h1⟩ := findO_like h t k s m
    refine ⟨s1, ?_⟩
    simp only [HTable.stepO, HTable.step, HTable.get, h1]
    cases t.find E k m with
    | error x => rfl
    | ok r =>
      obtain ⟨b, o⟩ := r
      simp only [Except.map, Exec.ok_bind]
      cases o with
      | none => rfl
      | some p =>
        simp only
        cases m.node p <;> rfl
  | modify k f =>
    obtain ⟨s1, h1⟩ := findO_like h t k s m
    refine ⟨s1, ?_⟩
    simp only [HTable.stepO, HTable.step, HTable.modify, h1]
    cases t.find E k m with
    | error x => rfl
    | ok r =>
      obtain ⟨b, o⟩ := r
      simp only [Except.map, Exec.ok_bind]
      cases o with
      | none => rfl
      | some p =>
        simp only
        cases m.node p with
        | error x => rfl
        | ok c =>
          simp only [Exec.ok_bind]
          cases m.modify p fun c => { c with val := f c.val } <;> rfl
  | contains k =>
    obtain ⟨s1, h1⟩ := findO_like h t k s m
    refine ⟨s1, ?_⟩
    simp only [HTable.stepO, HTable.step, HTable.containsKey, HTable.get, h1]
    cases t.find E k m with
    | error x => rfl
    | ok r =>
      obtain ⟨b, o⟩ := r
      simp only [Except.map, Exec.ok_bind]
      cases o with
      | none => rfl
      | some p =>
        simp only
        cases m.node p <;> rfl
  | entry k f v =>
    obtain ⟨s1, h1⟩ := findO_like h t k s m
    simp only [HTable.stepO, HTable.step, HTable.entryO, HTable.entry, h1]
    cases t.find E k m with
    | error x => exact ⟨s, rfl⟩
    | ok r =>
      obtain ⟨b, o⟩ := r
      simp only [Except.map, Exec.ok_bind]
      cases o with
      | some p =>
        refine ⟨s1, ?_⟩
        simp only [Exec.ok_bind, HEntry.andModify, HEntry.orInsert, HEntry.orInsertWith]
        cases (m.dropKey E k).modify p fun c => { c with val := f c.val } with
        | error x => rfl
        | ok m1 =>
          simp only [Exec.ok_bind, Bool.false_eq_true, if_false]
          cases (m1.dropVal E v).node p <;> rfl
      | none =>
        obtain ⟨s2, h2⟩ := insertImplO_like h t b k v s1 m
        refine ⟨s2, ?_⟩
        simp only [Exec.ok_bind, HEntry.andModify, HEntry.orInsert, HEntry.orInsertWith, h2]
        cases t.insertImpl E b k v m with
        | error x => rfl
        | ok r =>
          simp only [Except.map, Exec.ok_bind, if_true]
          cases r.2.2.node r.1 <;> rfl
  | entryKey k =>
    obtain ⟨s1, h1⟩ := findO_like h t k s m
    refine ⟨s1, ?_⟩
    simp only [HTable.stepO, HTable.step, HTable.entryO, HTable.entry, h1]
    cases t.find E k m with
    | error x => rfl
    | ok r =>
      obtain ⟨b, o⟩ := r
      simp only [Except.map, Exec.ok_bind]
      cases o with
      | none => rfl
      | some p =>
        simp only [Exec.ok_bind]
        cases (m.dropKey E k).node p <;> rfl
  | len => exact ⟨s, rfl⟩
  | isEmpty => exact ⟨s, rfl⟩
  | clear =>
    refine ⟨s, ?_⟩
    simp only [HTable.stepO, HTable.step]
    cases t.clear E m <;> rfl

/-- A history of calls. -/
theorem runO_like (h : F.Like E) (ops : List (MapOp K V)) : ∀ (s : τ) (t : HTable σ) (m : HMem K V),
    ∃ s', HTable.runO E F ops s t m =
      (HTable.run E ops t m).map fun r => (r.1.map some, s', r.2.1, r.2.2) := by
  induction ops with
  | nil => exact fun s t m => ⟨s, rfl⟩
  | cons op ops ih =>
    intro s t m
    obtain ⟨s1, h1⟩ := stepO_like h op s t m
    simp only [HTable.runO, HTable.run, h1]
    cases HTable.step E op t m with
    | error x => exact ⟨s, rfl⟩
    | ok r =>
      simp only [Except.map, Exec.ok_bind]
      obtain ⟨s2, h2⟩ := ih s1 r.2.1 r.2.2
      refine ⟨s2, ?_⟩
      rw [h2]
      cases HTable.run E ops r.2.1 r.2.2 <;> rfl

end Verif
