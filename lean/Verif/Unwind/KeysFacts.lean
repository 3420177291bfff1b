import Verif.Unwind.KeysRun

/-! Calls that return, calls left before any change, and calls left during a rehash. -/

set_option autoImplicit false

namespace Verif
open Spec

variable {K V σ : Type} {ok : Prop} {E : HEnv K V σ} {Inv : σ → HNMem K V → List Nat → Prop}
  {w : World Nat} {wn : Nat → Option (Option (HCell K V))} {m : HMem K V} {t : HTable σ}
  {bl : List Nat} {cs : List (List (Nat × K × V))}

theorem policy_gt {resize buckets c b nr : Nat}
    (h : getRehashRequired resize buckets c 1 = .ok (some b, nr)) : 1 < b := by
  simp only [getRehashRequired] at h
  generalize (if buckets = 1 then 0 else buckets) = bc at h
  by_cases h0 : 2 ^ 32 ≤ c + 1
  · rw [if_pos h0] at h; cases h
  rw [if_neg h0] at h
  by_cases h1 : resize < c + 1
  · rw [if_pos h1] at h
    by_cases h2 : f32OfU32 bc < f32OfU32 (c + 1)
    · rw [if_pos h2] at h
      obtain ⟨p, hp, h⟩ := Exec.of_bind_ok h
      simp only [Except.ok.injEq, Prod.mk.injEq, Option.some.injEq] at h
      rw [← h.1]
      exact primeTable_gt _ (primeAtLeast_mem hp)
    · rw [if_neg h2] at h; cases h
  · rw [if_neg h1] at h; cases h

/-- If no call panics, a new entry is added as always. -/
theorem HCore.insertImplU_returns (L : HLaw E Inv) (h : HCore False E Inv w wn m t bl cs) {k : K}
    {v : V} {target : Ptr} {n : Nat} (hn : cs.flatten.length < n) :
    t.insertImplU E target k v n m =
      (t.insertImpl E target k v m).map fun r => (some r.1, r.2.1, r.2.2) := by
  have hrest : ∀ (t1 : HTable σ) (m1 : HMem K V) (tgt : Ptr), (do
        let (p, a, n) ← E.A.alloc E.size E.align t1.al m1.n
        let m : HMem K V := { m1 with n := n }
        let h ← m.b.read tgt
        let n ← m.n.modify p fun _ => some ⟨k, v, h⟩
        let m : HMem K V := { m with n := n }
        let m ← m.writeBucket E tgt p
        (.ok (some p, { t1 with al := a, count := t1.count + 1 }, m) :
          Exec (Option Nat × HTable σ × HMem K V))) = Except.map
      (fun r : Nat × HTable σ × HMem K V => (some r.1, r.2.1, r.2.2)) (do
        let (p, a, n) ← E.A.alloc E.size E.align t1.al m1.n
        let m : HMem K V := { m1 with n := n }
        let h ← m.b.read tgt
        let n ← m.n.modify p fun _ => some ⟨k, v, h⟩
        let m : HMem K V := { m with n := n }
        let m ← m.writeBucket E tgt p
        .ok (p, { t1 with al := a, count := t1.count + 1 }, m)) := by
    intro t1 m1 tgt
    cases E.A.alloc E.size E.align t1.al m1.n with
    | error x => rfl
    | ok r =>
      simp only [Exec.ok_bind]
      cases m1.b.read tgt with
      | error x => rfl
      | ok x =>
        simp only [Exec.ok_bind]
        cases r.2.2.modify r.1 (fun _ => some (⟨k, v, x⟩ : HCell K V)) with
        | error x => rfl
        | ok n' =>
          simp only [Exec.ok_bind]
          cases HMem.writeBucket E { n := n', b := m1.b } tgt r.1 with
          | error x => rfl
          | ok m2 => rfl
  cases hp : getRehashRequired t.nextResize t.bucketCount t.count 1 with
  | error x => simp only [HTable.insertImplU, HTable.insertImpl, hp]; rfl
  | ok r =>
    obtain ⟨r, nr⟩ := r
    cases r with
    | none =>
      simp only [HTable.insertImplU, HTable.insertImpl, hp, Exec.ok_bind]
      exact hrest { t with nextResize := nr } m target
    | some b =>
      have hb := policy_gt hp
      have hc0 := h.resize nr
      obtain ⟨t1, m1, nb, cs1, e1, e2, e3, e4, e5, e6, e7, e8⟩ :=
        hc0.rehash L False.elim (bc := b) (by omega)
      have hret := hc0.rehashU_returns (bc := b) (by omega) e1 (n := n) (by omega)
      obtain ⟨l1, c, l2, hcs1, _, g2, _⟩ := e2.search k
      obtain ⟨n', hn'⟩ : ∃ n', n - cs.flatten.length = n' + 1 :=
        ⟨n - cs.flatten.length - 1, by omega⟩
      rw [hn'] at hret
      simp only [HTable.insertImplU, HTable.insertImpl, hp, Exec.ok_bind, hret, e1, g2]
      exact hrest _ _ _

/-- A call in which no panic occurs is a call as always. -/
theorem HCore.stepU_returns (L : HLaw E Inv) (h : HCore False E Inv w wn m t bl cs)
    (op : MapOp K V) : ∃ e, ∀ n, e ≤ n →
      t.stepU E op n m = (t.step E op m).map fun r => (some r.1, r.2.1, r.2.2) := by
  cases op with
  | insert k v =>
    obtain ⟨e, b, o, e1, e2, e3⟩ := h.findU k
    refine ⟨e + 1 + cs.flatten.length + 1, fun n hn => ?_⟩
    have hlt : ¬ n < e + 1 := by omega
    cases o with
    | none =>
      simp only [HTable.stepU, HTable.step, HTable.insertU, HTable.insert, e2, e3, if_neg hlt,
        Exec.ok_bind, h.insertImplU_returns L (show cs.flatten.length < n - (e + 1) by omega)]
      cases t.insertImpl E b k v m <;> rfl
    | some p =>
      simp only [HTable.stepU, HTable.step, HTable.insertU, HTable.insert, e2, e3, if_neg hlt,
        Exec.ok_bind]
      cases m.node p with
      | error x => rfl
      | ok c =>
        simp only [Exec.ok_bind]
        cases m.modify p (fun c => { c with val := v }) <;> rfl
  | remove k =>
    obtain ⟨e, e1⟩ := h.removeU k
    refine ⟨e, fun n hn => ?_⟩
    simp only [HTable.stepU, HTable.step, HTable.remove, e1, if_neg (show ¬ n < e by omega)]
    cases t.removeEntry E k m with
    | error x => rfl
    | ok r =>
      obtain ⟨o, t1, m1⟩ := r
      cases o <;> rfl
  | removeEntry k =>
    obtain ⟨e, e1⟩ := h.removeU k
    refine ⟨e, fun n hn => ?_⟩
    simp only [HTable.stepU, HTable.step, e1, if_neg (show ¬ n < e by omega)]
    cases t.removeEntry E k m <;> rfl
  | get k =>
    obtain ⟨e, b, o, e1, e2, e3⟩ := h.findU k
    refine ⟨e + 1, fun n hn => ?_⟩
    simp only [HTable.stepU, HTable.step, HTable.get, e2, e3, if_neg (show ¬ n < e + 1 by omega),
      Exec.ok_bind]
    cases o with
    | none => rfl
    | some p =>
      simp only
      cases m.node p <;> rfl
  | modify k f =>
    obtain ⟨e, b, o, e1, e2, e3⟩ := h.findU k
    refine ⟨e + 1, fun n hn => ?_⟩
    simp only [HTable.stepU, HTable.step, HTable.modify, e2, e3,
      if_neg (show ¬ n < e + 1 by omega), Exec.ok_bind]
    cases o with
    | none => rfl
    | some p =>
      simp only
      cases m.node p with
      | error x => rfl
      | ok c =>
        simp only [Exec.ok_bind]
        cases m.modify p (fun c => { c with val := f c.val }) <;> rfl
  | contains k =>
    obtain ⟨e, b, o, e1, e2, e3⟩ := h.findU k
    refine ⟨e + 1, fun n hn => ?_⟩
    simp only [HTable.stepU, HTable.step, HTable.containsKey, HTable.get, e2, e3,
      if_neg (show ¬ n < e + 1 by omega), Exec.ok_bind]
    obtain ⟨l1, c, l2, hcs, g1, g2, g3, hcase⟩ := h.search k
    rcases hcase with ⟨c1, x, c2, rfl, hk, hc1, hf⟩ | ⟨hc, hf⟩
    · have hseg := h.chains (c1 ++ x :: c2) (by rw [hcs]; simp)
      rw [e2] at hf
      simp only [Except.ok.injEq, Prod.mk.injEq] at hf
      rw [hf.2]
      simp only [hseg.node.2, Exec.ok_bind]
      rfl
    · rw [e2] at hf
      simp only [Except.ok.injEq, Prod.mk.injEq] at hf
      rw [hf.2]
      rfl
  | entry k f v =>
    obtain ⟨e, b, o, e1, e2, e3⟩ := h.findU k
    refine ⟨e + 1 + cs.flatten.length + 1, fun n hn => ?_⟩
    have hlt : ¬ n < e + 1 := by omega
    cases o with
    | none =>
      simp only [HTable.stepU, HTable.step, HTable.entryU, HTable.entry, e2, e3, if_neg hlt,
        Exec.ok_bind, h.insertImplU_returns L (show cs.flatten.length < n - (e + 1) by omega),
        HEntry.andModify, HEntry.orInsert, HEntry.orInsertWith]
      cases t.insertImpl E b k v m with
      | error x => rfl
      | ok r =>
        simp only [Exec.ok_bind, Except.map, if_true]
        cases r.2.2.node r.1 <;> rfl
    | some p =>
      simp only [HTable.stepU, HTable.step, HTable.entryU, HTable.entry, e2, e3, if_neg hlt,
        Exec.ok_bind, HEntry.andModify, HEntry.orInsert, HEntry.orInsertWith]
      cases (m.dropKey E k).modify p (fun c => { c with val := f c.val }) with
      | error x => rfl
      | ok m1 =>
        simp only [Exec.ok_bind, Bool.false_eq_true, if_false]
        cases (m1.dropVal E v).node p <;> rfl
  | entryKey k =>
    obtain ⟨e, b, o, e1, e2, e3⟩ := h.findU k
    refine ⟨e + 1, fun n hn => ?_⟩
    simp only [HTable.stepU, HTable.step, HTable.entryU, HTable.entry, e2, e3,
      if_neg (show ¬ n < e + 1 by omega), Exec.ok_bind]
    cases o with
    | none => rfl
    | some p =>
      simp only [Exec.ok_bind]
      cases (m.dropKey E k).node p <;> rfl
  | len => exact ⟨0, fun n _ => rfl⟩
  | isEmpty => exact ⟨0, fun n _ => rfl⟩
  | clear =>
    refine ⟨0, fun n _ => ?_⟩
    simp only [HTable.stepU, HTable.step]
    cases t.clear E m <;> rfl

/-- The table is as it was, but for values dropped. -/
structure Untouched (E : HEnv K V σ) (op : MapOp K V) (t t' : HTable σ) (m m' : HMem K V) : Prop where
  table : t' = t
  arrays : m'.b = m.b
  node : m'.n.node = m.n.node
  link : m'.n.link = m.n.link
  reg : m'.n.reg = m.n.reg
  dropped : ∃ d : List (K ⊕ V), d.Sublist op.owns ∧ m'.n.dropped = m.n.dropped ++ d.filter E.needs

theorem Untouched.refl (op : MapOp K V) : Untouched E op t t m m :=
  ⟨rfl, rfl, rfl, rfl, rfl, [], List.nil_sublist _, by simp⟩

theorem Untouched.key {op : MapOp K V} {k : K} (h : [Sum.inl k].Sublist op.owns) :
    Untouched E op t t m (m.dropKey E k) := by
  refine ⟨rfl, ?_, ?_, ?_, ?_, [.inl k], h, dropKey_dropped ..⟩ <;>
    (unfold HMem.dropKey NMem.logDrop; cases E.ndK <;> rfl)

theorem Untouched.both {op : MapOp K V} {k : K} {v : V} (h : [Sum.inl k, Sum.inr v].Sublist op.owns) :
    Untouched E op t t m ((m.dropKey E k).dropVal E v) := by
  refine ⟨rfl, ?_, ?_, ?_, ?_, [.inl k, .inr v], h, ?_⟩
  · unfold HMem.dropVal HMem.dropKey NMem.logDrop; cases E.ndK <;> cases E.ndV <;> rfl
  · unfold HMem.dropVal HMem.dropKey NMem.logDrop; cases E.ndK <;> cases E.ndV <;> rfl
  · unfold HMem.dropVal HMem.dropKey NMem.logDrop; cases E.ndK <;> cases E.ndV <;> rfl
  · unfold HMem.dropVal HMem.dropKey NMem.logDrop; cases E.ndK <;> cases E.ndV <;> rfl
  · rw [dropVal_dropped, dropKey_dropped, List.append_assoc, ← List.filter_append]
    rfl

/-- `insert_impl` is left by a panic only if it rehashes. -/
theorem insertImplU_panics {k : K} {v : V} {target : Ptr} {n : Nat} {t' : HTable σ} {m' : HMem K V}
    (h : t.insertImplU E target k v n m = .ok (none, t', m')) :
    ∃ b nr, getRehashRequired t.nextResize t.bucketCount t.count 1 = .ok (some b, nr) := by
  simp only [HTable.insertImplU] at h
  obtain ⟨⟨r, nr⟩, h1, h⟩ := Exec.of_bind_ok h
  cases r with
  | some b => exact ⟨b, nr, h1⟩
  | none =>
    simp only [Exec.ok_bind] at h
    obtain ⟨_, _, h⟩ := Exec.of_bind_ok h
    obtain ⟨_, _, h⟩ := Exec.of_bind_ok h
    obtain ⟨_, _, h⟩ := Exec.of_bind_ok h
    obtain ⟨_, _, h⟩ := Exec.of_bind_ok h
    simp at h

/-- A call left by a panic changed nothing, or was adding an entry to a full table. -/
theorem HCore.stepU_panics (h : HCore False E Inv w wn m t bl cs) {op : MapOp K V} {n : Nat}
    {t' : HTable σ} {m' : HMem K V} (hs : t.stepU E op n m = .ok (none, t', m')) :
    Untouched E op t t' m m' ∨ (op.adds = true ∧ ∃ k b b' nr,
      op.owns.head? = some (.inl k) ∧ t.find E k m = .ok (b', none) ∧
      getRehashRequired t.nextResize t.bucketCount t.count 1 = .ok (some b, nr)) := by
  cases op with
  | insert k v =>
    obtain ⟨e, b, o, e1, e2, e3⟩ := h.findU k
    simp only [HTable.stepU, HTable.insertU, e3, Exec.ok_bind] at hs
    by_cases hn : n < e + 1
    · simp only [if_pos hn, Exec.ok_bind, Option.map_none, Except.ok.injEq, Prod.mk.injEq,
        true_and] at hs
      rw [← hs.1, ← hs.2]
      exact .inl (Untouched.both (.refl _))
    · simp only [if_neg hn] at hs
      cases o with
      | none =>
        simp only at hs
        obtain ⟨⟨o, t1, m1⟩, f1, hs⟩ := Exec.of_bind_ok hs
        obtain ⟨⟨o', t2, m2⟩, f2, f3⟩ := Exec.of_bind_ok f1
        simp only [Except.ok.injEq, Prod.mk.injEq, Option.map_eq_none_iff] at hs f3
        obtain ⟨rfl, rfl, rfl⟩ := hs
        obtain ⟨f3, rfl, rfl⟩ := f3
        cases o' with
        | some p => simp at f3
        | none =>
          obtain ⟨b1, nr, g⟩ := insertImplU_panics f2
          exact .inr ⟨rfl, k, b1, b, nr, rfl, e2, g⟩
      | some p =>
        simp only at hs
        obtain ⟨⟨o, t1, m1⟩, f1, hs⟩ := Exec.of_bind_ok hs
        obtain ⟨c, f2, f3⟩ := Exec.of_bind_ok f1
        obtain ⟨m2, f4, f5⟩ := Exec.of_bind_ok f3
        simp only [Except.ok.injEq, Prod.mk.injEq] at f5 hs
        rw [← f5.1] at hs
        simp at hs
  | remove k =>
    obtain ⟨e, e1⟩ := h.removeU k
    simp only [HTable.stepU, e1] at hs
    by_cases hn : n < e
    · simp only [if_pos hn, Exec.ok_bind, Except.ok.injEq, Prod.mk.injEq, true_and] at hs
      rw [← hs.1, ← hs.2]
      exact .inl (Untouched.refl _)
    · simp only [if_neg hn] at hs
      cases hr : t.removeEntry E k m with
      | error x => rw [hr] at hs; simp [Except.map] at hs
      | ok r =>
        rw [hr] at hs
        obtain ⟨o, t1, m1⟩ := r
        cases o <;> simp [Except.map] at hs
  | removeEntry k =>
    obtain ⟨e, e1⟩ := h.removeU k
    simp only [HTable.stepU, e1] at hs
    by_cases hn : n < e
    · simp only [if_pos hn, Exec.ok_bind, Except.ok.injEq, Prod.mk.injEq, Option.map_none,
        true_and] at hs
      rw [← hs.1, ← hs.2]
      exact .inl (Untouched.refl _)
    · simp only [if_neg hn] at hs
      cases hr : t.removeEntry E k m with
      | error x => rw [hr] at hs; simp [Except.map] at hs
      | ok r =>
        rw [hr] at hs
        simp [Except.map] at hs
  | get k =>
    obtain ⟨e, b, o, e1, e2, e3⟩ := h.findU k
    simp only [HTable.stepU, e3, Exec.ok_bind] at hs
    by_cases hn : n < e + 1
    · simp only [if_pos hn, Except.ok.injEq, Prod.mk.injEq, true_and] at hs
      rw [← hs.1, ← hs.2]
      exact .inl (Untouched.refl _)
    · simp only [if_neg hn] at hs
      cases o with
      | none => simp at hs
      | some p =>
        obtain ⟨c, _, hs⟩ := Exec.of_bind_ok hs
        simp at hs
  | modify k f =>
    obtain ⟨e, b, o, e1, e2, e3⟩ := h.findU k
    simp only [HTable.stepU, e3, Exec.ok_bind] at hs
    by_cases hn : n < e + 1
    · simp only [if_pos hn, Except.ok.injEq, Prod.mk.injEq, true_and] at hs
      rw [← hs.1, ← hs.2]
      exact .inl (Untouched.refl _)
    · simp only [if_neg hn] at hs
      cases o with
      | none => simp at hs
      | some p =>
        obtain ⟨c, _, hs⟩ := Exec.of_bind_ok hs
        obtain ⟨c, _, hs⟩ := Exec.of_bind_ok hs
        simp at hs
  | contains k =>
    obtain ⟨e, b, o, e1, e2, e3⟩ := h.findU k
    simp only [HTable.stepU, e3, Exec.ok_bind] at hs
    by_cases hn : n < e + 1
    · simp only [if_pos hn, Except.ok.injEq, Prod.mk.injEq, true_and] at hs
      rw [← hs.1, ← hs.2]
      exact .inl (Untouched.refl _)
    · simp only [if_neg hn] at hs
      simp at hs
  | entry k f v =>
    obtain ⟨e, b, o, e1, e2, e3⟩ := h.findU k
    simp only [HTable.stepU, HTable.entryU, e3, Exec.ok_bind] at hs
    by_cases hn : n < e + 1
    · simp only [if_pos hn, Exec.ok_bind, Except.ok.injEq, Prod.mk.injEq, true_and] at hs
      rw [← hs.1, ← hs.2]
      exact .inl (Untouched.key (by simp [MapOp.owns]))
    · simp only [if_neg hn] at hs
      cases o with
      | none =>
        simp only [Exec.ok_bind] at hs
        obtain ⟨⟨o, t1, m1⟩, f1, hs⟩ := Exec.of_bind_ok hs
        cases o with
        | none =>
          obtain ⟨b1, nr, g⟩ := insertImplU_panics f1
          exact .inr ⟨rfl, k, b1, b, nr, rfl, e2, g⟩
        | some p =>
          obtain ⟨c, _, hs⟩ := Exec.of_bind_ok hs
          simp at hs
      | some p =>
        simp only [Exec.ok_bind] at hs
        obtain ⟨m1, _, hs⟩ := Exec.of_bind_ok hs
        obtain ⟨c, _, hs⟩ := Exec.of_bind_ok hs
        simp at hs
  | entryKey k =>
    obtain ⟨e, b, o, e1, e2, e3⟩ := h.findU k
    simp only [HTable.stepU, HTable.entryU, e3, Exec.ok_bind] at hs
    by_cases hn : n < e + 1
    · simp only [if_pos hn, Exec.ok_bind, Except.ok.injEq, Prod.mk.injEq, true_and] at hs
      rw [← hs.1, ← hs.2]
      exact .inl (Untouched.key (by simp [MapOp.owns]))
    · simp only [if_neg hn] at hs
      cases o with
      | none => simp at hs
      | some p =>
        simp only [Exec.ok_bind] at hs
        obtain ⟨c, _, hs⟩ := Exec.of_bind_ok hs
        simp at hs
  | len => simp [HTable.stepU] at hs
  | isEmpty => simp [HTable.stepU] at hs
  | clear =>
    simp only [HTable.stepU] at hs
    obtain ⟨c, _, hs⟩ := Exec.of_bind_ok hs
    simp at hs

/-- After a rehash left in the middle, some entry is not found. -/
theorem HCore.lost {Inv' : σ → HNMem K V → List Nat → Prop} {m' : HMem K V} {t' : HTable σ}
    {bl' : List Nat} {A B : List (List (Nat × K × V))} {d mid : List (Nat × K × V)} {j : Nat}
    (h : HCore True E Inv w wn m t bl (A ++ d :: B)) (he : PartialEquiv E.eq)
    (h' : HCore False E Inv' w wn m' t' bl' (List.replicate A.length [] ++ mid :: B))
    (hbc : t'.bucketCount = t.bucketCount) (hj : j < d.length) (h1 : 0 < A.flatten.length + j)
    (hmid : 0 < j → ∀ x ∈ mid, x ∈ A.flatten ++ d.take j) :
    ∃ x ∈ (A ++ d :: B).flatten, t'.get E x.2.1 m' = .ok none := by
  have hget : ∀ {k : K} {c : List (Nat × K × V)},
      (List.replicate A.length [] ++ mid :: B)[E.hash k % t.bucketCount]? = some c →
      (∀ x ∈ c, E.eq x.2.1 k = false) → t'.get E k m' = .ok none := by
    intro k c hc hno
    obtain ⟨l1, c', l2, hcs, g1, g2, g3, hcase⟩ := h'.search k
    rw [hcs, ← hbc, ← g1] at hc
    simp only [List.getElem?_append_right (Nat.le_refl _), Nat.sub_self, List.getElem?_cons_zero,
      Option.some.injEq] at hc
    subst hc
    rcases hcase with ⟨c1, x, c2, rfl, hk, _⟩ | ⟨_, hf⟩
    · rw [hno x (by simp)] at hk; cases hk
    · simp only [HTable.get, hf, Exec.ok_bind]
  by_cases hA : A.flatten = []
  · have hj0 : 0 < j := by rw [hA] at h1; simpa using h1
    have hx : d[j] ∈ d := List.getElem_mem hj
    have hhome := h.home.mid d[j] hx
    refine ⟨d[j], by simp [hx], hget (c := mid) (by rw [hhome]; simp) fun y hy => ?_⟩
    have hy' := hmid hj0 y hy
    rw [hA, List.nil_append] at hy'
    cases hk : E.eq y.2.1 d[j].2.1 with
    | false => rfl
    | true =>
      exfalso
      have hst := Stable.refl_of he h (List.Perm.refl (A ++ d :: B).flatten) y
        (by simp [List.mem_of_mem_take hy']) d[j] (by simp [hx]) hk
      have hnd := h.nodup
      simp only [addrs, List.flatten_append, List.flatten_cons, List.map_append] at hnd
      have hnd2 := (List.nodup_append.1 (List.nodup_append.1 hnd).2.1).1
      rw [← List.take_append_drop j d, List.map_append, List.nodup_append] at hnd2
      refine hnd2.2.2 y.1 (List.mem_map_of_mem hy') d[j].1 (List.mem_map_of_mem ?_) hst.1
      rw [List.drop_eq_getElem_cons hj]
      exact List.mem_cons_self
  · obtain ⟨x, hx⟩ := List.exists_mem_of_ne_nil _ hA
    obtain ⟨c, hc, hxc⟩ := List.mem_flatten.1 hx
    obtain ⟨i, hi, rfl⟩ := List.getElem_of_mem hc
    have hhome := h.home i A[i] (by rw [List.getElem?_append_left hi]; simp) x hxc
    refine ⟨x, by rw [List.flatten_append]; exact List.mem_append.2 (.inl hx),
      hget (c := []) ?_ (by simp)⟩
    rw [hhome, List.getElem?_append_left (by simpa using hi)]
    simp [hi]

end Verif
