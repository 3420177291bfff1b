import Verif.HashTable.Facts
import Verif.Spec.Honest

/-! A hash table whose hash function and equality keep no contract. -/

set_option autoImplicit false

namespace Verif
open Spec

variable {K V σ : Type} {E : HEnv K V σ} {Inv : σ → HNMem K V → List Nat → Prop} {w : World Nat}
  {wn : Nat → Option (Option (HCell K V))} {m m' : HMem K V} {t t' : HTable σ} {bl : List Nat}
  {cs cs' : List (List (Nat × K × V))} {peak : Nat}

/-- Another hash function and equality for the same table. -/
def HEnv.withKeys (E : HEnv K V σ) (hash : K → Nat) (eq : K → K → Bool) : HEnv K V σ :=
  { E with hash := hash, eq := eq }

theorem HRep.withKeys (h : HRep False E Inv w wn m t peak bl cs) (hash : K → Nat)
    (eq : K → K → Bool) : HRep False (E.withKeys hash eq) Inv w wn m t peak bl cs where
  core :=
    { len := h.core.len
      pos := h.core.pos
      chains := h.core.chains
      nodup := h.core.nodup
      homes := False.elim
      dist := False.elim
      fits := h.core.fits
      inv := h.core.inv
      start := h.core.start
      arr := h.core.arr
      blNodup := h.core.blNodup
      blNew := h.core.blNew
      out := h.core.out
      stat := h.core.stat
      empty := h.core.empty
      keep := h.core.keep }
  count := h.count
  policy := h.policy
  peak := h.peak
  arrs := h.arrs

theorem ents_mid_perm (l1 l2 : List (List (Nat × K × V))) (c1 c2 : List (Nat × K × V))
    (n : Nat × K × V) : (ents (l1 ++ (c1 ++ n :: c2) :: l2)).Perm
      (n.2 :: ents (l1 ++ (c1 ++ c2) :: l2)) := by
  rw [ents_mid]
  refine List.perm_middle.trans (List.Perm.of_eq ?_)
  simp [ents]

/-- One call. -/
theorem HRep.step_any (L : HLaw E Inv) (h : HRep False E Inv w wn m t peak bl cs) (op : MapOp K V)
    (hmax : t.count < maxEntries) :
    ∃ o t' m' peak' bl' cs' d, t.step E op m = .ok (o, t', m') ∧
      HRep False E Inv w wn m' t' peak' bl' cs' ∧ t'.count ≤ t.count + 1 ∧
      Honest op o (ents cs) (ents cs') d ∧
      m'.n.dropped.Perm (m.n.dropped ++ d.filter E.needs) := by
  have hcnt : t.count = (ents cs).length := by rw [ents_length]; exact h.count
  have hfind : ∀ k : K,
      (∃ l1 l2 c1 c2 n b, cs = l1 ++ (c1 ++ n :: c2) :: l2 ∧
        t.find E k m = .ok (b, some n.1) ∧ m.node n.1 = .ok ⟨n.2.1, n.2.2, nextOf c2 0⟩) ∨
      (∃ b, t.find E k m = .ok (b, none) ∧ t.bucketForKey E k m = .ok b) := by
    intro k
    obtain ⟨l1, c, l2, hcs, g1, g2, g3, hcase⟩ := h.core.search k
    rcases hcase with ⟨c1, n, c2, rfl, hk, hc1, hf⟩ | ⟨hc, hf⟩
    · have hcore := h.core
      rw [hcs] at hcore
      have hseg := hcore.chains _ (show c1 ++ n :: c2 ∈ l1 ++ (c1 ++ n :: c2) :: l2 by simp)
      exact .inl ⟨l1, l2, c1, c2, n, _, hcs, hf, hseg.node.2⟩
    · exact .inr ⟨_, hf, g2⟩
  have hremove : ∀ k : K,
      (∃ t' m' cs' p, t.removeEntry E k m = .ok (some p, t', m') ∧
        HRep False E Inv w wn m' t' peak bl cs' ∧ t'.count ≤ t.count + 1 ∧
        (ents cs).Perm (p :: ents cs') ∧ m'.n.dropped = m.n.dropped) ∨
      t.removeEntry E k m = .ok (none, t, m) := by
    intro k
    obtain ⟨l1, c, l2, hcs, g1, g2, g3, hcase⟩ := h.core.search k
    rcases hcase with ⟨c1, n, c2, rfl, hk, hc1, hf⟩ | ⟨hc, hf⟩
    · have hcore := h.core
      rw [hcs] at hcore
      have hseg := hcore.chains _ (show c1 ++ n :: c2 ∈ l1 ++ (c1 ++ n :: c2) :: l2 by simp)
      have hloop := removeLoop_ok (E := E) k hseg (fuel := t.count + 1) (by
        have := hcore.fits
        simp only [List.flatten_append, List.flatten_cons, List.length_append] at this ⊢
        omega) (s := .bucket (.loc (curArr E bl) l1.length)) g3 hc1 (by
          intro x hx
          simp at hx
          subst hx
          exact hk)
      obtain ⟨m1, a, m2, e1, e2, e3, e4, e5⟩ := hcore.removeAt L
      left
      refine ⟨{ t with al := a, count := t.count - 1 }, { m1 with n := m2 }, _, n.2, ?_,
        h.setCore e3 rfl rfl ?_ rfl ?_, ?_, ?_, e4⟩
      · simp only [HTable.removeEntry, g2, Exec.ok_bind, hloop, nextOf_cons, if_neg hseg.node.1,
          hseg.node.2, e1, e2, if_neg e5]
      · have := h.peak
        simp only
        omega
      · rw [h.count, hcs]
        simp only [List.flatten_append, List.flatten_cons, List.length_append, List.length_cons]
        omega
      · simp only
        omega
      · rw [hcs]; exact ents_mid_perm ..
    · have hseg := h.core.chains c (by rw [hcs]; simp)
      have hloop := removeLoop_ok (E := E) (m := m) k (c1 := c) (c2 := []) (by simpa using hseg)
        (fuel := t.count + 1) (by
        rw [h.count, hcs]
        simp only [List.flatten_append, List.flatten_cons, List.length_append, List.length_nil]
        omega) (s := .bucket (.loc (curArr E bl) l1.length)) (by rw [List.append_nil]; exact g3) hc (by simp)
      right
      simp only [HTable.removeEntry, g2, Exec.ok_bind, hloop, nextOf_nil, if_true]
  have hins : ∀ {k : K} {b : Ptr} (v : V), t.bucketForKey E k m = .ok b →
      ∃ p t' m' peak' bl' cs', t.insertImpl E b k v m = .ok (p, t', m') ∧
        HRep False E Inv w wn m' t' peak' bl' cs' ∧ t'.count ≤ t.count + 1 ∧
        (ents cs').Perm ((k, v) :: ents cs) ∧ m'.n.dropped = m.n.dropped ∧
        ∃ x, m'.node p = .ok ⟨k, v, x⟩ := by
    intro k b v hb
    obtain ⟨p, t', m', bl', cs', e1, e2, e3, e4, e5, e6, e7, e8, e9⟩ :=
      h.insertImpl L False.elim (v := v) False.elim hmax hb
    refine ⟨p, t', m', _, bl', cs', e1, e2, ?_, e5.map _, e7, e8⟩
    rw [e2.count, h.count, e5.length_eq, List.length_cons]
  have hset : ∀ {l1 l2 : List (List (Nat × K × V))} {c1 c2 : List (Nat × K × V)}
      {n : Nat × K × V} {m1 : HMem K V} (f : V → V), cs = l1 ++ (c1 ++ n :: c2) :: l2 →
      HCore False E Inv w wn m1 t bl cs →
      ∃ m2 cs', m1.modify n.1 (fun c => { c with val := f c.val }) = .ok m2 ∧
        HRep False E Inv w wn m2 t peak bl cs' ∧
        (∃ r, (ents cs).Perm ((n.2.1, n.2.2) :: r) ∧ (ents cs').Perm ((n.2.1, f n.2.2) :: r)) ∧
        m2.n.dropped = m1.n.dropped ∧ m2.node n.1 = .ok ⟨n.2.1, f n.2.2, nextOf c2 0⟩ := by
    intro l1 l2 c1 c2 n m1 f hcs hc
    rw [hcs] at hc
    obtain ⟨m2, e1, e2, e3, e4⟩ := hc.setNode L f
    exact ⟨m2, _, e1, h.setCore e2 rfl rfl h.peak rfl (by rw [h.count, hcs]; simp),
      ⟨_, by rw [hcs]; exact ents_mid_perm .., ents_mid_perm ..⟩, e3, e4⟩
  have hmem : ∀ {l1 l2 : List (List (Nat × K × V))} {c1 c2 : List (Nat × K × V)}
      {n : Nat × K × V}, cs = l1 ++ (c1 ++ n :: c2) :: l2 → (n.2.1, n.2.2) ∈ ents cs := by
    intro l1 l2 c1 c2 n hcs
    rw [hcs, ents_mid]; simp
  cases op with
  | insert k v =>
    rcases hfind k with ⟨l1, l2, c1, c2, n, b, hcs, hf, hn⟩ | ⟨b, hf, hb⟩
    · obtain ⟨m1, cs', e1, e2, ⟨r, r1, r2⟩, e4, e5⟩ := hset (fun _ => v) hcs h.core
      refine ⟨_, t, m1.dropKey E k, peak, bl, cs', _, ?_,
        e2.setCore (e2.core.dropKey L k) rfl rfl e2.peak rfl e2.count, by omega, .insertOld r1 r2, ?_⟩
      · simp only [HTable.step, HTable.insert, hf, Exec.ok_bind, hn, e1]
      · rw [dropKey_dropped, e4]
    · obtain ⟨p, t', m', peak', bl', cs', e1, e2, e3, e4, e5, x, e6⟩ := hins v hb
      refine ⟨_, t', m', peak', bl', cs', _, ?_, e2, e3, .insertNew e4, by rw [e5]; simp⟩
      simp only [HTable.step, HTable.insert, hf, Exec.ok_bind, e1]
  | remove k =>
    rcases hremove k with ⟨t', m', cs', p, e1, e2, e3, e4, e5⟩ | e1
    · refine ⟨_, t', m'.dropKey E p.1, peak, bl, cs', _, ?_,
        e2.setCore (e2.core.dropKey L p.1) rfl rfl e2.peak rfl e2.count, e3, .removeSome (k' := p.1) e4, ?_⟩
      · simp only [HTable.step, HTable.remove, e1, Exec.ok_bind]
      · rw [dropKey_dropped, e5]
    · exact ⟨_, t, m, peak, bl, cs, _, by simp only [HTable.step, HTable.remove, e1, Exec.ok_bind],
        h, by omega, .removeNone (.refl _), by simp⟩
  | removeEntry k =>
    rcases hremove k with ⟨t', m', cs', p, e1, e2, e3, e4, e5⟩ | e1
    · exact ⟨_, t', m', peak, bl, cs', _, by simp only [HTable.step, e1, Exec.ok_bind], e2, e3,
        .removeEntrySome e4, by rw [e5]; simp⟩
    · exact ⟨_, t, m, peak, bl, cs, _, by simp only [HTable.step, e1, Exec.ok_bind],
        h, by omega, .removeEntryNone (.refl _), by simp⟩
  | get k =>
    rcases hfind k with ⟨l1, l2, c1, c2, n, b, hcs, hf, hn⟩ | ⟨b, hf, hb⟩
    · exact ⟨_, t, m, peak, bl, cs, _, by
        simp only [HTable.step, HTable.get, hf, Exec.ok_bind, hn]; rfl, h, by omega,
        .getSome (.refl _) (hmem hcs), by simp⟩
    · exact ⟨_, t, m, peak, bl, cs, _, by
        simp only [HTable.step, HTable.get, hf, Exec.ok_bind]; rfl, h, by omega,
        .getNone (.refl _), by simp⟩
  | modify k f =>
    rcases hfind k with ⟨l1, l2, c1, c2, n, b, hcs, hf, hn⟩ | ⟨b, hf, hb⟩
    · obtain ⟨m1, cs', e1, e2, ⟨r, r1, r2⟩, e4, e5⟩ := hset f hcs h.core
      refine ⟨_, t, m1, peak, bl, cs', _, ?_, e2, by omega, .modifySome r1 r2, by rw [e4]; simp⟩
      simp only [HTable.step, HTable.modify, hf, Exec.ok_bind, hn, e1]
    · exact ⟨_, t, m, peak, bl, cs, _, by
        simp only [HTable.step, HTable.modify, hf, Exec.ok_bind], h, by omega,
        .modifyNone (.refl _), by simp⟩
  | contains k =>
    rcases hfind k with ⟨l1, l2, c1, c2, n, b, hcs, hf, hn⟩ | ⟨b, hf, hb⟩
    · refine ⟨_, t, m, peak, bl, cs, _, by
        simp only [HTable.step, HTable.containsKey, HTable.get, hf, Exec.ok_bind, hn]; rfl, h, by omega,
        .contains (.refl _) ?_, by simp⟩
      intro _ e
      have := hmem hcs
      rw [e] at this
      cases this
    · exact ⟨_, t, m, peak, bl, cs, _, by
        simp only [HTable.step, HTable.containsKey, HTable.get, hf, Exec.ok_bind]; rfl, h, by omega,
        .contains (.refl _) (by simp), by simp⟩
  | entry k f v =>
    rcases hfind k with ⟨l1, l2, c1, c2, n, b, hcs, hf, hn⟩ | ⟨b, hf, hb⟩
    · obtain ⟨m1, cs', e1, e2, ⟨r, r1, r2⟩, e4, e5⟩ := hset f hcs (h.core.dropKey L k)
      refine ⟨_, t, m1.dropVal E v, peak, bl, cs', _, ?_,
        e2.setCore (e2.core.dropVal L v) rfl rfl e2.peak rfl e2.count, by omega, .entryOld r1 r2, ?_⟩
      · simp only [HTable.step, HTable.entry, hf, Exec.ok_bind, HEntry.andModify, e1,
          HEntry.orInsert, HEntry.orInsertWith, Bool.false_eq_true, if_false, dropVal_node, e5]
      · rw [dropVal_dropped, e4, dropKey_dropped, List.append_assoc, ← List.filter_append]
        exact .refl _
    · obtain ⟨p, t', m', peak', bl', cs', e1, e2, e3, e4, e5, x, e6⟩ := hins v hb
      refine ⟨_, t', m', peak', bl', cs', _, ?_, e2, e3, .entryNew e4, by rw [e5]; simp⟩
      simp only [HTable.step, HTable.entry, hf, Exec.ok_bind, HEntry.andModify,
        HEntry.orInsert, HEntry.orInsertWith, e1, if_true, e6]
  | entryKey k =>
    have hr := h.setCore (h.core.dropKey L k) rfl rfl h.peak rfl h.count
    rcases hfind k with ⟨l1, l2, c1, c2, n, b, hcs, hf, hn⟩ | ⟨b, hf, hb⟩
    · exact ⟨_, t, m.dropKey E k, peak, bl, cs, _, by
        simp only [HTable.step, HTable.entry, hf, Exec.ok_bind, dropKey_node, hn, HEntry.discard],
        hr, by omega, .entryKeyOld (.refl _) (hmem hcs), by rw [dropKey_dropped]⟩
    · exact ⟨_, t, m.dropKey E k, peak, bl, cs, _, by
        simp only [HTable.step, HTable.entry, hf, Exec.ok_bind, HEntry.discard],
        hr, by omega, .entryKeyNew (.refl _), by rw [dropKey_dropped]⟩
  | len =>
    exact ⟨_, t, m, peak, bl, cs, _, by simp only [HTable.step, hcnt], h, by omega, .len (.refl _),
      by simp⟩
  | isEmpty =>
    refine ⟨_, t, m, peak, bl, cs, _, ?_, h, by omega, .isEmpty (.refl _), by simp⟩
    simp only [HTable.step, hcnt]
    cases ents cs <;> simp
  | clear =>
    obtain ⟨a, m', e1, e2, e3⟩ := h.freeBuckets L
    have hents : ents (List.replicate t.bucketCount ([] : List (Nat × K × V))) = [] := by simp [ents]
    refine ⟨_, { t with al := a, count := 0 }, m', peak, bl, List.replicate t.bucketCount [], _, ?_,
      h.setCore e2 rfl rfl (Nat.zero_le _) rfl (by simp), by simp, by rw [hents]; exact .clear, e3⟩
    simp only [HTable.step, HTable.clear, e1, Exec.ok_bind]

/-- A history of calls during which hash function and equality change from call to call. -/
def HTable.runAny (E : HEnv K V σ) :
    List ((K → Nat) × (K → K → Bool) × MapOp K V) → HTable σ → HMem K V →
    Exec (List (MapOut K V) × HTable σ × HMem K V)
  | [], t, m => .ok ([], t, m)
  | (hash, eq, op) :: ops, t, m => do
    let (o, t, m) ← t.step { E with hash := hash, eq := eq } op m
    let (os, t, m) ← HTable.runAny E ops t m
    .ok (o :: os, t, m)

theorem HRep.run_any (L : HLaw E Inv) (ops : List ((K → Nat) × (K → K → Bool) × MapOp K V)) :
    ∀ {m : HMem K V} {t : HTable σ} {peak : Nat} {bl : List Nat} {cs : List (List (Nat × K × V))},
    HRep False E Inv w wn m t peak bl cs → t.count + ops.length ≤ maxEntries →
    ∃ os t' m' peak' bl' cs' d, t.runAny E ops m = .ok (os, t', m') ∧
      HRep False E Inv w wn m' t' peak' bl' cs' ∧
      HonestRun (ops.map fun o => o.2.2) os (ents cs) (ents cs') d ∧
      m'.n.dropped.Perm (m.n.dropped ++ d.filter E.needs) := by
  induction ops with
  | nil => intro m t peak bl cs h _; exact ⟨[], t, m, peak, bl, cs, [], rfl, h, .nil, by simp⟩
  | cons op ops ih =>
    intro m t peak bl cs h hmax
    obtain ⟨hash, eq, op⟩ := op
    simp only [List.length_cons] at hmax
    have L' : HLaw (E.withKeys hash eq) Inv := L
    obtain ⟨o, t1, m1, p1, bl1, cs1, d1, e1, e2, e3, e4, e5⟩ :=
      (h.withKeys hash eq).step_any L' op (by omega)
    obtain ⟨os, t2, m2, p2, bl2, cs2, d2, f1, f2, f3, f4⟩ :=
      ih (e2.withKeys E.hash E.eq) (by omega)
    have e1' : t.step { E with hash := hash, eq := eq } op m = .ok (o, t1, m1) := e1
    refine ⟨o :: os, t2, m2, p2, bl2, cs2, d1 ++ d2, ?_, f2, .cons e4 f3, ?_⟩
    · simp [HTable.runAny, e1', f1]
    · have e5' : m1.n.dropped.Perm (m.n.dropped ++ d1.filter E.needs) := e5
      rw [List.filter_append, ← List.append_assoc]
      exact f4.trans (e5'.append_right _)

end Verif
