import Verif.Unwind.KeysLoose

/-! Calls and histories of calls in which the hash function or the equality panics. -/

set_option autoImplicit false

namespace Verif
open Spec

variable {K V σ : Type} {E : HEnv K V σ} {Inv : σ → HNMem K V → List Nat → Prop}
  {w : World Nat} {wn : Nat → Option (Option (HCell K V))} {m : HMem K V} {t : HTable σ}
  {bl : List Nat} {cs : List (List (Nat × K × V))} {ex : List Nat} {lost : Nat}

theorem HLoose.withKeys (h : HLoose E Inv w wn m t bl cs ex lost) (hash : K → Nat)
    (eq : K → K → Bool) : HLoose (E.withKeys hash eq) Inv w wn m t bl cs ex lost where
  core :=
    { len := h.core.len
      pos := h.core.pos
      chains := h.core.chains
      nodup := h.core.nodup
      homes := False.elim
      dist := False.elim
      fits := h.core.fits
      inv := h.core.inv
      start := h.core.start
      arr := h.core.arr
      blNodup := h.core.blNodup
      blNew := h.core.blNew
      out := h.core.out
      stat := h.core.stat
      empty := h.core.empty
      keep := h.core.keep }
  count := h.count
  arrs := h.arrs
  first := h.first

/-- One call. -/
theorem HLoose.stepU (L : HLaw E Inv) (h : HLoose E Inv w wn m t bl cs ex lost) (op : MapOp K V)
    (n : Nat) :
    (2147483776 ≤ t.count ∧ t.stepU E op n m = .error .panic) ∨
    ∃ (o : Option (MapOut K V)) (t' : HTable σ) (m' : HMem K V) (bl' : List Nat)
      (cs' : List (List (Nat × K × V))) (g : List (Nat × K × V)) (lost' : Nat) (d : List (K ⊕ V)),
      t.stepU E op n m = .ok (o, t', m') ∧
      HLoose E Inv w wn m' t' bl' cs' (g.map Prod.fst ++ ex) lost' ∧ t'.count ≤ t.count + 1 ∧
      Shaken op o (ents cs) lost (ents cs') lost' (g.map Prod.snd) d ∧
      m'.n.dropped.Perm (m.n.dropped ++ d.filter E.needs) := by
  by_cases hlim : 2147483776 ≤ t.count ∧ t.stepU E op n m = .error .panic
  · exact .inl hlim
  right
  have La : HLaw E (fun a m ps => Inv a m (ps ++ ex)) := NLaw.aside L ex
  have hcnt : t.count = (ents cs).length + lost := by rw [ents_length]; exact h.count
  -- searching
  have hfind : ∀ k : K, ∃ e b o, (∀ n, t.findU E k n m =
        .ok (if n < e + 1 then none else some (b, o, n - (e + 1)))) ∧
      ((∃ l1 l2 c1 c2 x, cs = l1 ++ (c1 ++ x :: c2) :: l2 ∧ o = some x.1 ∧
        m.node x.1 = .ok ⟨x.2.1, x.2.2, nextOf c2 0⟩) ∨
      (o = none ∧ t.bucketForKey E k m = .ok b)) := by
    intro k
    obtain ⟨e, b, o, _, e2, e3⟩ := h.core.findU k
    refine ⟨e, b, o, e3, ?_⟩
    obtain ⟨l1, c, l2, hcs, g1, g2, g3, hcase⟩ := h.core.search k
    rcases hcase with ⟨c1, x, c2, rfl, hk, hc1, hf⟩ | ⟨hc, hf⟩
    · have hcore := h.core
      rw [hcs] at hcore
      have hseg := hcore.chains _ (show c1 ++ x :: c2 ∈ l1 ++ (c1 ++ x :: c2) :: l2 by simp)
      rw [e2] at hf
      simp only [Except.ok.injEq, Prod.mk.injEq] at hf
      exact .inl ⟨l1, l2, c1, c2, x, hcs, hf.2, hseg.node.2⟩
    · rw [e2] at hf
      simp only [Except.ok.injEq, Prod.mk.injEq] at hf
      exact .inr ⟨hf.2, by rw [hf.1]; exact g2⟩
  -- removing
  have hremove : ∀ k : K, (∃ (t' : HTable σ) (m' : HMem K V) (cs' : List (List (Nat × K × V)))
        (p : K × V), t.removeEntry E k m = .ok (some p, t', m') ∧
        HLoose E Inv w wn m' t' bl cs' ex lost ∧ t'.count ≤ t.count + 1 ∧
        (ents cs).Perm (p :: ents cs') ∧ m'.n.dropped = m.n.dropped) ∨
      t.removeEntry E k m = .ok (none, t, m) := by
    intro k
    obtain ⟨l1, c, l2, hcs, g1, g2, g3, hcase⟩ := h.core.search k
    rcases hcase with ⟨c1, x, c2, rfl, hk, hc1, hf⟩ | ⟨hc, hf⟩
    · have hcore := h.core
      rw [hcs] at hcore
      have hseg := hcore.chains _ (show c1 ++ x :: c2 ∈ l1 ++ (c1 ++ x :: c2) :: l2 by simp)
      have hloop := removeLoop_ok (E := E) k hseg (fuel := t.count + 1) (by
        have := hcore.fits
        simp only [List.flatten_append, List.flatten_cons, List.length_append] at this ⊢
        omega) (s := .bucket (.loc (curArr E bl) l1.length)) g3 hc1 (by
          intro y hy
          simp at hy
          subst hy
          exact hk)
      obtain ⟨m1, a, m2, e1, e2, e3, e4, e5⟩ := hcore.removeAt La
      left
      refine ⟨{ t with al := a, count := t.count - 1 }, { m1 with n := m2 }, _, x.2, ?_,
        ⟨e3, ?_, h.arrs, fun hb => ?_⟩, ?_, ?_, e4⟩
      · simp only [HTable.removeEntry, g2, Exec.ok_bind, hloop, nextOf_cons, if_neg hseg.node.1,
          hseg.node.2, e1, e2, if_neg e5]
      · have := h.count
        rw [hcs] at this
        simp only [List.flatten_append, List.flatten_cons, List.length_append, List.length_cons]
          at this ⊢
        omega
      · have := (h.first hb).2
        exact absurd this e5
      · simp only
        omega
      · rw [hcs]; exact ents_mid_perm ..
    · have hseg := h.core.chains c (by rw [hcs]; simp)
      have hloop := removeLoop_ok (E := E) (m := m) k (c1 := c) (c2 := []) (by simpa using hseg)
        (fuel := t.count + 1) (by
        rw [h.count, hcs]
        simp only [List.flatten_append, List.flatten_cons, List.length_append, List.length_nil]
        omega) (s := .bucket (.loc (curArr E bl) l1.length)) (by rw [List.append_nil]; exact g3) hc
        (by simp)
      right
      simp only [HTable.removeEntry, g2, Exec.ok_bind, hloop, nextOf_nil, if_true]
  -- changing a value
  have hset : ∀ {l1 l2 : List (List (Nat × K × V))} {c1 c2 : List (Nat × K × V)}
      {x : Nat × K × V} {m1 : HMem K V} (f : V → V), cs = l1 ++ (c1 ++ x :: c2) :: l2 →
      HCore False E (fun a m ps => Inv a m (ps ++ ex)) w wn m1 t bl cs →
      ∃ (m2 : HMem K V) (cs' : List (List (Nat × K × V))),
        m1.modify x.1 (fun c => { c with val := f c.val }) = .ok m2 ∧
        HLoose E Inv w wn m2 t bl cs' ex lost ∧
        (∃ r, (ents cs).Perm ((x.2.1, x.2.2) :: r) ∧ (ents cs').Perm ((x.2.1, f x.2.2) :: r)) ∧
        m2.n.dropped = m1.n.dropped ∧ m2.node x.1 = .ok ⟨x.2.1, f x.2.2, nextOf c2 0⟩ := by
    intro l1 l2 c1 c2 x m1 f hcs hc
    rw [hcs] at hc
    obtain ⟨m2, e1, e2, e3, e4⟩ := hc.setNode La f
    exact ⟨m2, _, e1, h.setCore e2 (by rw [hcs]; simp),
      ⟨_, by rw [hcs]; exact ents_mid_perm .., ents_mid_perm ..⟩, e3, e4⟩
  have hmem : ∀ {l1 l2 : List (List (Nat × K × V))} {c1 c2 : List (Nat × K × V)}
      {x : Nat × K × V}, cs = l1 ++ (c1 ++ x :: c2) :: l2 → (x.2.1, x.2.2) ∈ ents cs := by
    intro l1 l2 c1 c2 x hcs
    rw [hcs, ents_mid]; simp
  have hpanic : ∀ {op : MapOp K V} {d : List (K ⊕ V)}, d.Sublist op.owns →
      Shaken op none (ents cs) lost (ents cs) lost [] d := fun {op d} hd =>
    Shaken.panics (g := []) (by simp) (fun _ => rfl) hd
  have hgrow : ∀ {op : MapOp K V} {g : List (Nat × K × V)} {cs' : List (List (Nat × K × V))}
      {d : List (K ⊕ V)}, op.adds = true → (ents cs).Perm (ents cs' ++ g.map Prod.snd) →
      d.Sublist op.owns →
      Shaken op none (ents cs) lost (ents cs') (lost + g.length) (g.map Prod.snd) d := by
    intro op g cs' d ha hp hd
    have := Shaken.panics (l := lost) hp (fun h0 => by rw [ha] at h0; cases h0) hd
    rwa [List.length_map] at this
  -- adding
  have hins : ∀ {k : K} {v : V} {b : Ptr}, t.bucketForKey E k m = .ok b →
      ∀ n, _ := fun {k v b} hb n => h.insertImplU L (k := k) (v := v) hb n
  cases op with
  | insert k v =>
    obtain ⟨e, b, o, hf, hcase⟩ := hfind k
    by_cases hn : n < e + 1
    · refine ⟨none, t, (m.dropKey E k).dropVal E v, bl, cs, [], lost, [.inl k, .inr v], ?_,
        h.setCore ((h.core.dropKey La k).dropVal La v) rfl, by omega, hpanic (.refl _), ?_⟩
      · simp only [HTable.stepU, HTable.insertU, hf, if_pos hn, Exec.ok_bind, Option.map_none]
      · rw [dropVal_dropped, dropKey_dropped, List.append_assoc, ← List.filter_append]
        exact .refl _
    · rcases hcase with ⟨l1, l2, c1, c2, x, hcs, rfl, hx⟩ | ⟨rfl, hb⟩
      · obtain ⟨m1, cs', e1, e2, ⟨r, r1, r2⟩, e4, e5⟩ := hset (fun _ => v) hcs h.core
        refine ⟨some (.val (some x.2.2)), t, m1.dropKey E k, bl, cs', [], lost, _, ?_,
          e2.setCore (e2.core.dropKey La k) rfl, by omega, .returns rfl (.insertOld r1 r2), ?_⟩
        · simp only [HTable.stepU, HTable.insertU, hf, if_neg hn, Exec.ok_bind, hx, e1,
            Option.map_some]
        · rw [dropKey_dropped, e4]
      · rcases hins (v := v) hb (n - (e + 1)) with ⟨hbig, e1⟩ |
          ⟨o, t', m', bl', cs', g, e1, e2, e3, e4⟩
        · exact absurd ⟨hbig, by simp only [HTable.stepU, HTable.insertU, hf, if_neg hn, Exec.ok_bind,
            e1, Exec.error_bind]⟩ hlim
        rcases e4 with ⟨rfl, e4, e5⟩ | ⟨p, rfl, rfl, e4, e5, _⟩
        · refine ⟨none, t', m', bl', cs', g, _, [.inl k, .inr v], ?_, e2, e3,
            hgrow rfl e4 (.refl _), by rw [e5]⟩
          simp only [HTable.stepU, HTable.insertU, hf, if_neg hn, Exec.ok_bind, e1,
            Option.map_none]
        · refine ⟨some (.val none), t', m', bl', cs', [], _, [], ?_, e2, e3,
            .returns rfl (.insertNew e4), by rw [e5]; simp⟩
          simp only [HTable.stepU, HTable.insertU, hf, if_neg hn, Exec.ok_bind, e1,
            Option.map_some]
  | remove k =>
    obtain ⟨e, he⟩ := h.core.removeU k
    by_cases hn : n < e
    · exact ⟨none, t, m, bl, cs, [], lost, [],
        by simp only [HTable.stepU, he, if_pos hn, Exec.ok_bind], h, by omega,
        hpanic (List.nil_sublist _), by simp⟩
    · rcases hremove k with ⟨t', m', cs', p, e1, e2, e3, e4, e5⟩ | e1
      · refine ⟨some (.val (some p.2)), t', m'.dropKey E p.1, bl, cs', [], lost, _, ?_,
          e2.setCore (e2.core.dropKey La p.1) rfl, e3,
          .returns rfl (.removeSome (k' := p.1) e4), ?_⟩
        · simp only [HTable.stepU, he, if_neg hn, e1, Except.map, Exec.ok_bind]
        · rw [dropKey_dropped, e5]
      · exact ⟨some (.val none), t, m, bl, cs, [], lost, [],
          by simp only [HTable.stepU, he, if_neg hn, e1, Except.map, Exec.ok_bind], h, by omega,
          .returns rfl (.removeNone (.refl _)), by simp⟩
  | removeEntry k =>
    obtain ⟨e, he⟩ := h.core.removeU k
    by_cases hn : n < e
    · exact ⟨none, t, m, bl, cs, [], lost, [],
        by simp only [HTable.stepU, he, if_pos hn, Exec.ok_bind, Option.map_none], h, by omega,
        hpanic (List.nil_sublist _), by simp⟩
    · rcases hremove k with ⟨t', m', cs', p, e1, e2, e3, e4, e5⟩ | e1
      · exact ⟨some (.pair (some p)), t', m', bl, cs', [], lost, [], by
          simp only [HTable.stepU, he, if_neg hn, e1, Except.map, Exec.ok_bind, Option.map_some],
          e2, e3, .returns rfl (.removeEntrySome e4), by rw [e5]; simp⟩
      · exact ⟨some (.pair none), t, m, bl, cs, [], lost, [], by
          simp only [HTable.stepU, he, if_neg hn, e1, Except.map, Exec.ok_bind, Option.map_some],
          h, by omega, .returns rfl (.removeEntryNone (.refl _)), by simp⟩
  | get k =>
    obtain ⟨e, b, o, hf, hcase⟩ := hfind k
    by_cases hn : n < e + 1
    · exact ⟨none, t, m, bl, cs, [], lost, [],
        by simp only [HTable.stepU, hf, if_pos hn, Exec.ok_bind], h, by omega,
        hpanic (List.nil_sublist _), by simp⟩
    · rcases hcase with ⟨l1, l2, c1, c2, x, hcs, rfl, hx⟩ | ⟨rfl, hb⟩
      · exact ⟨some (.val (some x.2.2)), t, m, bl, cs, [], lost, [], by
          simp only [HTable.stepU, hf, if_neg hn, Exec.ok_bind, hx], h, by omega,
          .returns rfl (.getSome (.refl _) (hmem hcs)), by simp⟩
      · exact ⟨some (.val none), t, m, bl, cs, [], lost, [], by
          simp only [HTable.stepU, hf, if_neg hn, Exec.ok_bind], h, by omega,
          .returns rfl (.getNone (.refl _)), by simp⟩
  | modify k f =>
    obtain ⟨e, b, o, hf, hcase⟩ := hfind k
    by_cases hn : n < e + 1
    · exact ⟨none, t, m, bl, cs, [], lost, [],
        by simp only [HTable.stepU, hf, if_pos hn, Exec.ok_bind], h, by omega,
        hpanic (List.nil_sublist _), by simp⟩
    · rcases hcase with ⟨l1, l2, c1, c2, x, hcs, rfl, hx⟩ | ⟨rfl, hb⟩
      · obtain ⟨m1, cs', e1, e2, ⟨r, r1, r2⟩, e4, e5⟩ := hset f hcs h.core
        exact ⟨some (.val (some x.2.2)), t, m1, bl, cs', [], lost, [], by
          simp only [HTable.stepU, hf, if_neg hn, Exec.ok_bind, hx, e1], e2, by omega,
          .returns rfl (.modifySome r1 r2), by rw [e4]; simp⟩
      · exact ⟨some (.val none), t, m, bl, cs, [], lost, [], by
          simp only [HTable.stepU, hf, if_neg hn, Exec.ok_bind], h, by omega,
          .returns rfl (.modifyNone (.refl _)), by simp⟩
  | contains k =>
    obtain ⟨e, b, o, hf, hcase⟩ := hfind k
    by_cases hn : n < e + 1
    · exact ⟨none, t, m, bl, cs, [], lost, [],
        by simp only [HTable.stepU, hf, if_pos hn, Exec.ok_bind], h, by omega,
        hpanic (List.nil_sublist _), by simp⟩
    · rcases hcase with ⟨l1, l2, c1, c2, x, hcs, rfl, hx⟩ | ⟨rfl, hb⟩
      · refine ⟨some (.bool true), t, m, bl, cs, [], lost, [], by
          simp only [HTable.stepU, hf, if_neg hn, Exec.ok_bind, Option.isSome_some], h, by omega,
          .returns rfl (.contains (.refl _) ?_), by simp⟩
        intro _ e
        have := hmem hcs
        rw [e] at this
        cases this
      · exact ⟨some (.bool false), t, m, bl, cs, [], lost, [], by
          simp only [HTable.stepU, hf, if_neg hn, Exec.ok_bind, Option.isSome_none], h, by omega,
          .returns rfl (.contains (.refl _) (by simp)), by simp⟩
  | entry k f v =>
    obtain ⟨e, b, o, hf, hcase⟩ := hfind k
    by_cases hn : n < e + 1
    · refine ⟨none, t, m.dropKey E k, bl, cs, [], lost, [.inl k], ?_,
        h.setCore (h.core.dropKey La k) rfl, by omega, hpanic (by simp [MapOp.owns]), ?_⟩
      · simp only [HTable.stepU, HTable.entryU, hf, if_pos hn, Exec.ok_bind]
      · rw [dropKey_dropped]
    · rcases hcase with ⟨l1, l2, c1, c2, x, hcs, rfl, hx⟩ | ⟨rfl, hb⟩
      · obtain ⟨m1, cs', e1, e2, ⟨r, r1, r2⟩, e4, e5⟩ := hset f hcs (h.core.dropKey La k)
        refine ⟨some (.val (some (f x.2.2))), t, m1.dropVal E v, bl, cs', [], lost, _, ?_,
          e2.setCore (e2.core.dropVal La v) rfl, by omega, .returns rfl (.entryOld r1 r2), ?_⟩
        · simp only [HTable.stepU, HTable.entryU, hf, if_neg hn, Exec.ok_bind, e1, dropVal_node, e5]
        · rw [dropVal_dropped, e4, dropKey_dropped, List.append_assoc, ← List.filter_append]
          exact .refl _
      · rcases hins (v := v) hb (n - (e + 1)) with ⟨hbig, e1⟩ |
          ⟨o, t', m', bl', cs', g, e1, e2, e3, e4⟩
        · exact absurd ⟨hbig, by simp only [HTable.stepU, HTable.entryU, hf, if_neg hn, Exec.ok_bind,
            e1, Exec.error_bind]⟩ hlim
        rcases e4 with ⟨rfl, e4, e5⟩ | ⟨p, rfl, rfl, e4, e5, x, e6⟩
        · refine ⟨none, t', m', bl', cs', g, _, [.inl k, .inr v], ?_, e2, e3,
            hgrow rfl e4 (.refl _), by rw [e5]⟩
          simp only [HTable.stepU, HTable.entryU, hf, if_neg hn, Exec.ok_bind, e1]
        · refine ⟨some (.val (some v)), t', m', bl', cs', [], _, [], ?_, e2, e3,
            .returns rfl (.entryNew e4), by rw [e5]; simp⟩
          simp only [HTable.stepU, HTable.entryU, hf, if_neg hn, Exec.ok_bind, e1, e6]
  | entryKey k =>
    obtain ⟨e, b, o, hf, hcase⟩ := hfind k
    have hr := h.setCore (h.core.dropKey La k) rfl
    by_cases hn : n < e + 1
    · refine ⟨none, t, m.dropKey E k, bl, cs, [], lost, [.inl k], ?_,
        hr, by omega, hpanic (by simp [MapOp.owns]), ?_⟩
      · simp only [HTable.stepU, HTable.entryU, hf, if_pos hn, Exec.ok_bind]
      · rw [dropKey_dropped]
    · rcases hcase with ⟨l1, l2, c1, c2, x, hcs, rfl, hx⟩ | ⟨rfl, hb⟩
      · exact ⟨some (.key x.2.1), t, m.dropKey E k, bl, cs, [], lost, _, by
          simp only [HTable.stepU, HTable.entryU, hf, if_neg hn, Exec.ok_bind, dropKey_node, hx],
          hr, by omega, .returns rfl (.entryKeyOld (.refl _) (hmem hcs)), by rw [dropKey_dropped]⟩
      · exact ⟨some (.key k), t, m.dropKey E k, bl, cs, [], lost, _, by
          simp only [HTable.stepU, HTable.entryU, hf, if_neg hn, Exec.ok_bind],
          hr, by omega, .returns rfl (.entryKeyNew (.refl _)), by rw [dropKey_dropped]⟩
  | len =>
    exact ⟨some (.nat ((ents cs).length + lost)), t, m, bl, cs, [], lost, [],
      by simp only [HTable.stepU, hcnt], h, by omega, .len, by simp⟩
  | isEmpty =>
    exact ⟨some (.bool (decide ((ents cs).length + lost = 0))), t, m, bl, cs, [], lost, [],
      by simp only [HTable.stepU, hcnt], h, by omega, .isEmpty, by simp⟩
  | clear =>
    obtain ⟨a, m', e1, e2, e3⟩ := h.core.freeBuckets La h.arrs
    have hents : ents (List.replicate t.bucketCount ([] : List (Nat × K × V))) = [] := by
      simp [ents]
    refine ⟨some .unit, { t with al := a, count := 0 }, m', bl, List.replicate t.bucketCount [], [],
      0, contents (ents cs), ?_, ⟨e2, by simp, h.arrs, fun hb => ⟨(h.first hb).1, rfl⟩⟩, by simp,
      by rw [hents]; exact .clear, e3⟩
    simp only [HTable.stepU, HTable.clear, e1, Exec.ok_bind]

/-- A history of calls. -/
theorem HLoose.runU (L : HLaw E Inv) (ops : List ((K → Nat) × (K → K → Bool) × Nat × MapOp K V)) :
    ∀ {m : HMem K V} {t : HTable σ} {bl : List Nat} {cs : List (List (Nat × K × V))}
      {ex : List Nat} {lost : Nat}, HLoose E Inv w wn m t bl cs ex lost →
    (2147483776 < t.count + ops.length ∧ t.runU E ops m = .error .panic) ∨
    ∃ (os : List (Option (MapOut K V))) (t' : HTable σ) (m' : HMem K V) (bl' : List Nat)
      (cs' : List (List (Nat × K × V))) (g : List (Nat × K × V)) (lost' : Nat) (d : List (K ⊕ V)),
      t.runU E ops m = .ok (os, t', m') ∧
      HLoose E Inv w wn m' t' bl' cs' (g.map Prod.fst ++ ex) lost' ∧
      ShakenRun (ops.map fun o => o.2.2.2) os (ents cs) lost (ents cs') lost' (g.map Prod.snd) d ∧
      m'.n.dropped.Perm (m.n.dropped ++ d.filter E.needs) := by
  induction ops with
  | nil =>
    intro m t bl cs ex lost h
    exact .inr ⟨[], t, m, bl, cs, [], lost, [], rfl, h, .nil, by simp⟩
  | cons op ops ih =>
    intro m t bl cs ex lost h
    obtain ⟨hash, eq, n, op⟩ := op
    simp only [List.length_cons]
    have L' : HLaw (E.withKeys hash eq) Inv := L
    rcases (h.withKeys hash eq).stepU L' op n with
      ⟨hbig, e1⟩ | ⟨o, t1, m1, bl1, cs1, g1, l1, d1, e1, e2, e3, e4, e5⟩
    · have e1' : t.stepU { E with hash := hash, eq := eq } op n m = .error .panic := e1
      exact .inl ⟨by omega, by simp only [HTable.runU, e1', Exec.error_bind]⟩
    have e1' : t.stepU { E with hash := hash, eq := eq } op n m = .ok (o, t1, m1) := e1
    rcases ih (e2.withKeys E.hash E.eq) with
      ⟨hbig, f1⟩ | ⟨os, t2, m2, bl2, cs2, g2, l2, d2, f1, f2, f3, f4⟩
    · exact .inl ⟨by omega, by simp only [HTable.runU, e1', f1, Exec.ok_bind, Exec.error_bind]⟩
    refine .inr ⟨o :: os, t2, m2, bl2, cs2, g2 ++ g1, l2, d1 ++ d2, ?_, ?_, ?_, ?_⟩
    · simp [HTable.runU, e1', f1]
    · rw [List.map_append, List.append_assoc]
      exact f2
    · rw [List.map_append]
      exact .cons e4 f3
    · have e5' : m1.n.dropped.Perm (m.n.dropped ++ d1.filter E.needs) := e5
      rw [List.filter_append, ← List.append_assoc]
      exact f4.trans (e5'.append_right _)

end Verif
