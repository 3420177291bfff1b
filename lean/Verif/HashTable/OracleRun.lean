import Verif.HashTable.OracleMove

/-! Calls and histories of calls when hash function and equality have a state and may panic. -/

set_option autoImplicit false

namespace Verif
open Spec

variable {τ K V σ : Type} {E : HEnv K V σ} {F : HashFns τ K}
  {Inv : σ → HNMem K V → List Nat → Prop}
  {w : World Nat} {wn : Nat → Option (Option (HCell K V))} {m : HMem K V} {t : HTable σ}
  {bl : List Nat} {cs : List (List (Nat × K × V))} {ex : List Nat} {lost : Nat}

theorem HCore.withKeys (h : HCore False E Inv w wn m t bl cs) (hash : K → Nat)
    (eq : K → K → Bool) : HCore False (E.withKeys hash eq) Inv w wn m t bl cs where
  len := h.len
  pos := h.pos
  chains := h.chains
  nodup := h.nodup
  homes := False.elim
  dist := False.elim
  fits := h.fits
  inv := h.inv
  start := h.start
  arr := h.arr
  blNodup := h.blNodup
  blNew := h.blNew
  out := h.out
  stat := h.stat
  empty := h.empty
  keep := h.keep

/-- Adding a node to any bucket. -/
theorem HCore.pushAt (L : HLaw E Inv) {l1 l2 : List (List (Nat × K × V))}
    {c : List (Nat × K × V)} (k : K) (v : V) (h : HCore False E Inv w wn m t bl (l1 ++ c :: l2))
    (hbl : bl ≠ []) :
    ∃ p a n n' m', E.A.alloc E.size E.align t.al m.n = .ok (p, a, n) ∧
      m.b.read (.loc (curArr E bl) l1.length) = .ok (nextOf c 0) ∧
      n.modify p (fun _ => some ⟨k, v, nextOf c 0⟩) = .ok n' ∧
      ({ m with n := n' } : HMem K V).writeBucket E (.loc (curArr E bl) l1.length) p = .ok m' ∧
      HCore False E Inv w wn m' { t with al := a, count := t.count + 1 } bl
        (l1 ++ ((p, k, v) :: c) :: l2) ∧
      m'.n.dropped = m.n.dropped ∧ m'.node p = .ok ⟨k, v, nextOf c 0⟩ := by
  have hlt : l1.length < t.bucketCount := by rw [← h.len]; simp
  have L' : HLaw (E.withKeys (fun _ => l1.length) E.eq) Inv := L
  obtain ⟨p, a, n, n', m', e1, e2, e3, e4, e5, e6, e7, e8⟩ :=
    (h.withKeys (fun _ => l1.length) E.eq).push L' False.elim (k := k) (v := v)
      (Nat.mod_eq_of_lt hlt).symm False.elim hbl
  exact ⟨p, a, n, n', m', e1, e2, e3, e4, e5.withKeys E.hash E.eq, e7, e8⟩

theorem HLoose.insertImplO (L : HLaw E Inv) (h : HLoose E Inv w wn m t bl cs ex lost) {k : K} {v : V}
    {l1 l2 : List (List (Nat × K × V))} {c : List (Nat × K × V)}
    (hcs : cs = l1 ++ c :: l2) (s : τ) :
    (2147483776 ≤ t.count ∧
      t.insertImplO E F (.loc (curArr E bl) l1.length) k v s m = .error .panic) ∨
    ∃ (o : Option Nat) (s' : τ) (t' : HTable σ) (m' : HMem K V) (bl' : List Nat)
      (cs' : List (List (Nat × K × V))) (g : List (Nat × K × V)),
      t.insertImplO E F (.loc (curArr E bl) l1.length) k v s m = .ok (o, s', t', m') ∧
      HLoose E Inv w wn m' t' bl' cs' (g.map Prod.fst ++ ex) (lost + g.length) ∧
      t'.count ≤ t.count + 1 ∧ (F.Calm → o ≠ none) ∧
      ((o = none ∧ (ents cs).Perm (ents cs' ++ g.map Prod.snd) ∧
        m'.n.dropped = m.n.dropped ++ [Sum.inl k, Sum.inr v].filter E.needs) ∨
      (∃ p, o = some p ∧ g = [] ∧ (ents cs').Perm ((k, v) :: ents cs) ∧
        m'.n.dropped = m.n.dropped ∧ ∃ x, m'.node p = .ok ⟨k, v, x⟩)) := by
  rcases policy_any t.nextResize t.bucketCount t.count with ⟨r, nr, p1, p2⟩ | ⟨p1, p2⟩
  swap
  · exact .inl ⟨p1, by simp only [HTable.insertImplO, p2, Exec.error_bind]⟩
  right
  have La : NLaw E.A none E.size E.align E.size E.align (fun a m ps => Inv a m (ps ++ ex)) :=
    NLaw.aside L ex
  have hc0 := h.core.resize nr
  -- dropping key and value
  have hdrops : ∀ m1 : HMem K V, m1.n.dropped = m.n.dropped →
      ((m1.dropKey E k).dropVal E v).n.dropped =
        m.n.dropped ++ [Sum.inl k, Sum.inr v].filter E.needs := by
    intro m1 hm1
    rw [dropVal_dropped, dropKey_dropped, hm1, List.append_assoc, ← List.filter_append]
    rfl
  -- adding the node
  have hpush : ∀ {s1 : τ} {t1 : HTable σ} {m1 : HMem K V} {bl1 : List Nat}
      {l1 l2 : List (List (Nat × K × V))} {c : List (Nat × K × V)},
      HCore False E (fun a m ps => Inv a m (ps ++ ex)) w wn m1 t1 bl1 (l1 ++ c :: l2) →
      bl1 ≠ [] → t1.bucketCount ≠ 1 → t1.count = t.count →
      m1.n.dropped = m.n.dropped → (l1 ++ c :: l2).flatten.Perm cs.flatten →
      ∃ (p : Nat) (t' : HTable σ) (m' : HMem K V) (cs' : List (List (Nat × K × V))), (do
        let (p, a, n) ← E.A.alloc E.size E.align t1.al m1.n
        let m : HMem K V := { m1 with n := n }
        let h ← m.b.read (.loc (curArr E bl1) l1.length)
        let n ← m.n.modify p fun _ => some ⟨k, v, h⟩
        let m : HMem K V := { m with n := n }
        let m ← m.writeBucket E (.loc (curArr E bl1) l1.length) p
        (.ok (some p, s1, { t1 with al := a, count := t1.count + 1 }, m) :
          Exec (Option Nat × τ × HTable σ × HMem K V))) = .ok (some p, s1, t', m') ∧
      HLoose E Inv w wn m' t' bl1 cs' ex lost ∧ t'.count ≤ t.count + 1 ∧
      (ents cs').Perm ((k, v) :: ents cs) ∧
      m'.n.dropped = m.n.dropped ∧ ∃ x, m'.node p = .ok ⟨k, v, x⟩ := by
    intro s1 t1 m1 bl1 l1 l2 c hc hb1 hbc hcnt hd hp
    obtain ⟨p, a, n, n', m2, f1, f2, f3, f4, f5, f7, f8⟩ := hc.pushAt La k v hb1
    refine ⟨p, _, m2, _, by simp only [f1, Exec.ok_bind, f2, f3, f4],
      ⟨f5, ?_, fun hb => absurd hb hbc, fun hb => absurd hb hb1⟩, by simp [hcnt], ?_,
      by rw [f7, hd], _, f8⟩
    · have h1 := hp.length_eq
      have h2 := h.count
      simp only [List.flatten_append, List.flatten_cons, List.length_append, List.length_cons]
        at h1 ⊢
      omega
    · refine List.Perm.trans ?_ ((hp.map Prod.snd).cons _)
      simp only [ents, List.flatten_append, List.flatten_cons, List.cons_append, List.map_append,
        List.map_cons]
      exact List.perm_middle
  cases r with
  | none =>
    have hbl : bl ≠ [] := by
      intro hb
      obtain ⟨h1, h2⟩ := h.first hb
      have hl := h.core.len
      rw [h.core.empty hb] at hl
      simp only [List.length_cons, List.length_nil, Nat.zero_add] at hl
      rw [h1, h2, ← hl, policy_first] at p1
      cases p1
    rw [hcs] at hc0
    obtain ⟨p, t', m', cs', e1, e2, e3, e4, e5, e6⟩ := hpush (s1 := s) hc0 hbl
      (fun hb => hbl (h.arrs hb)) rfl rfl (by rw [hcs])
    refine ⟨some p, s, t', m', bl, cs', [], ?_, e2, e3, by simp, .inr ⟨p, rfl, rfl, e4, e5, e6⟩⟩
    simp only [HTable.insertImplO, p1, Exec.ok_bind]
    exact e1
  | some b =>
    have hb1 := p2 b rfl
    rcases hc0.rehashO La (F := F) (bc := b) (by omega) s with
      ⟨s1, t1, m1, nb, cs1, e1, e2, e3, e4, e5, e6, e7⟩ |
        ⟨s1, m1, nb, b0, bs, cs1, g, e1, e2, rfl, e4, e5, e6⟩
    · rcases hh : F.hash s1 k with ⟨_ | hk, s2⟩
      · refine ⟨none, s2, t1, (m1.dropKey E k).dropVal E v, nb :: bl, cs1, [], ?_,
          ⟨(e2.dropKey La k).dropVal La v, ?_, fun hb => by omega, by simp⟩,
          (show t1.count ≤ t.count + 1 from by
            have h3 : t1.count = t.count := e5
            omega), fun hc => absurd (by rw [hh]) (hc.1 s1 k),
          .inl ⟨rfl, ?_, hdrops m1 e7⟩⟩
        · simp only [HTable.insertImplO, p1, Exec.ok_bind, e1, hh]
        · have h1 := h.count
          have h2 := e3.length_eq
          have h3 : t1.count = t.count := e5
          simp only [List.length_nil]
          omega
        · rw [List.map_nil, List.append_nil]
          exact (e3.map Prod.snd).symm
      · obtain ⟨l1', c', l2', rfl, _, g2, _⟩ := e2.bucketAt hk
        obtain ⟨p, t', m', cs', f1, f2, f3, f4, f5, f6⟩ := hpush (s1 := s2) e2 (by simp)
          (fun hb => by omega) e5 e7 e3
        refine ⟨some p, s2, t', m', nb :: bl, cs', [], ?_, f2, f3, by simp,
          .inr ⟨p, rfl, rfl, f4, f5, f6⟩⟩
        simp only [HTable.insertImplO, p1, Exec.ok_bind, e1, hh, g2]
        exact f1
    · have hL2 := (La.aside (g.map Prod.fst))
      refine ⟨none, s1, _, (m1.dropKey E k).dropVal E v, b0 :: nb :: bs, cs1, g, ?_,
        ⟨((e5.dropKey hL2 k).dropVal hL2 v).mono ?_, ?_, ?_, by simp⟩, by simp,
        fun hc => absurd hc e2, .inl ⟨rfl, ?_, hdrops m1 e6⟩⟩
      · simp only [HTable.insertImplO, p1, Exec.ok_bind, e1]
      · have := ((e5.dropKey hL2 k).dropVal hL2 v).inv
        simpa only [List.append_assoc] using this
      · have h1 := h.count
        have h2 := e4.length_eq
        rw [List.length_append] at h2
        simp only
        omega
      · intro hb
        have := h.arrs hb
        cases this
      · have := e4.map Prod.snd
        rw [List.map_append] at this
        exact this

/-- One call. -/
theorem HLoose.stepO (L : HLaw E Inv) (h : HLoose E Inv w wn m t bl cs ex lost) (op : MapOp K V)
    (s : τ) :
    (2147483776 ≤ t.count ∧ t.stepO E F op s m = .error .panic) ∨
    ∃ (o : Option (MapOut K V)) (s' : τ) (t' : HTable σ) (m' : HMem K V) (bl' : List Nat)
      (cs' : List (List (Nat × K × V))) (g : List (Nat × K × V)) (lost' : Nat) (d : List (K ⊕ V)),
      t.stepO E F op s m = .ok (o, s', t', m') ∧ (F.Calm → o ≠ none) ∧
      HLoose E Inv w wn m' t' bl' cs' (g.map Prod.fst ++ ex) lost' ∧ t'.count ≤ t.count + 1 ∧
      Shaken op o (ents cs) lost (ents cs') lost' (g.map Prod.snd) d ∧
      m'.n.dropped.Perm (m.n.dropped ++ d.filter E.needs) := by
  by_cases hlim : 2147483776 ≤ t.count ∧ t.stepO E F op s m = .error .panic
  · exact .inl hlim
  right
  have La : HLaw E (fun a m ps => Inv a m (ps ++ ex)) := NLaw.aside L ex
  have hcnt : t.count = (ents cs).length + lost := by rw [ents_length]; exact h.count
  -- removing
  have hremove : ∀ k : K, ∃ s', (∃ (t' : HTable σ) (m' : HMem K V) (cs' : List (List (Nat × K × V)))
        (p : K × V), t.removeEntryO E F k s m = .ok (some (some p), s', t', m') ∧
        HLoose E Inv w wn m' t' bl cs' ex lost ∧ t'.count ≤ t.count + 1 ∧
        (ents cs).Perm (p :: ents cs') ∧ m'.n.dropped = m.n.dropped) ∨
      t.removeEntryO E F k s m = .ok (some none, s', t, m) ∨
      (¬ F.Calm ∧ t.removeEntryO E F k s m = .ok (none, s', t, m)) := by
    intro k
    rcases hh : F.hash s k with ⟨_ | hk, s1⟩
    · exact ⟨s1, .inr (.inr ⟨fun hc => absurd (by rw [hh]) (hc.1 s k),
        by simp only [HTable.removeEntryO, hh]⟩)⟩
    obtain ⟨l1, c, l2, hcs, g1, g2, g3⟩ := h.core.bucketAt hk
    have hcore := h.core
    rw [hcs] at hcore
    have hseg := hcore.chains c (by simp)
    obtain ⟨o, s2, e1, e2, e3⟩ := removeLoopO_ok (F := F) k s1 hseg (fuel := t.count + 1) (by
        have := hcore.fits
        simp only [List.flatten_append, List.flatten_cons, List.length_append] at this ⊢
        omega) (sl := .bucket (.loc (curArr E bl) l1.length)) g3
    refine ⟨s2, ?_⟩
    cases o with
    | none =>
      exact .inr (.inr ⟨fun hc => e2 hc rfl, by simp only [HTable.removeEntryO, hh, g2, Exec.ok_bind, e1]⟩)
    | some r =>
      obtain ⟨c1, c2, rfl, rfl⟩ := e3 r rfl
      cases c2 with
      | nil =>
        refine .inr (.inl ?_)
        simp only [HTable.removeEntryO, hh, g2, Exec.ok_bind, e1, nextOf_nil, if_true]
      | cons x c2 =>
        obtain ⟨m1, a, m2, f1, f2, f3, f4, f5⟩ := hcore.removeAt La
        left
        refine ⟨{ t with al := a, count := t.count - 1 }, { m1 with n := m2 }, _, x.2, ?_,
          ⟨f3, ?_, h.arrs, fun hb => ?_⟩, ?_, ?_, f4⟩
        · simp only [HTable.removeEntryO, hh, g2, Exec.ok_bind, e1, nextOf_cons, if_neg hseg.node.1,
            hseg.node.2, f1, f2, if_neg f5]
        · have := h.count
          rw [hcs] at this
          simp only [List.flatten_append, List.flatten_cons, List.length_append, List.length_cons]
            at this ⊢
          omega
        · have := (h.first hb).2
          exact absurd this f5
        · simp only
          omega
        · rw [hcs]; exact ents_mid_perm ..
  -- changing a value
  have hset : ∀ {l1 l2 : List (List (Nat × K × V))} {c1 c2 : List (Nat × K × V)}
      {x : Nat × K × V} {m1 : HMem K V} (f : V → V), cs = l1 ++ (c1 ++ x :: c2) :: l2 →
      HCore False E (fun a m ps => Inv a m (ps ++ ex)) w wn m1 t bl cs →
      ∃ (m2 : HMem K V) (cs' : List (List (Nat × K × V))),
        m1.modify x.1 (fun c => { c with val := f c.val }) = .ok m2 ∧
        HLoose E Inv w wn m2 t bl cs' ex lost ∧
        (∃ r, (ents cs).Perm ((x.2.1, x.2.2) :: r) ∧ (ents cs').Perm ((x.2.1, f x.2.2) :: r)) ∧
        m2.n.dropped = m1.n.dropped ∧ m2.node x.1 = .ok ⟨x.2.1, f x.2.2, nextOf c2 0⟩ := by
    intro l1 l2 c1 c2 x m1 f hcs hc
    rw [hcs] at hc
    obtain ⟨m2, e1, e2, e3, e4⟩ := hc.setNode La f
    exact ⟨m2, _, e1, h.setCore e2 (by rw [hcs]; simp),
      ⟨_, by rw [hcs]; exact ents_mid_perm .., ents_mid_perm ..⟩, e3, e4⟩
  have hmem : ∀ {l1 l2 : List (List (Nat × K × V))} {c1 c2 : List (Nat × K × V)}
      {x : Nat × K × V}, cs = l1 ++ (c1 ++ x :: c2) :: l2 → (x.2.1, x.2.2) ∈ ents cs := by
    intro l1 l2 c1 c2 x hcs
    rw [hcs, ents_mid]; simp
  have hpanic : ∀ {op : MapOp K V} {d : List (K ⊕ V)}, d.Sublist op.owns →
      Shaken op none (ents cs) lost (ents cs) lost [] d := fun {op d} hd =>
    Shaken.panics (g := []) (by simp) (fun _ => rfl) hd
  have hgrow : ∀ {op : MapOp K V} {g : List (Nat × K × V)} {cs' : List (List (Nat × K × V))}
      {d : List (K ⊕ V)}, op.adds = true → (ents cs).Perm (ents cs' ++ g.map Prod.snd) →
      d.Sublist op.owns →
      Shaken op none (ents cs) lost (ents cs') (lost + g.length) (g.map Prod.snd) d := by
    intro op g cs' d ha hp hd
    have := Shaken.panics (l := lost) hp (fun h0 => by rw [ha] at h0; cases h0) hd
    rwa [List.length_map] at this
  cases op with
  | insert k v =>
    obtain ⟨o, s1, hf, hcalm, rfl | ⟨b, l1, l2, c1, c2, x, rfl, hcs, hx⟩ | ⟨l1, c, l2, rfl, hcs⟩⟩ :=
      h.core.findO (F := F) k s
    · refine ⟨none, s1, t, (m.dropKey E k).dropVal E v, bl, cs, [], lost, [.inl k, .inr v], ?_,
        fun hc => absurd rfl (hcalm hc),
        h.setCore ((h.core.dropKey La k).dropVal La v) rfl, by omega, hpanic (.refl _), ?_⟩
      · simp only [HTable.stepO, HTable.insertO, hf, Exec.ok_bind, Option.map_none]
      · rw [dropVal_dropped, dropKey_dropped, List.append_assoc, ← List.filter_append]
        exact .refl _
    · obtain ⟨m1, cs', e1, e2, ⟨r, r1, r2⟩, e4, e5⟩ := hset (fun _ => v) hcs h.core
      refine ⟨some (.val (some x.2.2)), s1, t, m1.dropKey E k, bl, cs', [], lost, _, ?_, by simp,
        e2.setCore (e2.core.dropKey La k) rfl, by omega, .returns rfl (.insertOld r1 r2), ?_⟩
      · simp only [HTable.stepO, HTable.insertO, hf, Exec.ok_bind, hx, e1, Option.map_some]
      · rw [dropKey_dropped, e4]
    · rcases h.insertImplO L (F := F) (k := k) (v := v) hcs s1 with ⟨hbig, e1⟩ |
        ⟨o, s2, t', m', bl', cs', g, e1, e2, e3, e6, e4⟩
      · exact absurd ⟨hbig, by simp only [HTable.stepO, HTable.insertO, hf, Exec.ok_bind, e1,
          Exec.error_bind]⟩ hlim
      rcases e4 with ⟨rfl, e4, e5⟩ | ⟨p, rfl, rfl, e4, e5, _⟩
      · refine ⟨none, s2, t', m', bl', cs', g, _, [.inl k, .inr v], ?_,
          fun hc => absurd rfl (e6 hc), e2, e3,
          hgrow rfl e4 (.refl _), by rw [e5]⟩
        simp only [HTable.stepO, HTable.insertO, hf, Exec.ok_bind, e1, Option.map_none]
      · refine ⟨some (.val none), s2, t', m', bl', cs', [], _, [], ?_, by simp, e2, e3,
          .returns rfl (.insertNew e4), by rw [e5]; simp⟩
        simp only [HTable.stepO, HTable.insertO, hf, Exec.ok_bind, e1, Option.map_some]
  | remove k =>
    obtain ⟨s1, ⟨t', m', cs', p, e1, e2, e3, e4, e5⟩ | e1 | ⟨hc, e1⟩⟩ := hremove k
    · refine ⟨some (.val (some p.2)), s1, t', m'.dropKey E p.1, bl, cs', [], lost, _, ?_, by simp,
        e2.setCore (e2.core.dropKey La p.1) rfl, e3,
        .returns rfl (.removeSome (k' := p.1) e4), ?_⟩
      · simp only [HTable.stepO, e1, Exec.ok_bind]
      · rw [dropKey_dropped, e5]
    · exact ⟨some (.val none), s1, t, m, bl, cs, [], lost, [],
        by simp only [HTable.stepO, e1, Exec.ok_bind], by simp, h, by omega,
        .returns rfl (.removeNone (.refl _)), by simp⟩
    · exact ⟨none, s1, t, m, bl, cs, [], lost, [],
        by simp only [HTable.stepO, e1, Exec.ok_bind], fun h => absurd h hc, h, by omega,
        hpanic (List.nil_sublist _), by simp⟩
  | removeEntry k =>
    obtain ⟨s1, ⟨t', m', cs', p, e1, e2, e3, e4, e5⟩ | e1 | ⟨hc, e1⟩⟩ := hremove k
    · exact ⟨some (.pair (some p)), s1, t', m', bl, cs', [], lost, [], by
        simp only [HTable.stepO, e1, Exec.ok_bind, Option.map_some], by simp,
        e2, e3, .returns rfl (.removeEntrySome e4), by rw [e5]; simp⟩
    · exact ⟨some (.pair none), s1, t, m, bl, cs, [], lost, [], by
        simp only [HTable.stepO, e1, Exec.ok_bind, Option.map_some], by simp,
        h, by omega, .returns rfl (.removeEntryNone (.refl _)), by simp⟩
    · exact ⟨none, s1, t, m, bl, cs, [], lost, [],
        by simp only [HTable.stepO, e1, Exec.ok_bind, Option.map_none], fun h => absurd h hc, h,
        by omega, hpanic (List.nil_sublist _), by simp⟩
  | get k =>
    obtain ⟨o, s1, hf, hcalm, rfl | ⟨b, l1, l2, c1, c2, x, rfl, hcs, hx⟩ | ⟨l1, c, l2, rfl, hcs⟩⟩ :=
      h.core.findO (F := F) k s
    · exact ⟨none, s1, t, m, bl, cs, [], lost, [],
        by simp only [HTable.stepO, hf, Exec.ok_bind], fun hc => absurd rfl (hcalm hc), h, by omega,
        hpanic (List.nil_sublist _), by simp⟩
    · exact ⟨some (.val (some x.2.2)), s1, t, m, bl, cs, [], lost, [], by
        simp only [HTable.stepO, hf, Exec.ok_bind, hx], by simp, h, by omega,
        .returns rfl (.getSome (.refl _) (hmem hcs)), by simp⟩
    · exact ⟨some (.val none), s1, t, m, bl, cs, [], lost, [], by
        simp only [HTable.stepO, hf, Exec.ok_bind], by simp, h, by omega,
        .returns rfl (.getNone (.refl _)), by simp⟩
  | modify k f =>
    obtain ⟨o, s1, hf, hcalm, rfl | ⟨b, l1, l2, c1, c2, x, rfl, hcs, hx⟩ | ⟨l1, c, l2, rfl, hcs⟩⟩ :=
      h.core.findO (F := F) k s
    · exact ⟨none, s1, t, m, bl, cs, [], lost, [],
        by simp only [HTable.stepO, hf, Exec.ok_bind], fun hc => absurd rfl (hcalm hc), h, by omega,
        hpanic (List.nil_sublist _), by simp⟩
    · obtain ⟨m1, cs', e1, e2, ⟨r, r1, r2⟩, e4, e5⟩ := hset f hcs h.core
      exact ⟨some (.val (some x.2.2)), s1, t, m1, bl, cs', [], lost, [], by
        simp only [HTable.stepO, hf, Exec.ok_bind, hx, e1], by simp, e2, by omega,
        .returns rfl (.modifySome r1 r2), by rw [e4]; simp⟩
    · exact ⟨some (.val none), s1, t, m, bl, cs, [], lost, [], by
        simp only [HTable.stepO, hf, Exec.ok_bind], by simp, h, by omega,
        .returns rfl (.modifyNone (.refl _)), by simp⟩
  | contains k =>
    obtain ⟨o, s1, hf, hcalm, rfl | ⟨b, l1, l2, c1, c2, x, rfl, hcs, hx⟩ | ⟨l1, c, l2, rfl, hcs⟩⟩ :=
      h.core.findO (F := F) k s
    · exact ⟨none, s1, t, m, bl, cs, [], lost, [],
        by simp only [HTable.stepO, hf, Exec.ok_bind], fun hc => absurd rfl (hcalm hc), h, by omega,
        hpanic (List.nil_sublist _), by simp⟩
    · refine ⟨some (.bool true), s1, t, m, bl, cs, [], lost, [], by
        simp only [HTable.stepO, hf, Exec.ok_bind, hx], by simp, h, by omega,
        .returns rfl (.contains (.refl _) ?_), by simp⟩
      intro _ e
      have := hmem hcs
      rw [e] at this
      cases this
    · exact ⟨some (.bool false), s1, t, m, bl, cs, [], lost, [], by
        simp only [HTable.stepO, hf, Exec.ok_bind], by simp, h, by omega,
        .returns rfl (.contains (.refl _) (by simp)), by simp⟩
  | entry k f v =>
    obtain ⟨o, s1, hf, hcalm, rfl | ⟨b, l1, l2, c1, c2, x, rfl, hcs, hx⟩ | ⟨l1, c, l2, rfl, hcs⟩⟩ :=
      h.core.findO (F := F) k s
    · refine ⟨none, s1, t, m.dropKey E k, bl, cs, [], lost, [.inl k], ?_,
        fun hc => absurd rfl (hcalm hc),
        h.setCore (h.core.dropKey La k) rfl, by omega, hpanic (by simp [MapOp.owns]), ?_⟩
      · simp only [HTable.stepO, HTable.entryO, hf, Exec.ok_bind]
      · rw [dropKey_dropped]
    · obtain ⟨m1, cs', e1, e2, ⟨r, r1, r2⟩, e4, e5⟩ := hset f hcs (h.core.dropKey La k)
      refine ⟨some (.val (some (f x.2.2))), s1, t, m1.dropVal E v, bl, cs', [], lost, _, ?_, by simp,
        e2.setCore (e2.core.dropVal La v) rfl, by omega, .returns rfl (.entryOld r1 r2), ?_⟩
      · simp only [HTable.stepO, HTable.entryO, hf, Exec.ok_bind, e1, dropVal_node, e5]
      · rw [dropVal_dropped, e4, dropKey_dropped, List.append_assoc, ← List.filter_append]
        exact .refl _
    · rcases h.insertImplO L (F := F) (k := k) (v := v) hcs s1 with ⟨hbig, e1⟩ |
        ⟨o, s2, t', m', bl', cs', g, e1, e2, e3, e7, e4⟩
      · exact absurd ⟨hbig, by simp only [HTable.stepO, HTable.entryO, hf, Exec.ok_bind, e1,
          Exec.error_bind]⟩ hlim
      rcases e4 with ⟨rfl, e4, e5⟩ | ⟨p, rfl, rfl, e4, e5, x, e6⟩
      · refine ⟨none, s2, t', m', bl', cs', g, _, [.inl k, .inr v], ?_,
          fun hc => absurd rfl (e7 hc), e2, e3,
          hgrow rfl e4 (.refl _), by rw [e5]⟩
        simp only [HTable.stepO, HTable.entryO, hf, Exec.ok_bind, e1]
      · refine ⟨some (.val (some v)), s2, t', m', bl', cs', [], _, [], ?_, by simp, e2, e3,
          .returns rfl (.entryNew e4), by rw [e5]; simp⟩
        simp only [HTable.stepO, HTable.entryO, hf, Exec.ok_bind, e1, e6]
  | entryKey k =>
    have hr := h.setCore (h.core.dropKey La k) rfl
    obtain ⟨o, s1, hf, hcalm, rfl | ⟨b, l1, l2, c1, c2, x, rfl, hcs, hx⟩ | ⟨l1, c, l2, rfl, hcs⟩⟩ :=
      h.core.findO (F := F) k s
    · refine ⟨none, s1, t, m.dropKey E k, bl, cs, [], lost, [.inl k], ?_,
        fun hc => absurd rfl (hcalm hc),
        hr, by omega, hpanic (by simp [MapOp.owns]), ?_⟩
      · simp only [HTable.stepO, HTable.entryO, hf, Exec.ok_bind]
      · rw [dropKey_dropped]
    · exact ⟨some (.key x.2.1), s1, t, m.dropKey E k, bl, cs, [], lost, _, by
        simp only [HTable.stepO, HTable.entryO, hf, Exec.ok_bind, dropKey_node, hx], by simp,
        hr, by omega, .returns rfl (.entryKeyOld (.refl _) (hmem hcs)), by rw [dropKey_dropped]⟩
    · exact ⟨some (.key k), s1, t, m.dropKey E k, bl, cs, [], lost, _, by
        simp only [HTable.stepO, HTable.entryO, hf, Exec.ok_bind], by simp,
        hr, by omega, .returns rfl (.entryKeyNew (.refl _)), by rw [dropKey_dropped]⟩
  | len =>
    exact ⟨some (.nat ((ents cs).length + lost)), s, t, m, bl, cs, [], lost, [],
      by simp only [HTable.stepO, hcnt], by simp, h, by omega, .len, by simp⟩
  | isEmpty =>
    exact ⟨some (.bool (decide ((ents cs).length + lost = 0))), s, t, m, bl, cs, [], lost, [],
      by simp only [HTable.stepO, hcnt], by simp, h, by omega, .isEmpty, by simp⟩
  | clear =>
    obtain ⟨a, m', e1, e2, e3⟩ := h.core.freeBuckets La h.arrs
    have hents : ents (List.replicate t.bucketCount ([] : List (Nat × K × V))) = [] := by
      simp [ents]
    refine ⟨some .unit, s, { t with al := a, count := 0 }, m', bl, List.replicate t.bucketCount [], [],
      0, contents (ents cs), ?_, by simp, ⟨e2, by simp, h.arrs, fun hb => ⟨(h.first hb).1, rfl⟩⟩,
      by simp, by rw [hents]; exact .clear, e3⟩
    simp only [HTable.stepO, HTable.clear, e1, Exec.ok_bind]

/-- A history of calls. -/
theorem HLoose.runO (L : HLaw E Inv) (ops : List (MapOp K V)) :
    ∀ {m : HMem K V} {t : HTable σ} {bl : List Nat} {cs : List (List (Nat × K × V))}
      {ex : List Nat} {lost : Nat} (s : τ), HLoose E Inv w wn m t bl cs ex lost →
    (2147483776 < t.count + ops.length ∧ HTable.runO E F ops s t m = .error .panic) ∨
    ∃ (os : List (Option (MapOut K V))) (s' : τ) (t' : HTable σ) (m' : HMem K V) (bl' : List Nat)
      (cs' : List (List (Nat × K × V))) (g : List (Nat × K × V)) (lost' : Nat) (d : List (K ⊕ V)),
      HTable.runO E F ops s t m = .ok (os, s', t', m') ∧ (F.Calm → none ∉ os) ∧
      HLoose E Inv w wn m' t' bl' cs' (g.map Prod.fst ++ ex) lost' ∧
      ShakenRun ops os (ents cs) lost (ents cs') lost' (g.map Prod.snd) d ∧
      m'.n.dropped.Perm (m.n.dropped ++ d.filter E.needs) := by
  induction ops with
  | nil =>
    intro m t bl cs ex lost s h
    exact .inr ⟨[], s, t, m, bl, cs, [], lost, [], rfl, by simp, h, .nil, by simp⟩
  | cons op ops ih =>
    intro m t bl cs ex lost s h
    simp only [List.length_cons]
    rcases h.stepO L (F := F) op s with
      ⟨hbig, e1⟩ | ⟨o, s1, t1, m1, bl1, cs1, g1, l1, d1, e1, e6, e2, e3, e4, e5⟩
    · exact .inl ⟨by omega, by simp only [HTable.runO, e1, Exec.error_bind]⟩
    rcases ih s1 e2 with ⟨hbig, f1⟩ | ⟨os, s2, t2, m2, bl2, cs2, g2, l2, d2, f1, f5, f2, f3, f4⟩
    · exact .inl ⟨by omega, by simp only [HTable.runO, e1, f1, Exec.ok_bind, Exec.error_bind]⟩
    refine .inr ⟨o :: os, s2, t2, m2, bl2, cs2, g2 ++ g1, l2, d1 ++ d2, ?_, ?_, ?_, ?_, ?_⟩
    · simp [HTable.runO, e1, f1]
    · intro hc
      rw [List.mem_cons, not_or]
      exact ⟨fun e => e6 hc e.symm, f5 hc⟩
    · rw [List.map_append, List.append_assoc]
      exact f2
    · rw [List.map_append]
      exact .cons e4 f3
    · rw [List.filter_append, ← List.append_assoc]
      exact f4.trans (e5.append_right _)

end Verif
