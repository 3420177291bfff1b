import Verif.Nested.Proofs
import Verif.Nested.MapModel
import Verif.HashTable.Grants
import Verif.Props.HashTable

/-! Maps as containers of anything. -/

set_option autoImplicit false

namespace Verif
open Spec

variable {K V W H σ : Type}

theorem lookup_mapVals (eq : K → K → Bool) (f : V → W) (s : List (K × V)) (k : K) :
    lookup eq (s.map fun p => (p.1, f p.2)) k = (lookup eq s k).map fun p => (p.1, f p.2) := by
  simp [lookup, List.find?_map]

theorem get_mapVals (eq : K → K → Bool) (f : V → W) (s : List (K × V)) (k : K) :
    (lookup eq (s.map fun p => (p.1, f p.2)) k).map Prod.snd = ((lookup eq s k).map Prod.snd).map f := by
  rw [lookup_mapVals]
  cases lookup eq s k <;> rfl

theorem setVal_mapVals (eq : K → K → Bool) (f : V → W) (s : List (K × V)) (k : K) (v : V) :
    setVal eq k (f v) (s.map fun p => (p.1, f p.2)) = (setVal eq k v s).map fun p => (p.1, f p.2) := by
  simp only [setVal, List.map_map]
  refine List.map_congr_left fun p _ => ?_
  simp only [Function.comp]
  split_ifs <;> rfl

theorem eraseKey_mapVals (eq : K → K → Bool) (f : V → W) (s : List (K × V)) (k : K) :
    eraseKey eq k (s.map fun p => (p.1, f p.2)) = (eraseKey eq k s).map fun p => (p.1, f p.2) := by
  simp [eraseKey, List.filter_map, Function.comp_def]

theorem _root_.Verif.Spec.TabOp.step_map (eq : K → K → Bool) (f : V → W) (op : TabOp K V) (s : List (K × V)) :
    (op.map f).toMap.step eq (s.map fun p => (p.1, f p.2)) =
      ((op.toMap.step eq s).1.map f, (op.toMap.step eq s).2.map fun p => (p.1, f p.2)) := by
  cases op with
  | insert k v =>
    simp only [TabOp.map, TabOp.toMap, MapOp.step, lookup_mapVals]
    cases lookup eq s k <;> simp [MapOut.map, setVal_mapVals]
  | orInsert k v =>
    simp only [TabOp.map, TabOp.toMap, MapOp.step, lookup_mapVals]
    cases lookup eq s k <;> simp [MapOut.map, setVal_mapVals]
  | remove k =>
    simp only [TabOp.map, TabOp.toMap, MapOp.step, lookup_mapVals, eraseKey_mapVals]
    cases lookup eq s k <;> simp [MapOut.map]
  | removeEntry k =>
    simp only [TabOp.map, TabOp.toMap, MapOp.step, lookup_mapVals, eraseKey_mapVals]
    cases lookup eq s k <;> simp [MapOut.map]
  | get k =>
    simp only [TabOp.map, TabOp.toMap, MapOp.step, lookup_mapVals]
    cases lookup eq s k <;> simp [MapOut.map]
  | contains k =>
    simp only [TabOp.map, TabOp.toMap, MapOp.step, lookup_mapVals]
    cases lookup eq s k <;> simp [MapOut.map]
  | len => simp [TabOp.map, TabOp.toMap, MapOp.step, MapOut.map]
  | isEmpty => simp [TabOp.map, TabOp.toMap, MapOp.step, MapOut.map]
  | clear => simp [TabOp.map, TabOp.toMap, MapOp.step, MapOut.map]

theorem lookup_mem {eq : K → K → Bool} {s : List (K × V)} {k : K} {p : K × V}
    (h : lookup eq s k = some p) : p ∈ s ∧ eq p.1 k = true :=
  ⟨List.mem_of_find?_eq_some h, by simpa using List.find?_some h⟩

theorem _root_.Verif.Spec.TabOp.shown (eq : K → K → Bool) (op : TabOp K V) (s : List (K × V)) :
    ∀ x ∈ (op.toMap.step eq s).1.vals,
      x ∈ op.owned (op.toMap.step eq s).1 ++ (op.toMap.step eq s).2.map Prod.snd := by
  intro x hx
  cases op with
  | insert k v => exact List.mem_append_left _ hx
  | remove k => exact List.mem_append_left _ hx
  | removeEntry k => exact List.mem_append_left _ hx
  | get k =>
    simp only [TabOp.toMap, MapOp.step, MapOut.vals] at hx ⊢
    cases h : lookup eq s k with
    | none => simp [h] at hx
    | some p =>
      simp only [h, Option.map_some, Option.toList_some, List.mem_singleton] at hx
      exact List.mem_append_right _ (List.mem_map.2 ⟨p, (lookup_mem h).1, hx.symm⟩)
  | orInsert k v =>
    simp only [TabOp.toMap, MapOp.step] at hx ⊢
    cases h : lookup eq s k with
    | none =>
      simp only [h, MapOut.vals, Option.toList_some, List.mem_singleton] at hx
      simp [hx]
    | some p =>
      simp only [h, MapOut.vals, id, Option.toList_some, List.mem_singleton] at hx
      refine List.mem_append_right _ (List.mem_map.2 ⟨(p.1, p.2), ?_, hx.symm⟩)
      obtain ⟨h1, h2⟩ := lookup_mem h
      exact List.mem_map.2 ⟨p, h1, by simp [h2]⟩
  | _ => simp [TabOp.toMap, MapOp.step, MapOut.vals] at hx

theorem setFirst_split (eq : K → K → Bool) {s : List (K × V)} {k : K} {p : K × V}
    (h : lookup eq s k = some p) : ∃ A B, s = A ++ p :: B ∧ eq p.1 k = true ∧
      (∀ q ∈ A, eq q.1 k = false) ∧
      ∀ {W : Type} (f : V → W) (w : W), setFirst eq k w (s.map fun p => (p.1, f p.2)) =
        (A.map fun p => (p.1, f p.2)) ++ (p.1, w) :: B.map fun p => (p.1, f p.2) := by
  induction s with
  | nil => simp [lookup] at h
  | cons q s ih =>
    by_cases hq : eq q.1 k = true
    · have : q = p := by simpa [lookup, hq] using h
      subst this
      exact ⟨[], s, rfl, hq, by simp, fun f w => by simp [setFirst, hq]⟩
    · simp only [Bool.not_eq_true] at hq
      obtain ⟨A, B, e1, e2, e3, e4⟩ := ih (by simpa [lookup, hq] using h)
      refine ⟨q :: A, B, by rw [e1]; rfl, e2, ?_, fun f w => ?_⟩
      · intro r hr
        rcases List.mem_cons.1 hr with rfl | hr
        · exact hq
        · exact e3 r hr
      · have := e4 f w
        simp only [List.map_cons, setFirst, hq, List.cons_append, this]
        simp

theorem setFirst_id (eq : K → K → Bool) {s : List (K × V)} {k : K} {p : K × V}
    (h : lookup eq s k = some p) : ∃ A B, s = A ++ p :: B ∧ eq p.1 k = true ∧
      ∀ w, setFirst eq k w s = A ++ (p.1, w) :: B := by
  obtain ⟨A, B, e1, e2, _, e4⟩ := setFirst_split eq h
  exact ⟨A, B, e1, e2, fun w => by simpa using e4 id w⟩

theorem setFirst_none (eq : K → K → Bool) {s : List (K × V)} {k : K} (h : lookup eq s k = none) (v : V) :
    setFirst eq k v s = s := by
  induction s with
  | nil => rfl
  | cons q s ih =>
    by_cases hq : eq q.1 k = true
    · simp [lookup, hq] at h
    · simp only [Bool.not_eq_true] at hq
      have h1 : lookup eq s k = none := by simpa [lookup, hq] using h
      simp [setFirst, hq, ih h1]

theorem setFirst_mapVals (eq : K → K → Bool) (f : V → W) (s : List (K × V)) (k : K) (v : V) :
    (setFirst eq k v s).map (fun p => (p.1, f p.2)) =
      setFirst eq k (f v) (s.map fun p => (p.1, f p.2)) := by
  induction s with
  | nil => rfl
  | cons q s ih => simp only [setFirst, List.map_cons]; split_ifs <;> simp [ih]

theorem KindLaw.table (eq : K → K → Bool) : KindLaw (Kind.table eq) (fun _ => true) where
  ok_map f op := rfl
  map_map f g op := by cases op <;> rfl
  arg_map f op := by cases op <;> rfl
  res_congr {α β} f g r h := by
    let r' : MapOut K α := r
    have h : ∀ x ∈ r'.vals, f x = g x := h
    show r'.map f = r'.map g
    generalize r' = r' at h
    cases r' with
    | val v => cases v <;> simp_all [MapOut.map, MapOut.vals]
    | pair v => cases v <;> simp_all [MapOut.map, MapOut.vals]
    | _ => rfl
  st_congr {α β} f g st h := by
    let s : List (K × α) := st
    refine List.map_congr_left (l := s) fun p hp => ?_
    rw [h p.2 (List.mem_map_of_mem (f := Prod.snd) hp)]
  step_map f op st := congrArg Except.ok (TabOp.step_map eq f op st)
  shown op st r st' h := by
    have h : Except.ok ((TabOp.toMap op).step eq st) = Except.ok (r, st') := h
    have h := Except.ok.inj h
    have := TabOp.shown eq op st
    rw [h] at this
    exact this
  get_map f p st := get_mapVals eq f st p
  set_map f p x st := setFirst_mapVals eq f st p x
  set_perm {α} k x y st h := by
    let s : List (K × α) := st
    have h : (lookup eq s k).map Prod.snd = some y := h
    obtain ⟨p, hp, rfl⟩ := Option.map_eq_some_iff.1 h
    obtain ⟨A, B, e1, e2, e3⟩ := setFirst_id eq hp
    refine ⟨(A ++ B).map Prod.snd, ?_, ?_⟩
    · show (s.map Prod.snd).Perm _
      rw [e1]
      simp
    · show ((setFirst eq k x s).map Prod.snd).Perm _
      rw [e3 x]
      simp
  set_congr {α β} f g k x y st zs h hz hfg := by
    let s : List (K × α) := st
    have h : (lookup eq s k).map Prod.snd = some y := h
    obtain ⟨p, hp, rfl⟩ := Option.map_eq_some_iff.1 h
    obtain ⟨A, B, e1, e2, _, e3⟩ := setFirst_split eq hp
    show setFirst eq k (f x) (s.map fun p => (p.1, f p.2)) =
      setFirst eq k (f x) (s.map fun p => (p.1, g p.2))
    have hz : (s.map Prod.snd).Perm (p.2 :: zs) := hz
    have hp : zs.Perm ((A ++ B).map Prod.snd) := by
      rw [e1] at hz
      have h2 := hz.symm.trans (by
        simp :
        ((A ++ p :: B).map Prod.snd).Perm (p.2 :: (A ++ B).map Prod.snd))
      exact List.Perm.cons_inv h2
    have key : ∀ q ∈ A ++ B, f q.2 = g q.2 := fun q hq =>
      hfg q.2 (hp.mem_iff.2 (List.mem_map_of_mem (f := Prod.snd) hq))
    rw [e3 f, e3 g]
    have hA : (A.map fun p => (p.1, f p.2)) = A.map fun p => (p.1, g p.2) :=
      List.map_congr_left fun q hq => by rw [key q (by simp [hq])]
    have hB : (B.map fun p => (p.1, f p.2)) = B.map fun p => (p.1, g p.2) :=
      List.map_congr_left fun q hq => by rw [key q (by simp [hq])]
    rw [hA, hB]

theorem right_inl (k : K) (l : List (K ⊕ V)) :
    (Sum.inl k :: l).filterMap Sum.getRight? = l.filterMap Sum.getRight? := rfl

theorem right_inr (v : V) (l : List (K ⊕ V)) :
    (Sum.inr v :: l).filterMap Sum.getRight? = v :: l.filterMap Sum.getRight? := rfl

theorem contents_right : ∀ s : List (K × V), (Spec.contents s).filterMap Sum.getRight? = s.map Prod.snd
  | [] => rfl
  | p :: s => by
    show List.filterMap Sum.getRight? (.inl p.1 :: .inr p.2 :: Spec.contents s) = _
    rw [right_inl, right_inr, contents_right s]
    rfl

/-- Values accounted for by a call. -/
theorem _root_.Verif.Spec.TabOp.owned_perm {eq : K → K → Bool} (he : PartialEquiv eq) (op : TabOp K V)
    {s : List (K × V)} (hd : Distinct eq s) :
    (op.arg.toList ++ s.map Prod.snd).Perm (op.owned (op.toMap.step eq s).1 ++
      (op.toMap.drops eq s).filterMap Sum.getRight? ++ (op.toMap.step eq s).2.map Prod.snd) := by
  have h := (conserve_step he hd op.toMap).filterMap Sum.getRight?
  simp only [List.filterMap_append, contents_right] at h
  classical
  cases op with
  | insert k v =>
    simp only [TabOp.toMap, MapOp.taken, MapOp.given, MapOp.step, TabOp.arg, TabOp.owned] at h ⊢
    cases hl : lookup eq s k with
    | none => simp [hl, MapOut.vals, MapOp.drops]
    | some p =>
      simp [hl, MapOut.vals, MapOp.drops, right_inl] at h ⊢
      rw [List.perm_iff_count] at h ⊢
      intro a
      have := h a
      simp [List.count_cons] at this ⊢
      omega
  | orInsert k v =>
    simp only [TabOp.toMap, MapOp.taken, MapOp.given, MapOp.step, TabOp.arg, TabOp.owned] at h ⊢
    cases hl : lookup eq s k with
    | none => simp [hl, MapOp.drops]
    | some p =>
      simp [hl, MapOp.drops, right_inl] at h ⊢
      rw [List.perm_iff_count] at h ⊢
      intro a
      have := h a
      simp [List.count_cons] at this ⊢
      omega
  | remove k =>
    simp only [TabOp.toMap, MapOp.taken, MapOp.given, MapOp.step, TabOp.arg, TabOp.owned] at h ⊢
    cases hl : lookup eq s k with
    | none => simpa [hl, MapOut.vals, MapOp.drops] using h
    | some p =>
      simp [hl, MapOut.vals, MapOp.drops, right_inl] at h ⊢
      rw [List.perm_iff_count] at h ⊢
      intro a
      have := h a
      simp [List.count_cons] at this ⊢
      omega
  | removeEntry k =>
    simp only [TabOp.toMap, MapOp.taken, MapOp.given, MapOp.step, TabOp.arg, TabOp.owned] at h ⊢
    cases hl : lookup eq s k with
    | none => simpa [hl, MapOut.vals, MapOp.drops] using h
    | some p =>
      simp [hl, MapOut.vals, MapOp.drops, right_inl] at h ⊢
      rw [List.perm_iff_count] at h ⊢
      intro a
      have := h a
      simp [List.count_cons] at this ⊢
      omega
  | clear =>
    simp only [TabOp.toMap, MapOp.step, MapOp.drops, contents_right, TabOp.arg, TabOp.owned]
    simp
  | _ => simp [TabOp.toMap, MapOp.step, MapOp.drops, TabOp.arg, TabOp.owned]

theorem setFirst_perm {eq : K → K → Bool} (he : PartialEquiv eq) {s t : List (K × V)} (h : s.Perm t)
    (hd : Distinct eq s) {k : K} {p : K × V} (hl : lookup eq s k = some p) (v : V) :
    (setVal eq k v s).Perm (setFirst eq k v t) := by
  have hlt : lookup eq t k = some p := by rw [← lookup_perm he h hd]; exact hl
  obtain ⟨A, B, e1, e2, e3⟩ := setFirst_id eq hlt
  have hdt := hd.perm he h
  have h1 : setVal eq k v t = setFirst eq k v t := by
    rw [e3 v]
    rw [e1] at hdt ⊢
    exact (setVal_mid he hdt e2 v).1
  rw [← h1]
  exact h.map _

theorem drops_perm_eq {eq : K → K → Bool} (he : PartialEquiv eq) {s t : List (K × V)} (h : s.Perm t)
    (hd : Distinct eq s) (op : MapOp K V) : (op.drops eq s).Perm (op.drops eq t) := by
  cases op <;> simp only [MapOp.drops, ← lookup_perm he h hd] <;> try exact .refl _
  exact h.flatMap_right _

/-! ## Hash maps -/

section
variable {E : HEnv K H Unit} {m0 : HMem K H}

/-- The log of what was dropped does not matter. -/
theorem HRep.cleared {t : HTable Unit} {m : HMem K H} {peak : Nat} {bl : List Nat}
    {cs : List (List (Nat × K × H))}
    (h : HRep True E (DefInv m0.n E.size E.align) m0.b.live m0.n.node m t peak bl cs) :
    HRep True E (DefInv m0.n E.size E.align) m0.b.live m0.n.node
      { m with n := { m.n with dropped := [] } } t peak bl cs := by
  have c := h.core
  have i := c.inv
  exact ⟨⟨c.len, c.pos, fun l hl => (c.chains l hl).frame fun _ _ => rfl, c.nodup, c.homes, c.dist, c.fits,
    ⟨⟨i.wf.disj, i.wf.cover, i.wf.null⟩, i.nodup, i.out, i.ins, i.node, i.live, i.solid, i.aligned⟩,
    c.start, c.arr, c.blNodup, c.blNew, c.out, c.stat, c.empty, c.keep⟩, h.count, h.policy, h.peak, h.arrs⟩

/-- A hash map with room for `n` more entries. -/
def HashOuterInv (E : HEnv K H Unit) (m0 : HMem K H) (n : Nat) (s : (hashOuter E).σ)
    (st : List (K × H)) : Prop :=
  ∃ peak bl cs, HRep True E (DefInv m0.n E.size E.align) m0.b.live m0.n.node s.2.1 s.1 peak bl cs ∧
    (ents cs).Perm st ∧ st.length + n ≤ 2557710464

/-- The memory of a hash map that was dropped: arrays of buckets stay (C55). -/
def HashGone (m0 m : HMem K H) : Prop :=
  m.n.reg = m0.n.reg ∧ m.n.node = m0.n.node ∧
    ∃ bl : List Nat, (∀ b ∈ bl, m0.b.live b = none) ∧ ∀ b, b ∉ bl → m.b.live b = m0.b.live b

theorem right_needs (hV : E.ndV = true) (l : List (K ⊕ H)) :
    (l.filter E.needs).filterMap Sum.getRight? = l.filterMap Sum.getRight? := by
  induction l with
  | nil => rfl
  | cons x l ih =>
    cases x with
    | inl k =>
      by_cases hk : E.ndK = true
      · rw [List.filter_cons_of_pos (by exact hk), right_inl, right_inl, ih]
      · rw [List.filter_cons_of_neg (by exact hk), right_inl, ih]
    | inr v => rw [List.filter_cons_of_pos (by exact hV), right_inr, right_inr, ih]

theorem hashOuter_law (S : HSetting E m0) (hV : E.ndV = true) :
    OuterLaw (hashOuter E) (fun _ => true) (HashOuterInv E m0) (fun s => HashGone m0 s.2.1) where
  mono := by
    rintro n s st ⟨peak, bl, cs, h1, h2, h3⟩
    exact ⟨peak, bl, cs, h1, h2, by omega⟩
  step := by
    intro n s st op _ h
    obtain ⟨t, m, log⟩ := s
    obtain ⟨peak, bl, cs, h1, h2, h3⟩ := h
    replace h1 : HRep True E (DefInv m0.n E.size E.align) m0.b.live m0.n.node m t peak bl cs := h1
    replace h2 : (ents cs).Perm (st : List (K × H)) := h2
    have hd := h1.core.distinct
    have hlen : ((TabOp.toMap op).step E.eq (ents cs)).2.length ≤ maxEntries := by
      have := length_step_le E.eq (TabOp.toMap op) (ents cs)
      have := h2.length_eq
      unfold maxEntries
      omega
    obtain ⟨t', m', bl', cs', e1, e2⟩ := h1.cleared.step S.law S.equiv S.hash (TabOp.toMap op) hlen
    obtain ⟨p1, p2⟩ := step_perm S.equiv h2 hd (TabOp.toMap op)
    refine ⟨(t', m', log ++ m'.n.dropped.filterMap Sum.getRight?),
      m'.n.dropped.filterMap Sum.getRight?, ?_, ⟨_, bl', cs', e2.rep, e2.perm.trans p2, ?_⟩, rfl, ?_⟩
    · simp only [hashOuter, e1, Exec.ok_bind, p1]
      rfl
    · have := length_step_le E.eq (TabOp.toMap op) (st : List (K × H))
      show ((TabOp.toMap op).step E.eq (st : List (K × H))).2.length + n ≤ 2557710464
      omega
    · have h5 := TabOp.owned_perm S.equiv op (hd.perm S.equiv h2)
      have h6 := (e2.drops.filterMap Sum.getRight?)
      simp only [List.nil_append, right_needs hV] at h6
      have h7 := (drops_perm S.equiv h2 hd (TabOp.toMap op)).filterMap Sum.getRight?
      exact h5.trans (((h6.trans h7).symm.append_left _).append_right _)
  get := by
    intro n s st p h
    obtain ⟨t, m, log⟩ := s
    obtain ⟨peak, bl, cs, h1, h2, h3⟩ := h
    replace h1 : HRep True E (DefInv m0.n E.size E.align) m0.b.live m0.n.node m t peak bl cs := h1
    replace h2 : (ents cs).Perm (st : List (K × H)) := h2
    let k : K := p
    obtain ⟨t', m', bl', cs', e1, _⟩ := h1.step S.law S.equiv S.hash (.get k) (by
      have := h2.length_eq
      simp only [MapOp.step, maxEntries]
      omega)
    rw [HTable.step] at e1
    obtain ⟨o, f1, f2⟩ := Exec.of_bind_ok e1
    simp only [MapOp.step, Except.ok.injEq, Prod.mk.injEq, MapOut.val.injEq] at f2
    show (do
      let o ← t.get E k m
      .ok (o.map Prod.snd)) = .ok ((lookup E.eq (st : List (K × H)) k).map Prod.snd)
    rw [f1, Exec.ok_bind, f2.1, lookup_perm S.equiv h2 h1.core.distinct]
  put := by
    intro n s st p x y h hy
    obtain ⟨t, m, log⟩ := s
    obtain ⟨peak, bl, cs, h1, h2, h3⟩ := h
    replace h1 : HRep True E (DefInv m0.n E.size E.align) m0.b.live m0.n.node m t peak bl cs := h1
    replace h2 : (ents cs).Perm (st : List (K × H)) := h2
    let k : K := p
    have hd := h1.core.distinct
    have hy : (lookup E.eq (st : List (K × H)) k).map Prod.snd = some y := hy
    rw [← lookup_perm S.equiv h2 hd] at hy
    obtain ⟨q, hq, rfl⟩ := Option.map_eq_some_iff.1 hy
    obtain ⟨t', m', bl', cs', e1, e2⟩ := h1.step S.law S.equiv S.hash (.modify k fun _ => x) (by
      have := h2.length_eq
      simp only [MapOp.step, maxEntries, hq, setVal, List.length_map]
      omega)
    rw [HTable.step] at e1
    obtain ⟨⟨o, m1⟩, f1, f2⟩ := Exec.of_bind_ok e1
    simp only [Except.ok.injEq, Prod.mk.injEq] at f2
    obtain ⟨_, rfl, rfl⟩ := f2
    have hst : ((MapOp.modify k fun _ => x).step E.eq (ents cs)).2 = setVal E.eq k x (ents cs) := by
      simp only [MapOp.step, hq]
    have hp := setFirst_perm S.equiv h2 hd hq x
    refine ⟨(t, m1, log), ?_, ⟨_, bl', cs', e2.rep, ?_, ?_⟩, rfl⟩
    · show (do
        let (_, m) ← t.modify E k (fun _ => x) m
        .ok (t, m, log)) = _
      rw [f1]; rfl
    · have := e2.perm
      rw [hst] at this
      exact this.trans hp
    · show (setFirst E.eq k x (st : List (K × H))).length + n ≤ _
      rw [← hp.length_eq, setVal, List.length_map, h2.length_eq]
      exact h3
  drop := by
    intro n s st h
    obtain ⟨t, m, log⟩ := s
    obtain ⟨peak, bl, cs, h1, h2, h3⟩ := h
    replace h1 : HRep True E (DefInv m0.n E.size E.align) m0.b.live m0.n.node m t peak bl cs := h1
    replace h2 : (ents cs).Perm (st : List (K × H)) := h2
    obtain ⟨a, m', e1, e2, e3⟩ := h1.cleared.freeBuckets S.law
    have hinv := e2.inv
    have hnil : addrs (List.replicate t.bucketCount ([] : List (Nat × K × H))) = [] := by
      simp [addrs]
    rw [hnil] at hinv
    refine ⟨(t, m', log ++ m'.n.dropped.filterMap Sum.getRight?),
      m'.n.dropped.filterMap Sum.getRight?, by simp [hashOuter, HTable.drop, e1], rfl, ?_, hinv.done, ?_,
      bl, fun b hb => (e2.blNew b hb).1, e2.out⟩
    · have h6 := e3.filterMap Sum.getRight?
      simp only [List.nil_append, right_needs hV, contents_right] at h6
      exact h6.trans (h2.map Prod.snd)
    · funext q
      by_cases hq : m0.n.node q = none
      · rw [hq]; exact (hinv.node q (by simp)).2 hq
      · exact (e2.keep q hq).2

end

/-! ## Vector maps -/

/-- A vector map over memory with the blocks `w`. -/
def VMapOuterInv (R : RawAlloc (K × H)) (lt eq : K → K → Bool) (w : World (K × H))
    (s : (vmapOuter R lt eq).σ) (st : List (K × H)) : Prop :=
  ∃ xs, MInv w s.2.1 s.1 xs ∧ WSorted lt xs ∧ Distinct eq xs ∧ xs.Perm st

theorem vmapOuter_law (R : RawAlloc (K × H)) {lt eq : K → K → Bool} (hw : StrictWeak lt)
    (hc : Consistent lt eq) (w : World (K × H)) :
    OuterLaw (vmapOuter R lt eq) (fun _ => true) (fun _ => VMapOuterInv R lt eq w)
      (fun s => s.2.1.live = w) where
  mono := id
  step := by
    intro n s st op _ h
    obtain ⟨v, m, log⟩ := s
    obtain ⟨xs, h1, h2, h3, h4⟩ := h
    replace h1 : MInv w m v xs := h1
    replace h4 : xs.Perm (st : List (K × H)) := h4
    have he := hc.equiv hw
    have hF : (KeyFns.pure lt eq).Fits lt eq := fun s a b => ⟨.inr rfl, .inr rfl⟩
    have hF' : ∀ s a b, ((KeyFns.pure lt eq).lt s a b).1 ≠ none ∧ ((KeyFns.pure lt eq).eq s a b).1 ≠ none :=
      fun s a b => ⟨by simp [KeyFns.pure], by simp [KeyFns.pure]⟩
    obtain ⟨o, s', v', m', ys, l, ps, e1, e2, e3, e4, e5⟩ :=
      h1.stepD_fits hw hc R hF true (TabOp.toMap op) h2 h3 ()
    have hsome : o ≠ none := by
      refine stepO_some (A := defaultAllocator R) (nd := true) (op := TabOp.toMap op) hF' (v := v) (m := m)
        (s := ()) (s' := s') (v' := v') (m' := m') ?_
      rw [stepD_erase, e1]; rfl
    rcases e5 with ⟨rfl, _⟩ | ⟨rfl, e6, e7⟩
    · exact absurd rfl hsome
    obtain ⟨p1, p2⟩ := step_perm he h4 h3 (TabOp.toMap op)
    have e4 : m'.dropped = m.dropped ++ ps := by simpa using e4
    refine ⟨(v', m', log ++ (l ++ Spec.contents ps).filterMap Sum.getRight?),
      (l ++ Spec.contents ps).filterMap Sum.getRight?, ?_,
      ⟨ys, e2, e3, (h3.step he (TabOp.toMap op)).perm he e6.symm, e6.trans p2⟩, rfl, ?_⟩
    · simp only [vmapOuter, e1, Exec.ok_bind, e4, List.drop_left, p1]
      rfl
    · have h5 := TabOp.owned_perm he op (h3.perm he h4)
      have h7 := (e7.trans (drops_perm_eq he h4 h3 (TabOp.toMap op))).filterMap Sum.getRight?
      exact h5.trans ((h7.symm.append_left _).append_right _)
  get := by
    intro n s st p h
    obtain ⟨v, m, log⟩ := s
    obtain ⟨xs, h1, h2, h3, h4⟩ := h
    replace h1 : MInv w m v xs := h1
    replace h4 : xs.Perm (st : List (K × H)) := h4
    have he := hc.equiv hw
    let k : K := p
    obtain ⟨v2, m2, zs, f1, f2, f3, f4⟩ := h1.step (R := R) hw hc true (.get k) h2 h3
    rw [VMap.step] at f1
    obtain ⟨o, g1, g2⟩ := Exec.of_bind_ok f1
    simp only [MapOp.step, Except.ok.injEq, Prod.mk.injEq, MapOut.val.injEq] at g2
    show VMap.get lt eq k v m = .ok ((lookup eq (st : List (K × H)) k).map Prod.snd)
    rw [g1, g2.1, lookup_perm he h4 h3]
  put := by
    intro n s st p x y h hy
    obtain ⟨v, m, log⟩ := s
    obtain ⟨xs, h1, h2, h3, h4⟩ := h
    replace h1 : MInv w m v xs := h1
    replace h4 : xs.Perm (st : List (K × H)) := h4
    have he := hc.equiv hw
    let k : K := p
    have hy : (lookup eq (st : List (K × H)) k).map Prod.snd = some y := hy
    rw [← lookup_perm he h4 h3] at hy
    obtain ⟨q, hq, rfl⟩ := Option.map_eq_some_iff.1 hy
    obtain ⟨v2, m2, zs, f1, f2, f3, f4⟩ := h1.step (R := R) hw hc true (.modify k fun _ => x) h2 h3
    rw [VMap.step] at f1
    obtain ⟨⟨o, m1⟩, g1, g2⟩ := Exec.of_bind_ok f1
    simp only [Except.ok.injEq, Prod.mk.injEq] at g2
    obtain ⟨_, rfl, rfl⟩ := g2
    have hst : ((MapOp.modify k fun _ => x).step eq xs).2 = setVal eq k x xs := by
      simp only [MapOp.step, hq]
    have hd := h3.step he (.modify k fun _ => x)
    rw [hst] at f4 hd
    refine ⟨(v, m1, log), ?_, ⟨zs, f2, f3, hd.perm he f4.symm, f4.trans (setFirst_perm he h4 h3 hq x)⟩, rfl⟩
    show (do
      let (_, m) ← VMap.modify lt eq k (fun _ => x) v m
      .ok (v, m, log)) = _
    rw [g1]; rfl
  drop := by
    intro n s st h
    obtain ⟨v, m, log⟩ := s
    obtain ⟨xs, h1, h2, h3, h4⟩ := h
    replace h1 : MInv w m v xs := h1
    replace h4 : xs.Perm (st : List (K × H)) := h4
    obtain ⟨m', e1, _, e2, e3⟩ := h1.clearE (R := R) true
    have e3 : m'.dropped = m.dropped ++ xs := by simpa using e3
    refine ⟨(Vec.new, m', log ++ (Spec.contents xs).filterMap Sum.getRight?),
      (Spec.contents xs).filterMap Sum.getRight?, ?_, rfl, ?_, e2⟩
    · simp only [vmapOuter, e1, Exec.ok_bind, e3, List.drop_left]
    · rw [contents_right]; exact h4.map Prod.snd

end Verif
