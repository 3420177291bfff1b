import Verif.HashTable.Iter

/-! Observers, the entry API and sets. -/

set_option autoImplicit false

namespace Verif
open Spec

variable {K V σ : Type} {E : HEnv K V σ} {Inv : σ → HNMem K V → List Nat → Prop} {w : World Nat}
  {wn : Nat → Option (Option (HCell K V))} {m m' : HMem K V} {t t' : HTable σ} {bl : List Nat}
  {cs cs' : List (List (Nat × K × V))} {peak : Nat}

theorem HCore.get (h : HCore True E Inv w wn m t bl cs) (he : PartialEquiv E.eq) (hh : HashOk E) (k : K) :
    t.get E k m = .ok (lookup E.eq (ents cs) k) := by
  obtain ⟨l1, c, l2, hcs, g1, g2, g3, hcase⟩ := h.locate he hh k
  rcases hcase with ⟨c1, n, c2, rfl, hk, hc1, hlu, hf⟩ | ⟨hc, hlu, hf⟩
  · have hcore := h
    rw [hcs] at hcore
    have hseg := hcore.chains _ (show c1 ++ n :: c2 ∈ l1 ++ (c1 ++ n :: c2) :: l2 by simp)
    simp only [HTable.get, hf, Exec.ok_bind, hseg.node.2, hlu]
  · simp only [HTable.get, hf, Exec.ok_bind, hlu]

theorem walkChain_ok : ∀ {ns : List (Nat × K × V)} {fuel : Nat}, HSeg m.n ns 0 → ns.length < fuel →
    walkChain m fuel (nextOf ns 0) = .ok ns := by
  intro ns
  induction ns with
  | nil =>
    intro fuel _ hf
    obtain ⟨f, rfl⟩ : ∃ f, fuel = f + 1 := ⟨fuel - 1, by omega⟩
    simp [walkChain]
  | cons n ns ih =>
    intro fuel h hf
    obtain ⟨f, rfl⟩ : ∃ f, fuel = f + 1 := ⟨fuel - 1, by simp at hf; omega⟩
    have hn := (HSeg.node (a := []) h).2
    simp only [walkChain, nextOf_cons, if_neg h.1, hn, Exec.ok_bind,
      ih h.2.2 (by simp at hf; omega)]

theorem walkBuckets_ok {b fuel : Nat} {post : List Nat} : ∀ {ds : List (List (Nat × K × V))}
    {pre : List Nat}, ArrIs m.b b (pre ++ ds.map (fun c => nextOf c 0) ++ post) →
    (∀ d ∈ ds, HSeg m.n d 0) → ds.flatten.length < fuel →
    walkBuckets m fuel (.loc b pre.length) ds.length = .ok ds := by
  intro ds
  induction ds with
  | nil => intros; rfl
  | cons d ds ih =>
    intro pre ha hs hf
    simp only [List.flatten_cons, List.length_append] at hf
    have hr : m.b.read (.loc b pre.length) = .ok (nextOf d 0) := ha.read (by simp)
    have := ih (pre := pre ++ [nextOf d 0]) (by simpa using ha) (fun x hx => hs x (by simp [hx]))
      (by omega)
    simp only [List.length_append, List.length_cons, List.length_nil, Nat.zero_add] at this
    simp only [walkBuckets, List.length_cons, hr, Exec.ok_bind,
      walkChain_ok (hs d (by simp)) (show d.length < fuel by omega), Ptr.next, this]

theorem HCore.dump {ok : Prop} (h : HCore ok E Inv w wn m t bl cs) : t.dump m = .ok cs := by
  have := walkBuckets_ok (m := m) (b := curArr E bl) (fuel := t.count + 1) (post := [sentinel])
    (ds := cs) (pre := []) (by simpa [heads] using h.arr) h.chains (by have := h.fits; omega)
  rw [List.length_nil, h.len] at this
  rw [HTable.dump, h.start]
  exact this

theorem flatten_split {n : Nat × K × V} (h : n ∈ cs.flatten) :
    ∃ l1 c1 c2 l2, cs = l1 ++ (c1 ++ n :: c2) :: l2 := by
  obtain ⟨c, hc, hn⟩ := List.mem_flatten.1 h
  obtain ⟨l1, l2, rfl⟩ := List.append_of_mem hc
  obtain ⟨c1, c2, rfl⟩ := List.append_of_mem hn
  exact ⟨l1, c1, c2, l2, rfl⟩

/-- Writing through a reference to the value of an entry. -/
theorem HRep.setRef (L : HLaw E Inv) (he : PartialEquiv E.eq) (h : HRep True E Inv w wn m t peak bl cs)
    {n : Nat × K × V} (hn : n ∈ cs.flatten) {k : K} (hk : E.eq n.2.1 k = true) (x : V) :
    ∃ m' cs', m.modify n.1 (fun c => { c with val := x }) = .ok m' ∧
      HRep True E Inv w wn m' t peak bl cs' ∧ ents cs' = setVal E.eq k x (ents cs) := by
  obtain ⟨l1, c1, c2, l2, rfl⟩ := flatten_split hn
  obtain ⟨m', e1, e2, e3, e4, e5⟩ := h.core.setVal L he hk x (fun _ => x) rfl
  exact ⟨m', _, e1, h.setCore e2 rfl rfl h.peak rfl (by rw [h.count]; simp), e3⟩

/-- The same, whatever the equality. -/
theorem HRep.setRefAny {ok : Prop} (L : HLaw E Inv) (h : HRep ok E Inv w wn m t peak bl cs)
    {n : Nat × K × V} (hn : n ∈ cs.flatten) (x : V) :
    ∃ m' cs' A B, m.modify n.1 (fun c => { c with val := x }) = .ok m' ∧
      HRep ok E Inv w wn m' t peak bl cs' ∧ ents cs = A ++ n.2 :: B ∧
      ents cs' = A ++ (n.2.1, x) :: B := by
  obtain ⟨l1, c1, c2, l2, rfl⟩ := flatten_split hn
  obtain ⟨m', e1, e2, e3, e4⟩ := h.core.setNode L (fun _ => x)
  exact ⟨m', _, _, _, e1, h.setCore e2 rfl rfl h.peak rfl (by rw [h.count]; simp), ents_mid .., ents_mid ..⟩

/-- `entry(k).and_modify(f).or_insert_with(g)`. -/
theorem HRep.entryWith {S : Type} (L : HLaw E Inv) (he : PartialEquiv E.eq) (hh : HashOk E)
    (h : HRep True E Inv w wn m t peak bl cs) (k : K) (f : V → V) (g : S → V × S) (s : S)
    (hmax : (MapOp.step E.eq (.entry k f (g s).1) (ents cs)).2.length ≤ maxEntries) :
    ∃ e m1 m2 p t' m' bl' cs' n, t.entry E k m = .ok (e, m1) ∧ e.andModify f m1 = .ok m2 ∧
      e.orInsertWith E g s t m2 =
        .ok (p, if (lookup E.eq (ents cs) k).isSome then s else (g s).2, t', m') ∧
      HRep True E Inv w wn m' t' (max peak (ents cs').length) bl' cs' ∧
      (ents cs').Perm (MapOp.step E.eq (.entry k f (g s).1) (ents cs)).2 ∧
      n ∈ cs'.flatten ∧ n.1 = p ∧ (E.eq n.2.1 k = true ∨ n.2.1 = k ∧ E.eq k k = false) := by
  have hpk := h.peak
  rw [h.count, ← ents_length] at hpk
  obtain ⟨l1, c, l2, hcs, g1, g2, g3, hcase⟩ := h.core.locate he hh k
  rcases hcase with ⟨c1, n, c2, rfl, hk, hc1, hlu, hf⟩ | ⟨hc, hlu, hf⟩
  · have hcore := (h.core.dropKey L k)
    rw [hcs] at hcore
    obtain ⟨m1, e1, e2, e3, e4, e5⟩ := hcore.setVal L he hk (f n.2.2) f rfl
    rw [← hcs] at e3
    refine ⟨.occupied n.1, m.dropKey E k, m1, n.1, t, m1, bl, _, (n.1, n.2.1, f n.2.2), ?_, e1, ?_,
      h.setCore e2 rfl rfl h.peak ?_ (by rw [h.count, hcs]; simp), ?_, ?_, rfl, .inl hk⟩
    · simp only [HTable.entry, hf, Exec.ok_bind]
    · simp only [HEntry.orInsertWith, hlu, Option.isSome_some, if_true]
    · rw [e3]
      simp only [setVal, List.length_map]
      omega
    · rw [e3]; simp only [MapOp.step, hlu]; exact .refl _
    · simp
  · have hlt : t.count < maxEntries := by
      simp only [MapOp.step, hlu, List.length_cons] at hmax
      rw [h.count, ← ents_length]
      omega
    obtain ⟨p, t', m', bl', cs', e1, e2, e3, e4, e5, e6, e7, ⟨x, e8⟩, e9⟩ := h.insertImpl L (fun _ => he)
      (v := (g s).1) (fun _ => hlu) hlt g2
    have hents : (ents cs').Perm ((k, (g s).1) :: ents cs) := e5.map _
    refine ⟨.vacant (.loc (curArr E bl) l1.length) k, m, m, p, t', m', bl', cs', (p, k, (g s).1), ?_, rfl, ?_,
      e2.setCore e2.core rfl rfl e2.peak ?_ e2.count, ?_, e5.mem_iff.2 (by simp), rfl, ?_⟩
    · simp only [HTable.entry, hf, Exec.ok_bind]
    · simp only [HEntry.orInsertWith, e1, Exec.ok_bind, hlu, Option.isSome_none, Bool.false_eq_true,
        if_false]
    · rw [hents.length_eq, List.length_cons, h.count, ents_length]
    · simp only [MapOp.step, hlu]; exact hents
    · cases hkk : E.eq k k with
      | true => exact .inl rfl
      | false => exact .inr ⟨rfl, rfl⟩

theorem lookup_setVal {eq : K → K → Bool} (he : PartialEquiv eq) {s : List (K × V)} {k : K} {p : K × V}
    (hd : Distinct eq s) (hp : lookup eq s k = some p) (v : V) (k' : K) :
    lookup eq (setVal eq k v s) k' = if eq k k' then some (p.1, v) else lookup eq s k' := by
  have hmem := (lookup_some he hd).1 hp
  obtain ⟨A, B, rfl⟩ := List.append_of_mem hmem.1
  have hs := (setVal_mid he hd hmem.2 v).1
  by_cases hk : eq k k' = true
  · rw [if_pos hk, lookup_some he (hd.setVal _ _), hs]
    exact ⟨by simp, he.trans _ _ _ hmem.2 hk⟩
  · rw [if_neg hk, hs]
    have hpk : eq p.1 k' = false := by
      cases h : eq p.1 k' with
      | false => rfl
      | true => exact absurd (he.trans _ _ _ (he.symm _ _ hmem.2) h) hk
    simp [lookup, List.find?_append, List.find?_cons, hpk]

theorem lookup_cons {eq : K → K → Bool} (s : List (K × V)) (k : K) (v : V) (k' : K) :
    lookup eq ((k, v) :: s) k' = if eq k k' then some (k, v) else lookup eq s k' := by
  simp only [lookup, List.find?_cons]
  cases eq k k' <;> simp

/-- The binding after an insertion: the key stored first stays, the value is new. -/
theorem lookup_step_insert {eq : K → K → Bool} (he : PartialEquiv eq) {s : List (K × V)}
    (hd : Distinct eq s) (k : K) (v : V) (k' : K) :
    lookup eq (MapOp.step eq (.insert k v) s).2 k' =
      if eq k k' then some (((lookup eq s k).map Prod.fst).getD k, v) else lookup eq s k' := by
  simp only [MapOp.step]
  cases h : lookup eq s k with
  | none => simp only [lookup_cons, Option.map_none, Option.getD_none]
  | some p => simp only [lookup_setVal he hd h, Option.map_some, Option.getD_some]

theorem lookup_step_entry {eq : K → K → Bool} (he : PartialEquiv eq) {s : List (K × V)}
    (hd : Distinct eq s) (k : K) (f : V → V) (v : V) (k' : K) :
    lookup eq (MapOp.step eq (.entry k f v) s).2 k' =
      if eq k k' then some (match lookup eq s k with
        | some p => (p.1, f p.2)
        | none => (k, v))
      else lookup eq s k' := by
  simp only [MapOp.step]
  cases h : lookup eq s k with
  | none => simp only [lookup_cons]
  | some p => simp only [lookup_setVal he hd h]

/-- `from_iter` after creation. -/
theorem HRep.insertAll (L : HLaw E Inv) (he : PartialEquiv E.eq) (hh : HashOk E) :
    ∀ (kvs : List (K × V)) {m : HMem K V} {t : HTable σ} {peak : Nat} {bl : List Nat}
      {cs : List (List (Nat × K × V))}, HRep True E Inv w wn m t peak bl cs →
    MapOp.peak E.eq (kvs.map fun p => .insert p.1 p.2) (ents cs) ≤ maxEntries →
    ∃ t' m' bl' cs', HTable.insertAll E kvs t m = .ok (t', m') ∧
      HRep True E Inv w wn m' t' (max peak (MapOp.peak E.eq (kvs.map fun p => .insert p.1 p.2) (ents cs)))
        bl' cs' ∧
      (ents cs').Perm (MapOp.run E.eq (kvs.map fun p => .insert p.1 p.2) (ents cs)).2 := by
  intro kvs
  induction kvs with
  | nil =>
    intro m t peak bl cs h _
    have hpk := h.peak
    rw [h.count, ← ents_length] at hpk
    refine ⟨t, m, bl, cs, rfl, h.setCore h.core rfl rfl h.peak ?_ h.count, .refl _⟩
    simp only [List.map_nil, MapOp.peak]; omega
  | cons p kvs ih =>
    intro m t peak bl cs h hmax
    simp only [List.map_cons, MapOp.peak] at hmax
    have hle := le_peak E.eq (kvs.map fun p => MapOp.insert p.1 p.2)
      (MapOp.step E.eq (.insert p.1 p.2) (ents cs)).2
    obtain ⟨t1, m1, bl1, cs1, e1, e2⟩ := h.step L he hh (.insert p.1 p.2) (by omega)
    -- the value replaced is dropped
    obtain ⟨o, e3⟩ : ∃ o, t.insert E p.1 p.2 m = .ok (o, t1, m1) := by
      simp only [HTable.step] at e1
      obtain ⟨⟨o, t2, m2⟩, h1, h2⟩ := Exec.bind_ok e1
      simp only [Except.ok.injEq, Prod.mk.injEq] at h2
      obtain ⟨_, rfl, rfl⟩ := h2
      exact ⟨o, h1⟩
    obtain ⟨a1, a2⟩ := allDrops_perm he (kvs.map fun p => MapOp.insert p.1 p.2) e2.perm
      e2.rep.core.distinct
    obtain ⟨r1, r2⟩ := run_perm he (kvs.map fun p => MapOp.insert p.1 p.2) e2.perm
      e2.rep.core.distinct
    have hrep : HRep True E Inv w wn (match o with | none => m1 | some v => m1.dropVal E v) t1
        (max peak (MapOp.step E.eq (.insert p.1 p.2) (ents cs)).2.length) bl1 cs1 := by
      cases o with
      | none => exact e2.rep
      | some v => exact e2.rep.setCore (e2.rep.core.dropVal L v) rfl rfl e2.rep.peak rfl e2.rep.count
    obtain ⟨t', m', bl', cs', f1, f2, f3⟩ := ih hrep (by rw [a2]; omega)
    have hpk := h.peak
    rw [h.count, ← ents_length] at hpk
    refine ⟨t', m', bl', cs', ?_, f2.setCore f2.core rfl rfl f2.peak ?_ f2.count, f3.trans r2⟩
    · simp only [HTable.insertAll, e3, Exec.ok_bind]
      cases o <;> exact f1
    · rw [a2]
      simp only [List.map_cons, MapOp.peak]
      omega

/-! ## Nothing is lost -/

theorem contents_perm {s s' : List (K × V)} (h : s.Perm s') : (contents s).Perm (contents s') :=
  h.flatMap_right _

theorem contents_erase {eq : K → K → Bool} (he : PartialEquiv eq) {s : List (K × V)} {k : K} {p : K × V}
    (hd : Distinct eq s) (hp : lookup eq s k = some p) :
    (contents s).Perm (.inl p.1 :: .inr p.2 :: contents (eraseKey eq k s)) := by
  have hmem := (lookup_some he hd).1 hp
  obtain ⟨A, B, rfl⟩ := List.append_of_mem hmem.1
  have hs : eraseKey eq k (A ++ p :: B) = A ++ B := (setVal_mid he hd hmem.2 p.2).2
  rw [hs]
  exact contents_perm (s' := p :: (A ++ B)) List.perm_middle

theorem contents_set {eq : K → K → Bool} (he : PartialEquiv eq) {s : List (K × V)} {k : K} {p : K × V}
    (hd : Distinct eq s) (hp : lookup eq s k = some p) (v : V) :
    (.inr v :: contents s).Perm (.inr p.2 :: contents (setVal eq k v s)) := by
  have hmem := (lookup_some he hd).1 hp
  obtain ⟨A, B, rfl⟩ := List.append_of_mem hmem.1
  have hs := (setVal_mid he hd hmem.2 v).1
  rw [hs]
  have h1 := contents_perm (s := A ++ p :: B) (s' := p :: (A ++ B)) List.perm_middle
  have h2 := contents_perm (s := A ++ (p.1, v) :: B) (s' := (p.1, v) :: (A ++ B)) List.perm_middle
  refine (h1.cons _).trans (.trans ?_ (h2.symm.cons _))
  generalize A ++ B = r
  show (Sum.inr v :: .inl p.1 :: .inr p.2 :: contents r).Perm
    (.inr p.2 :: .inl p.1 :: .inr v :: contents r)
  exact (List.Perm.swap _ _ _).trans (((List.Perm.swap _ _ _).cons _).trans (List.Perm.swap _ _ _))

theorem contents_eraseNone {eq : K → K → Bool} {s : List (K × V)} {k : K}
    (hp : lookup eq s k = none) : eraseKey eq k s = s := by
  rw [lookup_none] at hp
  rw [eraseKey, List.filter_eq_self]
  intro p h
  simp [hp p h]

/-- One call neither loses nor duplicates a key or a value. -/
theorem conserve_step {eq : K → K → Bool} (he : PartialEquiv eq) {s : List (K × V)}
    (hd : Distinct eq s) (op : MapOp K V) :
    (contents s ++ op.taken eq s).Perm
      (contents (op.step eq s).2 ++ (op.given eq s ++ op.drops eq s)) := by
  cases op with
  | insert k v =>
    simp only [MapOp.taken, MapOp.given, MapOp.drops, MapOp.step]
    cases h : lookup eq s k with
    | none =>
      simp only [Option.isSome_none, Bool.false_eq_true, if_false, List.append_nil]
      exact List.perm_append_comm
    | some p =>
      simp only [Option.isSome_some, if_true]
      have := contents_set he hd h v
      refine List.perm_append_comm.trans (.trans ?_ List.perm_append_comm)
      exact (this.cons _).trans (List.Perm.swap _ _ _)
  | remove k =>
    simp only [MapOp.taken, MapOp.given, MapOp.drops, MapOp.step, List.append_nil]
    cases h : lookup eq s k with
    | none => simp only [contents_eraseNone h, List.append_nil]; exact .refl _
    | some p =>
      refine (contents_erase he hd h).trans (.trans ?_ List.perm_append_comm)
      exact List.Perm.swap _ _ _
  | removeEntry k =>
    simp only [MapOp.taken, MapOp.given, MapOp.drops, MapOp.step, List.append_nil]
    cases h : lookup eq s k with
    | none => simp only [contents_eraseNone h, List.append_nil]; exact .refl _
    | some p =>
      exact (contents_erase he hd h).trans
        (List.perm_append_comm (l₁ := [Sum.inl p.1, Sum.inr p.2]))
  | get k => exact .refl _
  | modify k f =>
    simp only [MapOp.taken, MapOp.given, MapOp.drops, MapOp.step]
    cases h : lookup eq s k with
    | none => exact .refl _
    | some p =>
      refine List.perm_append_comm.trans (.trans ?_ List.perm_append_comm)
      exact contents_set he hd h (f p.2)
  | contains k => exact .refl _
  | entry k f v =>
    simp only [MapOp.taken, MapOp.given, MapOp.drops, MapOp.step]
    cases h : lookup eq s k with
    | none =>
      simp only [Option.isSome_none, Bool.false_eq_true, if_false, List.append_nil]
      exact List.perm_append_comm
    | some p =>
      simp only [Option.isSome_some, if_true]
      refine List.perm_append_comm.trans (.trans ?_ List.perm_append_comm)
      have := (((contents_set he hd h (f p.2)).cons (.inr v)).cons (.inl k))
      exact this.trans (((List.Perm.swap _ _ _).cons _).trans (List.Perm.swap _ _ _))
  | entryKey k =>
    simp only [MapOp.taken, MapOp.given, MapOp.drops, MapOp.step]
    cases lookup eq s k <;> exact .refl _
  | len => exact .refl _
  | isEmpty => exact .refl _
  | clear =>
    simp only [MapOp.taken, MapOp.given, MapOp.drops, MapOp.step, List.append_nil, List.nil_append]
    exact .refl _

/-- Nor does a history. -/
theorem conserve {eq : K → K → Bool} (he : PartialEquiv eq) (ops : List (MapOp K V)) :
    ∀ {s : List (K × V)}, Distinct eq s →
    (contents s ++ MapOp.allTaken eq ops s).Perm
      (contents (MapOp.run eq ops s).2 ++ (MapOp.allGiven eq ops s ++ MapOp.allDrops eq ops s)) := by
  induction ops with
  | nil => intro s _; exact .refl _
  | cons op ops ih =>
    intro s hd
    have h1 := conserve_step he hd op
    have h2 := ih (hd.step he op)
    simp only [MapOp.allTaken, MapOp.allGiven, MapOp.allDrops, MapOp.run]
    rw [← List.append_assoc]
    refine (h1.append_right _).trans ?_
    generalize contents (op.step eq s).2 = C at h2 ⊢
    generalize MapOp.allTaken eq ops (op.step eq s).2 = T at h2 ⊢
    generalize contents (MapOp.run eq ops (op.step eq s).2).2 = C' at h2 ⊢
    generalize MapOp.allGiven eq ops (op.step eq s).2 = G at h2 ⊢
    generalize MapOp.allDrops eq ops (op.step eq s).2 = D at h2 ⊢
    generalize op.given eq s = g
    generalize op.drops eq s = d
    have h3 : (C ++ (g ++ d) ++ T).Perm ((g ++ d) ++ (C ++ T)) := by
      rw [List.append_assoc]
      exact List.perm_append_comm_assoc _ _ _
    refine h3.trans ((h2.append_left _).trans ?_)
    refine (List.perm_append_comm_assoc _ _ _).trans (List.Perm.append_left _ ?_)
    simp only [List.append_assoc]
    refine List.Perm.append_left _ ?_
    exact List.perm_append_comm_assoc _ _ _

/-! ## Sets -/

/-- The keys of the chains. -/
def keys {V : Type} (s : List (K × V)) : List K := s.map Prod.fst

theorem member_keys {V : Type} (eq : K → K → Bool) (s : List (K × V)) (k : K) :
    member eq (keys s) k = (lookup eq s k).map Prod.fst := by
  simp only [member, keys, lookup, List.find?_map]
  rfl

/-- The map call a set call amounts to. -/
def SetOp.toMap : SetOp K → MapOp K Unit
  | .insert k => .insert k ()
  | .remove k => .removeEntry k
  | .get k => .get k
  | .contains k => .contains k
  | .len => .len
  | .isEmpty => .isEmpty
  | .clear => .clear

theorem keys_step (eq : K → K → Bool) (f : Bool → Bool) (s : List (K × Unit)) (op : SetOp K) :
    keys ((SetOp.toMap op).step eq s).2 = (op.step f eq (keys s)).2 := by
  cases op with
  | insert k =>
    simp only [SetOp.toMap, MapOp.step, SetOp.step, member_keys]
    cases h : lookup eq s k with
    | none => simp [keys]
    | some p =>
      simp only [Option.map_some, Option.isSome_some, if_true, keys, setVal, List.map_map]
      refine List.map_congr_left fun x _ => ?_
      simp only [Function.comp]
      split <;> rfl
  | remove k =>
    simp only [SetOp.toMap, MapOp.step, SetOp.step, keys, eraseKey]
    rw [List.filter_map]; rfl
  | get k => rfl
  | contains k => rfl
  | len => rfl
  | isEmpty => rfl
  | clear => rfl

theorem set_peak (eq : K → K → Bool) (ops : List (SetOp K)) : ∀ (s : List (K × Unit)),
    SetOp.peak eq ops (keys s) = MapOp.peak eq (ops.map SetOp.toMap) s := by
  induction ops with
  | nil => intro s; simp [SetOp.peak, MapOp.peak, keys]
  | cons op ops ih =>
    intro s
    simp only [SetOp.peak, MapOp.peak, List.map_cons, ← keys_step, ih]
    simp [keys]

theorem set_run (eq : K → K → Bool) (f : Bool → Bool) (ops : List (SetOp K)) :
    ∀ (s : List (K × Unit)),
    keys (MapOp.run eq (ops.map SetOp.toMap) s).2 = (SetOp.run f eq ops (keys s)).2 := by
  induction ops with
  | nil => intro s; rfl
  | cons op ops ih =>
    intro s
    simp only [SetOp.run, MapOp.run, List.map_cons, ← keys_step eq f, ih]

theorem HRep.stepSet {E : HEnv K Unit σ} {Inv : σ → HNMem K Unit → List Nat → Prop}
    {wn : Nat → Option (Option (HCell K Unit))} {m : HMem K Unit} {t : HTable σ}
    {cs : List (List (Nat × K × Unit))}
    (L : HLaw E Inv) (he : PartialEquiv E.eq) (hh : HashOk E)
    (h : HRep True E Inv w wn m t peak bl cs) (op : SetOp K)
    (hmax : ((SetOp.toMap op).step E.eq (ents cs)).2.length ≤ maxEntries) :
    ∃ t' m' bl' cs', t.stepSet E op m = .ok ((op.step (!·) E.eq (keys (ents cs))).1, t', m') ∧
      HStep E Inv w wn m peak bl cs ((SetOp.toMap op).step E.eq (ents cs)).2
        ((SetOp.toMap op).drops E.eq (ents cs)) t' m' bl' cs' := by
  obtain ⟨t', m', bl', cs', e1, e2⟩ := h.step L he hh (SetOp.toMap op) hmax
  refine ⟨t', m', bl', cs', ?_, e2⟩
  cases op with
  | insert k =>
    simp only [SetOp.toMap, HTable.step, HTable.stepSet] at e1 ⊢
    obtain ⟨⟨o, t2, m2⟩, h1, h2⟩ := Exec.bind_ok e1
    simp only [Except.ok.injEq, Prod.mk.injEq] at h2
    obtain ⟨h2, rfl, rfl⟩ := h2
    simp only [h1, Exec.ok_bind, SetOp.step, member_keys, MapOp.step] at h2 ⊢
    cases hl : lookup E.eq (ents cs) k with
    | none => rw [hl] at h2; simp only [MapOut.val.injEq] at h2; subst h2; rfl
    | some p => rw [hl] at h2; simp only [MapOut.val.injEq] at h2; subst h2; rfl
  | remove k =>
    simp only [SetOp.toMap, HTable.step, HTable.stepSet] at e1 ⊢
    obtain ⟨⟨o, t2, m2⟩, h1, h2⟩ := Exec.bind_ok e1
    simp only [Except.ok.injEq, Prod.mk.injEq] at h2
    obtain ⟨h2, rfl, rfl⟩ := h2
    simp only [MapOp.step, MapOut.pair.injEq] at h2
    subst h2
    simp only [h1, Exec.ok_bind, SetOp.step, member_keys]
  | get k =>
    simp only [SetOp.toMap, HTable.step, HTable.stepSet, h.core.get he hh, Exec.ok_bind,
      Except.ok.injEq, Prod.mk.injEq] at e1 ⊢
    obtain ⟨_, rfl, rfl⟩ := e1
    exact ⟨by simp only [SetOp.step, member_keys], rfl, rfl⟩
  | contains k =>
    simp only [SetOp.toMap, HTable.step, HTable.stepSet, HTable.containsKey, h.core.get he hh,
      Exec.ok_bind, Except.ok.injEq, Prod.mk.injEq] at e1 ⊢
    obtain ⟨_, rfl, rfl⟩ := e1
    exact ⟨by simp only [SetOp.step, member_keys, Option.isSome_map], rfl, rfl⟩
  | len =>
    simp only [SetOp.toMap, HTable.step, HTable.stepSet, Except.ok.injEq, Prod.mk.injEq,
      MapOp.step, MapOut.nat.injEq] at e1 ⊢
    obtain ⟨h1, rfl, rfl⟩ := e1
    exact ⟨by simp only [SetOp.step, h1, keys, List.length_map], rfl, rfl⟩
  | isEmpty =>
    simp only [SetOp.toMap, HTable.step, HTable.stepSet, Except.ok.injEq, Prod.mk.injEq,
      MapOp.step, MapOut.bool.injEq] at e1 ⊢
    obtain ⟨h1, rfl, rfl⟩ := e1
    exact ⟨by simp only [SetOp.step, h1, keys, List.isEmpty_map], rfl, rfl⟩
  | clear =>
    simp only [SetOp.toMap, HTable.step, HTable.stepSet] at e1 ⊢
    obtain ⟨⟨t2, m2⟩, h1, h2⟩ := Exec.bind_ok e1
    simp only [Except.ok.injEq, Prod.mk.injEq] at h2
    obtain ⟨_, rfl, rfl⟩ := h2
    simp only [h1, Exec.ok_bind, SetOp.step]

theorem set_step_perm {eq : K → K → Bool} (he : PartialEquiv eq) {s s' : List (K × Unit)}
    (hp : s.Perm s') (hd : Distinct eq s) (f : Bool → Bool) (op : SetOp K) :
    (op.step f eq (keys s)).1 = (op.step f eq (keys s')).1 := by
  cases op <;> simp only [SetOp.step, member_keys, ← lookup_perm he hp hd]
  · split <;> rfl
  · simp only [keys, List.length_map, hp.length_eq]
  · simp only [keys, List.isEmpty_map, hp.isEmpty_eq]

theorem set_run_perm {eq : K → K → Bool} (he : PartialEquiv eq) (f : Bool → Bool)
    (ops : List (SetOp K)) : ∀ {s s' : List (K × Unit)}, s.Perm s' → Distinct eq s →
    (SetOp.run f eq ops (keys s)).1 = (SetOp.run f eq ops (keys s')).1 := by
  induction ops with
  | nil => intros; rfl
  | cons op ops ih =>
    intro s s' hp hd
    have := ih (step_perm he hp hd (SetOp.toMap op)).2 (hd.step he _)
    simp only [SetOp.run, set_step_perm he hp hd f op, ← keys_step eq f, this]

theorem HRep.runSet {E : HEnv K Unit σ} {Inv : σ → HNMem K Unit → List Nat → Prop}
    {wn : Nat → Option (Option (HCell K Unit))} (L : HLaw E Inv) (he : PartialEquiv E.eq) (hh : HashOk E)
    (ops : List (SetOp K)) : ∀ {m : HMem K Unit} {t : HTable σ} {peak : Nat} {bl : List Nat}
      {cs : List (List (Nat × K × Unit))},
    HRep True E Inv w wn m t peak bl cs → SetOp.peak E.eq ops (keys (ents cs)) ≤ maxEntries →
    ∃ t' m' peak' bl' cs', t.runSet E ops m =
        .ok ((SetOp.run (!·) E.eq ops (keys (ents cs))).1, t', m') ∧
      HRep True E Inv w wn m' t' peak' bl' cs' ∧
      (keys (ents cs')).Perm (SetOp.run (!·) E.eq ops (keys (ents cs))).2 := by
  induction ops with
  | nil => intro m t peak bl cs h _; exact ⟨t, m, peak, bl, cs, rfl, h, .refl _⟩
  | cons op ops ih =>
    intro m t peak bl cs h hmax
    rw [set_peak] at hmax
    simp only [List.map_cons, MapOp.peak] at hmax
    have hle := le_peak E.eq (ops.map SetOp.toMap) ((SetOp.toMap op).step E.eq (ents cs)).2
    obtain ⟨t1, m1, bl1, cs1, e1, e2⟩ := h.stepSet L he hh op (by omega)
    obtain ⟨a1, a2⟩ := allDrops_perm he (ops.map SetOp.toMap) e2.perm e2.rep.core.distinct
    obtain ⟨t2, m2, peak2, bl2, cs2, f1, f2, f3⟩ := ih e2.rep (by rw [set_peak, a2]; omega)
    have hr := set_run_perm he (!·) ops e2.perm e2.rep.core.distinct
    obtain ⟨_, r2⟩ := run_perm he (ops.map SetOp.toMap) e2.perm e2.rep.core.distinct
    rw [keys_step E.eq (!·)] at hr
    rw [hr] at f1
    refine ⟨t2, m2, peak2, bl2, cs2, ?_, f2, ?_⟩
    · simp only [HTable.runSet, e1, Exec.ok_bind, f1, SetOp.run]
    · refine f3.trans ?_
      simp only [SetOp.run]
      rw [← set_run, ← keys_step E.eq (!·), ← set_run]
      exact r2.map _

end Verif
