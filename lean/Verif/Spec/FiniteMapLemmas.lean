import Verif.Spec.FiniteMap

/-! Consequences of the definitions of the map specification. -/

set_option autoImplicit false

namespace Verif.Spec

variable {K V : Type} {eq lt : K → K → Bool} {s t : List (K × V)}

theorem StrictWeak.cotrans (h : StrictWeak lt) {a b : K} (hab : lt a b = true) (c : K) :
    lt a c = true ∨ lt c b = true := by
  cases h1 : lt a c with
  | true => exact .inl rfl
  | false =>
    cases h2 : lt c b with
    | true => exact .inr rfl
    | false =>
      exfalso
      have h3 : lt c a = false := by
        cases h3 : lt c a with
        | false => rfl
        | true => rw [h.trans c a b h3 hab] at h2; cases h2
      have h4 : lt b c = false := by
        cases h4 : lt b c with
        | false => rfl
        | true => rw [h.trans a b c hab h4] at h1; cases h1
      rw [(h.incomp a c b h1 h3 h2 h4).1] at hab
      cases hab

theorem StrictWeak.asymm (h : StrictWeak lt) {a b : K} (hab : lt a b = true) : lt b a = false := by
  cases h1 : lt b a with
  | false => rfl
  | true => have := h.trans a b a hab h1; rw [h.irrefl] at this; cases this

theorem Consistent.equiv (hw : StrictWeak lt) (h : Consistent lt eq) : EquivRel eq where
  refl a := (h a a).2 ⟨hw.irrefl a, hw.irrefl a⟩
  symm a b hab := (h b a).2 ((h a b).1 hab).symm
  trans a b c hab hbc :=
    (h a c).2 (hw.incomp a b c ((h a b).1 hab).1 ((h a b).1 hab).2 ((h b c).1 hbc).1
      ((h b c).1 hbc).2)

theorem EquivRel.part (h : EquivRel eq) : PartialEquiv eq := ⟨h.symm, h.trans⟩

instance : Coe (EquivRel eq) (PartialEquiv eq) := ⟨EquivRel.part⟩

theorem PartialEquiv.comm (he : PartialEquiv eq) (a b : K) : eq a b = eq b a := by
  cases h : eq a b with
  | true => exact (he.symm _ _ h).symm
  | false =>
    cases h2 : eq b a with
    | true => rw [he.symm _ _ h2] at h; cases h
    | false => rfl

theorem Distinct.eq_of (he : PartialEquiv eq) (hd : Distinct eq s) {p q : K × V} (hp : p ∈ s) (hq : q ∈ s)
    (h : eq p.1 q.1 = true) : p = q := by
  induction s with
  | nil => cases hp
  | cons a s ih =>
    obtain ⟨h1, h2⟩ := List.pairwise_cons.1 hd
    rcases List.mem_cons.1 hp with rfl | hp'
    · rcases List.mem_cons.1 hq with rfl | hq'
      · rfl
      · rw [h1 q hq'] at h; cases h
    · rcases List.mem_cons.1 hq with rfl | hq'
      · rw [he.comm, h1 p hp'] at h; cases h
      · exact ih h2 hp' hq'

theorem lookup_some (he : PartialEquiv eq) (hd : Distinct eq s) {k : K} {p : K × V} :
    lookup eq s k = some p ↔ p ∈ s ∧ eq p.1 k = true := by
  constructor
  · intro h
    exact ⟨List.mem_of_find?_eq_some h, by simpa using List.find?_some h⟩
  · rintro ⟨hm, hk⟩
    cases h : lookup eq s k with
    | none =>
      have := List.find?_eq_none.1 h p hm
      simp [hk] at this
    | some q =>
      have h1 := List.mem_of_find?_eq_some h
      have h2 : eq q.1 k = true := by simpa using List.find?_some h
      have := hd.eq_of he h1 hm (he.trans _ _ _ h2 (he.symm _ _ hk))
      rw [this]

theorem lookup_none {k : K} : lookup eq s k = none ↔ ∀ p ∈ s, eq p.1 k = false := by
  simp [lookup, List.find?_eq_none]

theorem Distinct.perm (he : PartialEquiv eq) (h : s.Perm t) (hd : Distinct eq s) : Distinct eq t :=
  h.pairwise hd (fun {a b} hab => by rw [he.comm]; exact hab)

theorem lookup_perm (he : PartialEquiv eq) (h : s.Perm t) (hd : Distinct eq s) (k : K) :
    lookup eq s k = lookup eq t k := by
  have hd' := hd.perm he h
  cases h1 : lookup eq t k with
  | none =>
    rw [lookup_none] at h1 ⊢
    exact fun p hp => h1 p (h.subset hp)
  | some p =>
    rw [lookup_some he hd'] at h1
    rw [lookup_some he hd]
    exact ⟨h.symm.subset h1.1, h1.2⟩

theorem Distinct.setVal (hd : Distinct eq s) (k : K) (v : V) : Distinct eq (setVal eq k v s) := by
  unfold Distinct Spec.setVal
  rw [List.pairwise_map]
  refine hd.imp ?_
  intro a b hab
  split <;> split <;> exact hab

theorem Distinct.eraseKey (hd : Distinct eq s) (k : K) : Distinct eq (eraseKey eq k s) :=
  List.Pairwise.filter _ hd

theorem Distinct.cons (he : PartialEquiv eq) (hd : Distinct eq s) {k : K} (v : V)
    (h : lookup eq s k = none) : Distinct eq ((k, v) :: s) := by
  refine List.pairwise_cons.2 ⟨?_, hd⟩
  intro p hp
  rw [he.comm]
  exact lookup_none.1 h p hp

theorem Distinct.step (he : PartialEquiv eq) (hd : Distinct eq s) (op : MapOp K V) :
    Distinct eq (op.step eq s).2 := by
  cases op with
  | insert k v =>
    simp only [MapOp.step]
    cases h : lookup eq s k with
    | none => exact hd.cons he v h
    | some p => exact hd.setVal k v
  | remove k => exact hd.eraseKey k
  | removeEntry k => exact hd.eraseKey k
  | get k => exact hd
  | modify k f =>
    simp only [MapOp.step]
    cases h : lookup eq s k with
    | none => exact hd
    | some p => exact hd.setVal k _
  | contains k => exact hd
  | entry k f v =>
    simp only [MapOp.step]
    cases h : lookup eq s k with
    | none => exact hd.cons he v h
    | some p => exact hd.setVal k _
  | entryKey k =>
    simp only [MapOp.step]
    cases h : lookup eq s k <;> exact hd
  | len => exact hd
  | isEmpty => exact hd
  | clear => exact List.Pairwise.nil

/-- The order of the list does not matter. -/
theorem step_perm (he : PartialEquiv eq) (h : s.Perm t) (hd : Distinct eq s) (op : MapOp K V) :
    (op.step eq s).1 = (op.step eq t).1 ∧ (op.step eq s).2.Perm (op.step eq t).2 := by
  cases op with
  | insert k v =>
    simp only [MapOp.step, ← lookup_perm he h hd]
    cases lookup eq s k with
    | none => exact ⟨rfl, h.cons _⟩
    | some p => exact ⟨rfl, h.map _⟩
  | remove k => exact ⟨by simp [MapOp.step, lookup_perm he h hd], h.filter _⟩
  | removeEntry k => exact ⟨by simp [MapOp.step, lookup_perm he h hd], h.filter _⟩
  | get k => exact ⟨by simp [MapOp.step, lookup_perm he h hd], h⟩
  | modify k f =>
    simp only [MapOp.step, ← lookup_perm he h hd]
    cases lookup eq s k with
    | none => exact ⟨rfl, h⟩
    | some p => exact ⟨rfl, h.map _⟩
  | contains k => exact ⟨by simp [MapOp.step, lookup_perm he h hd], h⟩
  | entry k f v =>
    simp only [MapOp.step, ← lookup_perm he h hd]
    cases lookup eq s k with
    | none => exact ⟨rfl, h.cons _⟩
    | some p => exact ⟨rfl, h.map _⟩
  | entryKey k =>
    simp only [MapOp.step, ← lookup_perm he h hd]
    cases lookup eq s k <;> exact ⟨rfl, h⟩
  | len => exact ⟨by simp [MapOp.step, h.length_eq], h⟩
  | isEmpty => exact ⟨by simp [MapOp.step, h.isEmpty_eq], h⟩
  | clear => exact ⟨rfl, .refl _⟩

theorem run_perm (he : PartialEquiv eq) (ops : List (MapOp K V)) :
    ∀ {s t : List (K × V)}, s.Perm t → Distinct eq s →
    (MapOp.run eq ops s).1 = (MapOp.run eq ops t).1 ∧
    (MapOp.run eq ops s).2.Perm (MapOp.run eq ops t).2 := by
  induction ops with
  | nil => intro s t h _; exact ⟨rfl, h⟩
  | cons op ops ih =>
    intro s t h hd
    obtain ⟨h1, h2⟩ := step_perm he h hd op
    obtain ⟨h3, h4⟩ := ih h2 (hd.step he op)
    exact ⟨by simp [MapOp.run, h1, h3], h4⟩

/-! The specification does describe finite maps. -/

theorem lookup_insert (he : PartialEquiv eq) (hd : Distinct eq s) (k : K) (v : V) (k' : K) :
    (lookup eq (MapOp.step eq (.insert k v) s).2 k').map Prod.snd =
      if eq k k' then some v else (lookup eq s k').map Prod.snd := by
  simp only [MapOp.step]
  cases h : lookup eq s k with
  | none =>
    by_cases hk : eq k k' = true
    · simp [lookup, hk]
    · simp only [lookup, List.find?_cons, hk, if_false, Bool.false_eq_true]
  | some p =>
    have hp := (lookup_some he hd).1 h
    simp only
    have key : ∀ t : List (K × V), lookup eq (setVal eq k v t) k' =
        (lookup eq t k').map (fun q => if eq q.1 k then (q.1, v) else q) := by
      intro t
      simp only [lookup, setVal, List.find?_map]
      congr 1
      apply congrArg (fun f => List.find? f t)
      funext q
      simp only [Function.comp]
      split <;> rfl
    rw [key]
    by_cases hk : eq k k' = true
    · have : lookup eq s k' = some p :=
        (lookup_some he hd).2 ⟨hp.1, he.trans _ _ _ hp.2 hk⟩
      simp [this, hk, hp.2]
    · simp only [hk, if_false, Bool.false_eq_true]
      cases h2 : lookup eq s k' with
      | none => rfl
      | some q =>
        have hq := (lookup_some he hd).1 h2
        have : eq q.1 k = false := by
          cases h3 : eq q.1 k with
          | false => rfl
          | true => exact absurd (he.trans _ _ _ (he.symm _ _ h3) hq.2) hk
        simp [this]

theorem lookup_remove (he : PartialEquiv eq) (k k' : K) :
    lookup eq (MapOp.step eq (.remove k) s).2 k' =
      if eq k k' then none else lookup eq s k' := by
  simp only [MapOp.step, eraseKey]
  by_cases hk : eq k k' = true
  · rw [if_pos hk, lookup_none]
    intro p hp
    have := (List.mem_filter.1 hp).2
    cases h : eq p.1 k' with
    | false => rfl
    | true => rw [he.trans _ _ _ h (he.symm _ _ hk)] at this; cases this
  · rw [if_neg hk]
    simp only [lookup, List.find?_filter]
    congr 1
    funext p
    cases h : eq p.1 k' with
    | false => simp
    | true =>
      have : eq p.1 k = false := by
        cases h2 : eq p.1 k with
        | false => rfl
        | true => exact absurd (he.trans _ _ _ (he.symm _ _ h2) h) hk
      simp [this]

end Verif.Spec
