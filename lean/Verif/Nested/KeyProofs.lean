import Verif.Nested.KeyModel
import Verif.Nested.Maps
import Verif.HashTable.KeyCalls
import Verif.Text.Proofs

/-! Hash maps with strings as keys. -/

set_option autoImplicit false

namespace Verif
open Spec

variable {K L V : Type}

/-! ## Calls with other keys -/

theorem lookup_mapKeys {eq : K → K → Bool} {eq' : L → L → Bool} {f : K → L} {k : K} :
    ∀ {s : List (K × V)}, (∀ p ∈ s, eq p.1 k = eq' (f p.1) (f k)) →
    lookup eq' (s.map fun p => (f p.1, p.2)) (f k) = (lookup eq s k).map fun p => (f p.1, p.2)
  | [], _ => rfl
  | p :: s, h => by
    have h1 := h p (by simp)
    have h2 := lookup_mapKeys (s := s) fun q hq => h q (by simp [hq])
    simp only [lookup, List.map_cons, List.find?_cons, h1] at h2 ⊢
    cases eq' (f p.1) (f k)
    · exact h2
    · rfl

theorem setVal_mapKeys {eq : K → K → Bool} {eq' : L → L → Bool} {f : K → L} {k : K} (v : V)
    {s : List (K × V)} (h : ∀ p ∈ s, eq p.1 k = eq' (f p.1) (f k)) :
    setVal eq' (f k) v (s.map fun p => (f p.1, p.2)) = (setVal eq k v s).map fun p => (f p.1, p.2) := by
  simp only [setVal, List.map_map]
  refine List.map_congr_left fun p hp => ?_
  simp only [Function.comp, h p hp]
  split_ifs <;> rfl

theorem eraseKey_mapKeys {eq : K → K → Bool} {eq' : L → L → Bool} {f : K → L} {k : K} :
    ∀ {s : List (K × V)}, (∀ p ∈ s, eq p.1 k = eq' (f p.1) (f k)) →
    eraseKey eq' (f k) (s.map fun p => (f p.1, p.2)) = (eraseKey eq k s).map fun p => (f p.1, p.2)
  | [], _ => rfl
  | p :: s, h => by
    have h1 := h p (by simp)
    have h2 := eraseKey_mapKeys (s := s) fun q hq => h q (by simp [hq])
    simp only [eraseKey, List.map_cons, List.filter_cons, h1] at h2 ⊢
    cases eq' (f p.1) (f k) <;> simp [h2]

/-- A call on keys that are compared by what they stand for. -/
theorem step_mapKeys {eq : K → K → Bool} {eq' : L → L → Bool} (f : K → L) (op : MapOp K V)
    (s : List (K × V)) (h : ∀ k, op.asked = some k → ∀ p ∈ s, eq p.1 k = eq' (f p.1) (f k)) :
    (op.mapKey f).step eq' (s.map fun p => (f p.1, p.2)) =
      ((op.step eq s).1.mapKey f, (op.step eq s).2.map fun p => (f p.1, p.2)) := by
  cases op with
  | insert k v =>
    have h := h k rfl
    simp only [MapOp.mapKey, MapOp.step, lookup_mapKeys h]
    cases lookup eq s k <;> simp [MapOut.mapKey, setVal_mapKeys v h]
  | remove k =>
    have h := h k rfl
    simp only [MapOp.mapKey, MapOp.step, lookup_mapKeys h, eraseKey_mapKeys h]
    cases lookup eq s k <;> simp [MapOut.mapKey]
  | removeEntry k =>
    have h := h k rfl
    simp only [MapOp.mapKey, MapOp.step, lookup_mapKeys h, eraseKey_mapKeys h, MapOut.mapKey]
  | get k =>
    have h := h k rfl
    simp only [MapOp.mapKey, MapOp.step, lookup_mapKeys h]
    cases lookup eq s k <;> simp [MapOut.mapKey]
  | modify k g =>
    have h := h k rfl
    simp only [MapOp.mapKey, MapOp.step, lookup_mapKeys h]
    cases lookup eq s k <;> simp [MapOut.mapKey, setVal_mapKeys _ h]
  | contains k =>
    have h := h k rfl
    simp only [MapOp.mapKey, MapOp.step, lookup_mapKeys h, MapOut.mapKey, Option.isSome_map]
  | entry k g v =>
    have h := h k rfl
    simp only [MapOp.mapKey, MapOp.step, lookup_mapKeys h]
    cases lookup eq s k <;> simp [MapOut.mapKey, setVal_mapKeys _ h]
  | entryKey k =>
    have h := h k rfl
    simp only [MapOp.mapKey, MapOp.step, lookup_mapKeys h]
    cases lookup eq s k <;> simp [MapOut.mapKey]
  | len => simp [MapOp.mapKey, MapOp.step, MapOut.mapKey]
  | isEmpty => simp [MapOp.mapKey, MapOp.step, MapOut.mapKey]
  | clear => simp [MapOp.mapKey, MapOp.step, MapOut.mapKey]

theorem left_inl (k : K) (l : List (K ⊕ V)) :
    (Sum.inl k :: l).filterMap Sum.getLeft? = k :: l.filterMap Sum.getLeft? := rfl

theorem left_inr (v : V) (l : List (K ⊕ V)) :
    (Sum.inr v :: l).filterMap Sum.getLeft? = l.filterMap Sum.getLeft? := rfl

theorem contents_left : ∀ s : List (K × V), (Spec.contents s).filterMap Sum.getLeft? = s.map Prod.fst
  | [] => rfl
  | p :: s => by
    show List.filterMap Sum.getLeft? (.inl p.1 :: .inr p.2 :: Spec.contents s) = _
    rw [left_inl, left_inr, contents_left s]
    rfl

/-- Keys accounted for by a call. -/
theorem keys_perm {eq : K → K → Bool} (he : PartialEquiv eq) (op : MapOp K V) {s : List (K × V)}
    (hd : Distinct eq s) :
    (op.asked.toList ++ s.map Prod.fst).Perm ((op.drops eq s).filterMap Sum.getLeft? ++
      (op.step eq s).1.owned ++ op.lent ++ (op.step eq s).2.map Prod.fst) := by
  have h := (conserve_step he hd op).filterMap Sum.getLeft?
  simp only [List.filterMap_append, contents_left] at h
  classical
  rw [List.perm_iff_count] at h ⊢
  intro a
  have := h a
  simp only [List.count_append] at this ⊢
  cases op with
  | insert k v | remove k | removeEntry k | modify k f | entry k f v | entryKey k | get k | contains k =>
    simp only [MapOp.taken, MapOp.given, MapOp.step, MapOp.asked, MapOp.drops, MapOp.lent] at this ⊢
    cases hl : lookup eq s k <;>
      simp [hl, MapOut.owned, left_inr, List.count_cons] at this ⊢ <;> omega
  | len | isEmpty => simp [MapOp.step, MapOp.asked, MapOp.drops, MapOp.lent, MapOut.owned]
  | clear => simp [MapOp.step, MapOp.asked, MapOp.drops, MapOp.lent, MapOut.owned, contents_left]

/-! ## Strings -/

variable {E : HEnv Vec V Unit} {w : World UInt8} {m m' : Mem UInt8} {vs us : List Vec} {R : RawAlloc UInt8}

theorem Holds.slice {fits : Nat → Nat → Region → Nat → Prop} {v : Vec} (h : Holds fits m v) :
    v.asSlice m = .ok (contents m v) := by
  obtain ⟨cap, hv⟩ := h.inv
  exact hv.slice

theorem Str.hash_of {v : Vec} (h : v.asSlice m = .ok (contents m v)) :
    Str.hash v m = .ok (fnv1 (contents m v)) := by
  simp [Str.hash, h]

theorem Str.eq_of {a b : Vec} (ha : a.asSlice m = .ok (contents m a))
    (hb : b.asSlice m = .ok (contents m b)) : Str.eq a b m = .ok (contents m a == contents m b) := by
  simp [Str.eq, ha, hb]

/-- `From<&str>`. -/
theorem Pile.fromStr (R : RawAlloc UInt8) (h : Pile nullFits w m vs) (s : List UInt8) :
    ∃ k m', Str.fromStr (nullTermAllocator (defaultAllocator R)) s m = .ok (k, m') ∧
      Pile nullFits w m' (k :: vs) ∧ contents m' k = s ∧ ∀ u ∈ vs, contents m' u = contents m u := by
  have hA := nullTerm_lawful R
  have h0 := h.new
  obtain ⟨cap, hv⟩ := h0.inv
  have hc : contents m Vec.new = [] := rfl
  rw [hc] at hv
  obtain ⟨v1, m1, he1, hi1, _⟩ := hv.reserve_any hA (s.length + 1)
  obtain ⟨v2, m2, he2, hi2, _⟩ := hi1.append hA s
  obtain ⟨m3, hn, h3, ht⟩ := SInv.nullTerminate hi2
  obtain ⟨f1, f2, f3⟩ := h0.update h3
  exact ⟨v2, m3, by simp [Str.fromStr, Str.assign, Str.reserve, he1, he2, hn], f1, by simpa using f2, f3⟩

theorem strEnv_eq_iff (a b : Vec) : (strEnv E m).eq a b = true ↔
    ∃ x, a.asSlice m = .ok x ∧ b.asSlice m = .ok x := by
  simp only [strEnv, Str.eq]
  cases ha : a.asSlice m with
  | error e => simp
  | ok x =>
    cases hb : b.asSlice m with
    | error e => simp
    | ok y =>
      simp only [Exec.ok_bind, beq_iff_eq, Except.ok.injEq]
      exact ⟨fun h => ⟨x, rfl, h.symm⟩, fun ⟨z, h1, h2⟩ => h1.trans h2.symm⟩

theorem strEnv_equiv (E : HEnv Vec V Unit) (m : Mem UInt8) : PartialEquiv (strEnv E m).eq where
  symm a b h := by
    rw [strEnv_eq_iff] at h ⊢
    obtain ⟨x, h1, h2⟩ := h
    exact ⟨x, h2, h1⟩
  trans a b c h1 h2 := by
    rw [strEnv_eq_iff] at h1 h2 ⊢
    obtain ⟨x, h1, h3⟩ := h1
    obtain ⟨y, h2, h4⟩ := h2
    rw [h3] at h2
    cases h2
    exact ⟨x, h1, h4⟩

theorem strEnv_hash (E : HEnv Vec V Unit) (m : Mem UInt8) (a b : Vec) (h : (strEnv E m).eq a b = true) :
    (strEnv E m).hash a = (strEnv E m).hash b := by
  rw [strEnv_eq_iff] at h
  obtain ⟨x, h1, h2⟩ := h
  simp [strEnv, Str.hash, h1, h2]

theorem strEnv_eq_of {a b : Vec} (ha : a.asSlice m = .ok (contents m a))
    (hb : b.asSlice m = .ok (contents m b)) :
    (strEnv E m).eq a b = (contents m a == contents m b) := by
  simp [strEnv, Str.eq_of ha hb]

theorem strEnv_hash_of {a : Vec} (ha : a.asSlice m = .ok (contents m a)) :
    (strEnv E m).hash a = (fnv1 (contents m a)).toNat := by
  simp [strEnv, Str.hash_of ha]

/-- A table does not notice changes of a memory in which its keys stay the same. -/
theorem HRep.otherStrings {m0 mo : HMem Vec V} {t : HTable Unit} {peak : Nat} {bl : List Nat}
    {cs : List (List (Nat × Vec × V))}
    (h : HRep True (strEnv E m) (DefInv m0.n E.size E.align) m0.b.live m0.n.node mo t peak bl cs)
    (h1 : ∀ k ∈ (ents cs).map Prod.fst, k.asSlice m = .ok (contents m k))
    (h2 : ∀ k ∈ (ents cs).map Prod.fst, k.asSlice m' = .ok (contents m' k))
    (h3 : ∀ k ∈ (ents cs).map Prod.fst, contents m' k = contents m k) :
    HRep True (strEnv E m') (DefInv m0.n E.size E.align) m0.b.live m0.n.node mo t peak bl cs := by
  have c := h.core
  have hin : ∀ l ∈ cs, ∀ n ∈ l, n.2.1 ∈ (ents cs).map Prod.fst := fun l hl n hn =>
    List.mem_map.2 ⟨n.2, List.mem_map.2 ⟨n, List.mem_flatten.2 ⟨l, hl, hn⟩, rfl⟩, rfl⟩
  refine ⟨⟨c.len, c.pos, c.chains, c.nodup, fun _ => ?_, fun _ => ?_, c.fits, c.inv, c.start, c.arr,
    c.blNodup, c.blNew, c.out, c.stat, c.empty, c.keep⟩, h.count, h.policy, h.peak, h.arrs⟩
  · intro i l hl n hn
    have hk := hin l (List.mem_of_getElem? hl) n hn
    have := c.homes trivial i l hl n hn
    rw [strEnv_hash_of (h1 _ hk)] at this
    rw [strEnv_hash_of (h2 _ hk), h3 _ hk]
    exact this
  · have := c.dist trivial
    refine List.Pairwise.imp_of_mem ?_ this
    intro p q hp hq hpq
    have hp := List.mem_map_of_mem (f := Prod.fst) hp
    have hq := List.mem_map_of_mem (f := Prod.fst) hq
    rw [strEnv_eq_of (h1 _ hp) (h1 _ hq)] at hpq
    rw [strEnv_eq_of (h2 _ hp) (h2 _ hq), h3 _ hp, h3 _ hq]
    exact hpq

theorem askAll_ok : ∀ {l : List (KeyCall Vec)},
    (∀ c ∈ l, match c with
      | .hashed k => k.asSlice m = .ok (contents m k)
      | .compared a b => a.asSlice m = .ok (contents m a) ∧ b.asSlice m = .ok (contents m b)) →
    askAll l m = .ok ()
  | [], _ => rfl
  | .hashed k :: l, h => by
    have h1 := h (.hashed k) (by simp)
    have h2 := askAll_ok (l := l) fun c hc => h c (by simp [hc])
    simp [askAll, Str.hash_of h1, h2]
  | .compared a b :: l, h => by
    have h1 := h (.compared a b) (by simp)
    have h2 := askAll_ok (l := l) fun c hc => h c (by simp [hc])
    simp [askAll, Str.eq_of h1.1 h1.2, h2]

theorem lookAt_ok (o : MapOut Vec V) (h : ∀ k, o = .key k ∨ (∃ v, o = .pair (some (k, v))) →
    k.asSlice m = .ok (contents m k)) : lookAt o m = .ok (o.mapKey (contents m)) := by
  cases o with
  | key k => simp [lookAt, h k (.inl rfl), MapOut.mapKey]
  | pair p =>
    cases p with
    | none => rfl
    | some p => simp [lookAt, h p.1 (.inr ⟨p.2, rfl⟩), MapOut.mapKey]
  | _ => rfl

theorem searched_sub (eq : K → K → Bool) (k : K) : ∀ l : List K, ∀ x ∈ searched eq k l, x ∈ l
  | [], _, h => h
  | y :: l, x, h => by
    simp only [searched] at h
    split_ifs at h
    · simp at h; simp [h]
    · rcases List.mem_cons.1 h with rfl | h
      · simp
      · simp [searched_sub eq k l x h]

theorem keyCalls_sub (hash : K → Nat) (eq : K → K → Bool) (op : MapOp K V) (ks : List K) (n : Nat)
    (g : Bool) : ∀ c ∈ op.keyCalls hash eq ks n g, match c with
      | .hashed k => k ∈ op.asked.toList ++ ks
      | .compared a b => a ∈ op.asked.toList ++ ks ∧ b ∈ op.asked.toList ++ ks := by
  intro c hc
  unfold MapOp.keyCalls at hc
  cases ha : op.asked with
  | none => simp [ha] at hc
  | some k =>
    simp only [ha, List.cons_append, List.mem_cons, List.mem_append, List.mem_map] at hc
    rcases hc with rfl | ⟨x, hx, rfl⟩ | hc
    · simp
    · have := searched_sub eq k _ x hx
      simp only [List.mem_filter] at this
      simp [this.1]
    · cases g
      · simp at hc
      · simp only [if_true, List.mem_append, List.mem_map, List.mem_singleton] at hc
        rcases hc with ⟨x, hx, rfl⟩ | rfl
        · simp [hx]
        · simp

/-- The key in a result is one the map had, or the one asked for. -/
theorem out_key {eq : K → K → Bool} (op : MapOp K V) (s : List (K × V)) (k : K)
    (h : (op.step eq s).1 = .key k ∨ ∃ v, (op.step eq s).1 = .pair (some (k, v))) :
    k ∈ op.asked.toList ++ s.map Prod.fst := by
  cases op with
  | insert k' v | modify k' f | entry k' f v =>
    simp only [MapOp.step] at h
    cases hl : lookup eq s k' <;> simp [hl] at h
  | removeEntry k' =>
    simp only [MapOp.step, reduceCtorEq, MapOut.pair.injEq, false_or] at h
    obtain ⟨v, h⟩ := h
    exact List.mem_append_right _ (List.mem_map.2 ⟨_, (lookup_mem h).1, rfl⟩)
  | entryKey k' =>
    simp only [MapOp.step] at h
    cases hl : lookup eq s k' with
    | none => simp [hl] at h; simp [MapOp.asked, h]
    | some p =>
      simp [hl] at h
      exact List.mem_append_right _ (List.mem_map.2 ⟨_, (lookup_mem hl).1, h⟩)
  | _ => simp [MapOp.step] at h

theorem mapKey_asked (k : L) (op : MapOp K V) : (op.mapKey fun _ => k).asked = op.asked.map fun _ => k := by
  cases op <;> rfl

theorem mapKey_back (f : L → K) (k : L) (op : MapOp K V) (h : ∀ x, op.asked = some x → f k = x) :
    (op.mapKey fun _ => k).mapKey f = op := by
  cases op <;> simp_all [MapOp.mapKey, MapOp.asked]

theorem left_needs {E : HEnv K V Unit} (hK : E.ndK = true) (l : List (K ⊕ V)) :
    (l.filter E.needs).filterMap Sum.getLeft? = l.filterMap Sum.getLeft? := by
  induction l with
  | nil => rfl
  | cons x l ih =>
    cases x with
    | inl k => rw [List.filter_cons_of_pos (by exact hK), left_inl, left_inl, ih]
    | inr v =>
      by_cases hv : E.ndV = true
      · rw [List.filter_cons_of_pos (by exact hv), left_inr, left_inr, ih]
      · rw [List.filter_cons_of_neg (by exact hv), left_inr, ih]

/-- The map is a finite map of byte strings; `w` are the blocks of other strings. -/
def StrMapInv (E : HEnv Vec V Unit) (w : World UInt8) (m0 : HMem Vec V) (t : HTable Unit)
    (mo : HMem Vec V) (m : Mem UInt8) (s : List (List UInt8 × V)) : Prop :=
  ∃ peak bl cs, HRep True (strEnv E m) (DefInv m0.n E.size E.align) m0.b.live m0.n.node mo t peak bl cs ∧
    Pile nullFits w m ((ents cs).map Prod.fst) ∧
    ((ents cs).map fun p => (contents m p.1, p.2)).Perm s

theorem beq_equiv : PartialEquiv (fun a b : List UInt8 => a == b) :=
  ⟨fun a b h => by simp_all, fun a b c h1 h2 => by simp_all⟩

theorem StrMapInv.distinct {m0 mo : HMem Vec V} {t : HTable Unit} {s : List (List UInt8 × V)}
    (h : StrMapInv E w m0 t mo m s) : Distinct (fun a b => a == b) s := by
  obtain ⟨peak, bl, cs, h1, h2, h3⟩ := h
  refine Distinct.perm beq_equiv h3 ?_
  have := h1.core.dist trivial
  unfold Distinct at this ⊢
  rw [List.pairwise_map]
  refine List.Pairwise.imp_of_mem ?_ this
  intro p q hp hq hpq
  rwa [strEnv_eq_of (h2.holds _ (List.mem_map_of_mem hp)).slice
    (h2.holds _ (List.mem_map_of_mem hq)).slice] at hpq

/-- One call. -/
theorem StrMapInv.step (R : RawAlloc UInt8) {m0 mo : HMem Vec V} {t : HTable Unit}
    {s : List (List UInt8 × V)} (L : HLaw E (DefInv m0.n E.size E.align))
    (h : StrMapInv E w m0 t mo m s) (op : MapOp (List UInt8) V)
    (hmax : (op.step (fun a b => a == b) s).2.length ≤ maxEntries) :
    ∃ t' mo' m', StrMap.step E (nullTermAllocator (defaultAllocator R)) op t mo m =
        .ok ((op.step (fun a b => a == b) s).1, t', mo', m') ∧
      StrMapInv E w m0 t' mo' m' (op.step (fun a b => a == b) s).2 := by
  have hdist := h.distinct
  obtain ⟨peak, bl, cs, h1, h2, h3⟩ := h
  -- the key
  obtain ⟨k, m1, e1, hp1, hc1, hback⟩ : ∃ k m1,
      StrMap.makeKey (nullTermAllocator (defaultAllocator R)) op.asked m = .ok (k, m1) ∧
      Pile nullFits w m1 ((op.mapKey fun _ => k).asked.toList ++ (ents cs).map Prod.fst) ∧
      (∀ u ∈ (ents cs).map Prod.fst, contents m1 u = contents m u) ∧
      (op.mapKey fun _ => k).mapKey (contents m1) = op := by
    cases ha : op.asked with
    | none =>
      refine ⟨Vec.new, m, rfl, ?_, fun _ _ => rfl, mapKey_back _ _ _ (by simp [ha])⟩
      rw [mapKey_asked, ha]
      simpa using h2
    | some x =>
      obtain ⟨k, m1, a1, a2, a3, a4⟩ := h2.fromStr R x
      refine ⟨k, m1, a1, ?_, a4, mapKey_back _ _ _ fun y hy => ?_⟩
      · rw [mapKey_asked, ha]
        simpa using a2
      · rw [ha] at hy
        cases hy
        exact a3
  generalize hop : (op.mapKey fun _ => k) = op' at hp1 hback
  have hs1 : ∀ u ∈ op'.asked.toList ++ (ents cs).map Prod.fst, u.asSlice m1 = .ok (contents m1 u) :=
    fun u hu => (hp1.holds u hu).slice
  have r1 := h1.otherStrings (m' := m1) (fun u hu => (h2.holds u hu).slice)
    (fun u hu => hs1 u (by simp only [List.mem_append]; exact .inr hu)) hc1
  have hd1 := r1.core.distinct
  have hmap : ((ents cs).map fun p => (contents m1 p.1, p.2)) = (ents cs).map fun p => (contents m p.1, p.2) :=
    List.map_congr_left fun p hp => by rw [hc1 p.1 (List.mem_map_of_mem hp)]
  have hstep := step_mapKeys (eq := (strEnv E m1).eq) (eq' := fun a b => a == b) (contents m1) op' (ents cs)
    (fun x hx p hp => strEnv_eq_of (hs1 _ (by simp only [List.mem_append]; exact .inr (List.mem_map_of_mem hp)))
      (hs1 _ (by simp [hx])))
  rw [hback, hmap] at hstep
  obtain ⟨p1, p2⟩ := step_perm beq_equiv h3 (hdist.perm beq_equiv h3.symm) op
  rw [hstep] at p1 p2
  -- the call
  obtain ⟨t', mo', bl', cs', g1, g2⟩ := r1.cleared.step (E := strEnv E m1) L (strEnv_equiv E m1)
    (strEnv_hash E m1) op' (by
      have := p2.length_eq
      simp only [List.length_map] at this
      omega)
  obtain ⟨calls, g3⟩ := stepO_like (recordKeys_like (strEnv E m1)) op' ([] : List (KeyCall Vec)) t
    ({ mo with n := { mo.n with dropped := [] } } : HMem Vec V)
  rw [g1] at g3
  have g4 := r1.cleared.stepO_rec (E := strEnv E m1) g3
  have hask : askAll calls m1 = .ok () := by
    refine askAll_ok fun c hc => ?_
    rw [g4, List.nil_append] at hc
    have := keyCalls_sub _ _ _ _ _ _ c hc
    cases c with
    | hashed x => exact hs1 _ this
    | compared a b => exact ⟨hs1 _ this.1, hs1 _ this.2⟩
  have hlook := lookAt_ok (m := m1) (op'.step (strEnv E m1).eq (ents cs)).1 fun x hx =>
    hs1 _ (out_key op' (ents cs) x hx)
  -- the strings that die
  have hkeys := keys_perm (strEnv_equiv E m1) op' hd1
  have hdr := g2.drops.filterMap Sum.getLeft?
  simp only [List.nil_append, left_needs (E := strEnv E m1) rfl] at hdr
  have hp2 := hp1.perm (hkeys.trans (((hdr.symm.append_right _).append_right _).append
    (g2.perm.symm.map Prod.fst)))
  obtain ⟨m2, d1, d2, d3, _⟩ := hp2.dropAll (nullTerm_lawful R) false _
  refine ⟨t', mo', m2, ?_, _, bl', cs', HRep.otherStrings g2.rep ?_ (fun u hu => (d2.holds u hu).slice) d3, d2, ?_⟩
  · have g3' : t.stepO (strEnv E m1) (loggedKeys (strEnv E m1)) op' []
      { mo with n := { mo.n with dropped := [] } } =
        .ok (some (op'.step (strEnv E m1).eq (ents cs)).1, calls, t', mo') := g3
    simp only [StrMap.step, e1, Exec.ok_bind, hop, g3', hask, hlook, d1]
    rw [← p1]
  · intro u hu
    exact (hp2.holds u (List.mem_append_right _ hu)).slice
  · refine .trans ?_ p2
    refine .trans ?_ (g2.perm.map _)
    refine List.Perm.of_eq (List.map_congr_left fun p hp => ?_)
    rw [d3 p.1 (List.mem_map_of_mem hp)]

/-- A history of calls. -/
theorem StrMapInv.run (R : RawAlloc UInt8) {m0 : HMem Vec V} (L : HLaw E (DefInv m0.n E.size E.align)) :
    ∀ (ops : List (MapOp (List UInt8) V)) {mo : HMem Vec V} {t : HTable Unit} {m : Mem UInt8}
    {s : List (List UInt8 × V)}, StrMapInv E w m0 t mo m s →
    MapOp.peak (fun a b => a == b) ops s ≤ maxEntries →
    ∃ t' mo' m', StrMap.run E (nullTermAllocator (defaultAllocator R)) ops t mo m =
        .ok ((MapOp.run (fun a b => a == b) ops s).1, t', mo', m') ∧
      StrMapInv E w m0 t' mo' m' (MapOp.run (fun a b => a == b) ops s).2
  | [], mo, t, m, s, h, _ => ⟨t, mo, m, rfl, h⟩
  | op :: ops, mo, t, m, s, h, hmax => by
    have hle := le_peak (fun a b : List UInt8 => a == b) ops (op.step (fun a b => a == b) s).2
    simp only [MapOp.peak] at hmax
    obtain ⟨t1, mo1, m1, e1, h1⟩ := h.step R L op (by omega)
    obtain ⟨t2, mo2, m2, e2, h2⟩ := StrMapInv.run R L ops h1 (by omega)
    exact ⟨t2, mo2, m2, by simp [StrMap.run, e1, e2, MapOp.run], h2⟩

/-- The end of the map. -/
theorem StrMapInv.drop (R : RawAlloc UInt8) {m0 mo : HMem Vec V} {t : HTable Unit}
    {s : List (List UInt8 × V)} (L : HLaw E (DefInv m0.n E.size E.align))
    (h : StrMapInv E w m0 t mo m s) :
    ∃ mo' m', StrMap.drop E (nullTermAllocator (defaultAllocator R)) t mo m = .ok (mo', m') ∧
      HashGone m0 mo' ∧ m'.live = w := by
  obtain ⟨peak, bl, cs, h1, h2, h3⟩ := h
  obtain ⟨a, mo', e1, e2, e3⟩ := h1.cleared.freeBuckets (E := strEnv E m) L
  have hinv := e2.inv
  have hnil : addrs (List.replicate t.bucketCount ([] : List (Nat × Vec × V))) = [] := by
    simp [addrs]
  rw [hnil] at hinv
  have hdr := e3.filterMap Sum.getLeft?
  simp only [List.nil_append, left_needs (E := strEnv E m) rfl, contents_left] at hdr
  have hp : Pile nullFits w m (mo'.n.dropped.filterMap Sum.getLeft? ++ []) :=
    h2.perm (by rw [List.append_nil]; exact hdr.symm)
  obtain ⟨m2, d1, d2, _, _⟩ := hp.dropAll (nullTerm_lawful R) false _
  refine ⟨mo', m2, ?_, ⟨hinv.done, ?_, bl, fun b hb => (e2.blNew b hb).1, e2.out⟩, d2.live⟩
  · simp only [StrMap.drop, HTable.drop, e1, Exec.ok_bind, d1]
  · funext q
    by_cases hq : m0.n.node q = none
    · rw [hq]; exact (hinv.node q (by simp)).2 hq
    · exact (e2.keep q hq).2

end Verif
