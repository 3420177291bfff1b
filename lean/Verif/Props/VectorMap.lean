import Verif.VectorMap.Restrict
import Verif.VectorMap.Proofs
import Verif.FixedVector.Proofs

/-!
# Properties C22-C26 of `VectorMap`

`lt` is the comparator, `eq` is `==` on keys, `R` the global allocator, `m0` the memory before,
`nd` whether pairs have a destructor.
-/

set_option autoImplicit false

namespace Verif
open Spec

variable {K V : Type}

/-! ## C22, C23 -/

/-- C22.  For every strict weak order whose ties are exactly `==`, every history of calls on an
empty `VectorMap` succeeds and returns what it returns on the finite map; afterwards the
contents are those of the finite map. -/
theorem C22_vector_map_refines_map (R : RawAlloc (K × V)) (lt eq : K → K → Bool)
    (hw : StrictWeak lt) (hc : Consistent lt eq) (nd : Bool) (m0 : Mem (K × V))
    (ops : List (MapOp K V)) :
    ∃ v m xs, VMap.run (defaultAllocator R) lt eq nd ops Vec.new m0 =
        .ok ((MapOp.run eq ops []).1, v, m) ∧
      v.asSlice m = .ok xs ∧ xs.Perm (MapOp.run eq ops []).2 := by
  obtain ⟨v, m, ys, he, ⟨cap, hi⟩, _, hp, _⟩ :=
    MInv.run (R := R) hw hc nd ops ⟨0, VInv.new defaultFits m0⟩ List.Pairwise.nil
      List.Pairwise.nil
  exact ⟨v, m, ys, he, hi.slice, hp⟩

/-- C22 and C23 for a comparator and `==` that are only good on some keys: if all keys stored are
among those, and no key outside is equal to one of them, the history returns what it returns on the
finite map, and the keys are strictly increasing.  Lookups and removals may name any key. -/
theorem C22_vector_map_on_good_keys (R : RawAlloc (K × V)) (lt eq : K → K → Bool) (P : K → Prop)
    (hw : StrictWeakOn P lt) (hc : ConsistentOn P lt eq)
    (hno : ∀ a b, P a → ¬ P b → eq a b = false) (nd : Bool) (m0 : Mem (K × V))
    (ops : List (MapOp K V)) (hops : ∀ op ∈ ops, ∀ k, op.stores = some k → P k) :
    ∃ v m xs, VMap.run (defaultAllocator R) lt eq nd ops Vec.new m0 =
        .ok ((MapOp.run eq ops []).1, v, m) ∧
      v.asSlice m = .ok xs ∧ xs.Perm (MapOp.run eq ops []).2 ∧ Increasing lt xs := by
  have hc' := extEq_consistent hc
  obtain ⟨v, m, ys, he, ⟨cap, hi⟩, hs, hp, hd⟩ :=
    MInv.run (R := R) (extLt_strictWeak hw) hc' nd ops ⟨0, VInv.new defaultFits m0⟩
      List.Pairwise.nil List.Pairwise.nil
  obtain ⟨h1, h2⟩ := run_ext (xs := ([] : List (K × V))) hno ops hops (by simp)
  have h3 := MInv.run_on (R := R) hw hc hno nd ops hops ⟨0, VInv.new defaultFits m0⟩
    List.Pairwise.nil List.Pairwise.nil (by simp)
  refine ⟨v, m, ys, by rw [h3, he, h1], hi.slice, by rw [h1]; exact hp, ?_⟩
  rw [← h1] at hp
  refine (hs.increasing hc' hd).imp_of_mem fun {p q} hpm hqm h => ?_
  simpa [extLt, h2 p (hp.subset hpm), h2 q (hp.subset hqm)] using h

/-- An order that is one only on keys below 100; the other keys are equal to nothing. -/
example : StrictWeakOn (· < 100) (fun a b : Nat => decide (a < b ∧ b < 100)) ∧
    ConsistentOn (· < 100) (fun a b : Nat => decide (a < b ∧ b < 100))
      (fun a b => decide (a = b ∧ a < 100)) ∧
    (∀ a b : Nat, a < 100 → ¬ b < 100 → decide (a = b ∧ a < 100) = false) ∧ (do
      let (o, v, m) ← VMap.run (defaultAllocator RawAlloc.bump)
        (fun a b : Nat => decide (a < b ∧ b < 100)) (fun a b => decide (a = b ∧ a < 100)) true
        [.insert 5 50, .insert 2 20, .get 200, .insert 5 51, .remove 100, .get 5]
        Vec.new Mem.empty
      let s ← v.asSlice m
      .ok (o, s)) = (.ok ([.val none, .val none, .val none, .val (some 50), .val none,
        .val (some 51)], [(2, 20), (5, 51)]) : Exec _) := by
  refine ⟨⟨by simp, by simp; omega, by simp; omega⟩, ?_, by simp; omega, rfl⟩
  intro a b ha hb
  simp
  omega

/-- C23.  At every point the slice a map derefs to, and hence its iteration, has strictly
increasing keys. -/
theorem C23_vector_map_sorted (R : RawAlloc (K × V)) (lt eq : K → K → Bool)
    (hw : StrictWeak lt) (hc : Consistent lt eq) (nd : Bool) (m0 : Mem (K × V))
    (ops : List (MapOp K V)) {outs : List (MapOut K V)} {v : Vec} {m : Mem (K × V)}
    (hrun : VMap.run (defaultAllocator R) lt eq nd ops Vec.new m0 = .ok (outs, v, m)) :
    ∃ xs, v.asSlice m = .ok xs ∧ Increasing lt xs := by
  obtain ⟨v', m', ys, he, ⟨cap, hi⟩, hs, _, hd⟩ :=
    MInv.run (R := R) hw hc nd ops ⟨0, VInv.new defaultFits m0⟩ List.Pairwise.nil
      List.Pairwise.nil
  rw [hrun] at he
  cases he
  exact ⟨ys, hi.slice, hs.increasing hc hd⟩

/-- The usual order on numbers meets the hypotheses. -/
theorem nat_lt_ok : StrictWeak (fun a b : Nat => decide (a < b)) ∧
    Consistent (fun a b : Nat => decide (a < b)) (fun a b => a == b) := by
  refine ⟨⟨by simp, by simp; omega, by simp; omega⟩, ?_⟩
  intro a b
  simp
  omega

/-- A history with every kind of call. -/
example : (do
    let (o, v, m) ← VMap.run (defaultAllocator RawAlloc.bump) (fun a b : Nat => decide (a < b))
      (fun a b => a == b) true
      [.insert 5 50, .insert 2 20, .insert 9 90, .insert 5 51, .get 2, .modify 9 (· + 1),
       .entry 3 (· + 1) 30, .entry 3 (· + 1) 77, .entryKey 4, .removeEntry 2, .remove 8, .len,
       .contains 5]
      Vec.new Mem.empty
    let s ← v.asSlice m
    .ok (o, s)) = (.ok ([.val none, .val none, .val none, .val (some 50), .val (some 20),
      .val (some 90), .val (some 30), .val (some 31), .key 4, .pair (some (2, 20)), .val none,
      .nat 3, .bool true], [(3, 31), (5, 51), (9, 91)]) : Exec _) := rfl

/-! ## C24 -/

/-- C24.  On a slice whose smaller elements (those for which the closure says Less) come first,
the search ends, reads only inside the slice, and returns how many smaller elements there
are. -/
theorem C24_lower_bound {α : Type} (xs : List α) (less : α → Bool)
    (hpart : ∀ (i j : Nat) (x y : α), i ≤ j → xs[i]? = some x → xs[j]? = some y →
      less y = true → less x = true) :
    lowerBoundBy xs less = .ok (xs.filter less).length := by
  obtain ⟨r, he, hle, hlo, hhi⟩ := lowerBoundBy_ok hpart
  rw [he, filter_length_of_split hle hlo hhi]

/-- In particular on a slice sorted by a strict weak order, for every key. -/
theorem C24_lower_bound_sorted (lt : K → K → Bool) (hw : StrictWeak lt) (xs : List (K × V))
    (hs : xs.Pairwise fun p q => lt q.1 p.1 = false) (k : K) :
    lowerBoundBy xs (fun p => lt p.1 k) = .ok (xs.filter fun p => lt p.1 k).length :=
  C24_lower_bound xs _ (WSorted.partitioned hw hs k)

example : lowerBoundBy [1, 3, 3, 5, 8, 9, 12] (fun x => decide (x < 6)) = .ok 4 := rfl

/-! ## C25 -/

/-- The value bound last to `k` in a sequence of pairs. -/
def Spec.lastBinding (eq : K → K → Bool) (ps : List (K × V)) (k : K) : Option V :=
  (ps.reverse.find? fun p => eq p.1 k).map Prod.snd

theorem insertAll_ok (R : RawAlloc (K × V)) {lt eq : K → K → Bool} (hw : StrictWeak lt)
    (hc : Consistent lt eq) {w : World (K × V)} (ps : List (K × V)) :
    ∀ {m : Mem (K × V)} {v : Vec} {xs : List (K × V)}, MInv w m v xs → WSorted lt xs →
    Distinct eq xs →
    ∃ v' m' ys, VMap.insertAll (defaultAllocator R) lt eq ps v m = .ok (v', m') ∧
      MInv w m' v' ys ∧ WSorted lt ys ∧ Distinct eq ys ∧
      ∀ k, (lookup eq ys k).map Prod.snd =
        (lastBinding eq ps k).or ((lookup eq xs k).map Prod.snd) := by
  have he := hc.equiv hw
  induction ps with
  | nil =>
    intro m v xs h hs hd
    exact ⟨v, m, xs, rfl, h, hs, hd, fun k => by simp [lastBinding]⟩
  | cons p ps ih =>
    intro m v xs h hs hd
    obtain ⟨v1, m1, ys, he1, hi1, hs1, hp1⟩ := h.step (R := R) hw hc false (.insert p.1 p.2) hs hd
    have hd1 : Distinct eq ys := (hd.step he (.insert p.1 p.2)).perm he hp1.symm
    obtain ⟨v2, m2, zs, he2, hi2, hs2, hd2, hl2⟩ := ih hi1 hs1 hd1
    have hins : ∃ r, VMap.insert (defaultAllocator R) lt eq p.1 p.2 v m = .ok (r, v1, m1) := by
      simp only [VMap.step] at he1
      cases hx : VMap.insert (defaultAllocator R) lt eq p.1 p.2 v m with
      | error e => rw [hx] at he1; cases he1
      | ok r =>
        rw [hx] at he1
        simp only [Exec.ok_bind, Except.ok.injEq, Prod.mk.injEq] at he1
        exact ⟨r.1, by rw [← he1.2.1, ← he1.2.2]⟩
    obtain ⟨r, hins⟩ := hins
    refine ⟨v2, m2, zs, by simp [VMap.insertAll, hins, he2], hi2, hs2, hd2, ?_⟩
    intro k
    rw [hl2 k, lookup_perm he hp1 hd1 k, lookup_insert he hd p.1 p.2 k]
    simp only [lastBinding, List.reverse_cons, List.find?_append]
    cases ps.reverse.find? (fun p => eq p.1 k) with
    | some q => rfl
    | none =>
      cases hk : eq p.1 k <;> simp [hk]

/-- C25.  Building a map from a slice, an array or an iterator: it succeeds, its keys are
strictly increasing (so each appears once), a pair is present only if its key was given, and
`get` returns the value bound last. -/
theorem C25_bulk_construction (R : RawAlloc (K × V)) (lt eq : K → K → Bool) (hw : StrictWeak lt)
    (hc : Consistent lt eq) (m0 : Mem (K × V)) (ps : List (K × V))
    (build : Mem (K × V) → Exec (Vec × Mem (K × V)))
    (hb : build = VMap.fromPairs (defaultAllocator R) lt eq ps ∨
      build = VMap.fromIter (defaultAllocator R) lt eq ps) :
    ∃ v m xs, build m0 = .ok (v, m) ∧ v.asSlice m = .ok xs ∧ Increasing lt xs ∧
      (∀ p ∈ xs, ∃ q ∈ ps, eq q.1 p.1 = true) ∧
      ∀ k, VMap.get lt eq k v m = .ok (lastBinding eq ps k) := by
  have he := hc.equiv hw
  have hstart : ∃ v1 m1, MInv m0.live m1 v1 ([] : List (K × V)) ∧
      build m0 = VMap.insertAll (defaultAllocator R) lt eq ps v1 m1 := by
    rcases hb with rfl | rfl
    · obtain ⟨v1, m1, h1, hi1, _⟩ :=
        (VInv.new defaultFits m0).reserve_any (defaultAllocator_lawful R) ps.length
      refine ⟨v1, m1, ⟨_, hi1⟩, ?_⟩
      have : Vec.withCapacity (defaultAllocator R) ps.length m0 = .ok (v1, m1) := h1
      simp [VMap.fromPairs, this]
    · exact ⟨Vec.new, m0, ⟨0, VInv.new defaultFits m0⟩, rfl⟩
  obtain ⟨v1, m1, hi1, hb1⟩ := hstart
  obtain ⟨v, m, xs, he2, hi, hs, hd, hl⟩ := insertAll_ok R hw hc ps hi1 List.Pairwise.nil
    List.Pairwise.nil
  have hget : ∀ k, VMap.get lt eq k v m = .ok (lastBinding eq ps k) := by
    intro k
    obtain ⟨v', m', ys, hst, _⟩ := hi.step (R := R) hw hc false (.get k) hs hd
    simp only [VMap.step, MapOp.step] at hst
    cases hx : VMap.get lt eq k v m with
    | error e => rw [hx] at hst; cases hst
    | ok r =>
      rw [hx] at hst
      simp only [Exec.ok_bind, Except.ok.injEq, Prod.mk.injEq, MapOut.val.injEq] at hst
      rw [hst.1, hl k]
      simp [lookup]
  have hi' := hi
  obtain ⟨cap, hi⟩ := hi
  refine ⟨v, m, xs, by rw [hb1, he2], hi.slice, hs.increasing hc hd, ?_, hget⟩
  intro p hp
  have h1 := hl p.1
  rw [(lookup_some he hd).2 ⟨hp, he.refl _⟩] at h1
  simp only [lookup, List.find?_nil, Option.map_none, Option.or_none, Option.map_some] at h1
  unfold lastBinding at h1
  cases hf : ps.reverse.find? (fun q => eq q.1 p.1) with
  | none => rw [hf] at h1; cases h1
  | some q =>
    refine ⟨q, by simpa using List.mem_of_find?_eq_some hf, ?_⟩
    simpa using List.find?_some hf

example : (do
    let (v, m) ← VMap.fromPairs (defaultAllocator RawAlloc.bump) (fun a b : Nat => decide (a < b))
      (fun a b => a == b) [(3, 'a'), (1, 'b'), (3, 'c'), (2, 'd')] Mem.empty
    v.asSlice m) = (.ok [(1, 'b'), (2, 'd'), (3, 'c')] : Exec _) := rfl

/-! ## C26 -/

/-- After an insertion the element at the key's split holds an equal key and the new value. -/
theorem MInv.insert_split {R : RawAlloc (K × V)} {lt eq : K → K → Bool} (hw : StrictWeak lt)
    (hrefl : ∀ k, eq k k = true) {w : World (K × V)} {v1 : Vec}
    {m1 : Mem (K × V)} {ys : List (K × V)} (hi1 : MInv w m1 v1 ys) (hs1 : WSorted lt ys) (k : K)
    (x : V) :
    ∃ r v2 m2 zs i q, VMap.insert (defaultAllocator R) lt eq k x v1 m1 = .ok (r, v2, m2) ∧
      MInv w m2 v2 zs ∧ WSorted lt zs ∧ Split lt zs k i ∧ zs[i]? = some q ∧
      eq q.1 k = true ∧ q.2 = x := by
  obtain ⟨i, hsp, hf⟩ := MInv.find (eq := eq) hw hi1 hs1 k
  have hvac : ∃ v2 m2 zs q, v1.insert (defaultAllocator R) i (k, x) m1 = .ok (v2, m2) ∧
      MInv w m2 v2 zs ∧ WSorted lt zs ∧ Split lt zs k i ∧ zs[i]? = some q ∧
      eq q.1 k = true ∧ q.2 = x := by
    obtain ⟨v2, m2, he, hi⟩ := hi1.insertAt (R := R) hsp.le (k, x)
    have hlen : (ys.take i).length = i := by simp [hsp.le]
    refine ⟨v2, m2, _, (k, x), he, hi, hs1.insertAt hw hsp x, ⟨?_, ?_, ?_⟩, ?_, hrefl k, rfl⟩
    · have := hsp.le
      simp; omega
    · intro j p hj hp
      rw [List.getElem?_append_left (by omega), List.getElem?_take, if_pos hj] at hp
      exact hsp.lo j p hj hp
    · intro j p hj hp
      rw [List.getElem?_append_right (by omega), hlen] at hp
      rcases Nat.eq_or_lt_of_le hj with rfl | hlt
      · simp at hp; subst hp; exact hw.irrefl k
      · have : j - i = (j - i - 1) + 1 := by omega
        rw [this, List.getElem?_cons_succ, List.getElem?_drop] at hp
        exact hsp.hi _ p (by omega) hp
    · rw [List.getElem?_append_right (by omega), hlen]; simp
  cases hr : ys[i]? with
  | none =>
    obtain ⟨v2, m2, zs, q, he, h⟩ := hvac
    exact ⟨none, v2, m2, zs, i, q, by simp [VMap.insert, hf, hr, he], h⟩
  | some p =>
    by_cases hk : eq p.1 k = true
    · have hlt := (List.getElem?_eq_some_iff.1 hr).1
      obtain ⟨m2, he, hi⟩ := hi1.setAt hlt (p.1, x)
      refine ⟨some p.2, v1, m2, _, i, (p.1, x), by simp [VMap.insert, hf, hr, hk, he], hi,
        hs1.setAt hr x, ⟨by simpa using hsp.le, ?_, ?_⟩, by simp [hlt], hk, rfl⟩
      · intro j q hj hq
        rw [List.getElem?_set, if_neg (by omega)] at hq
        exact hsp.lo j q hj hq
      · intro j q hj hq
        rw [List.getElem?_set] at hq
        split at hq
        · subst_vars
          simp at hq
          obtain ⟨_, rfl⟩ := hq
          exact hsp.hi _ p (Nat.le_refl _) hr
        · exact hsp.hi j q hj hq
    · obtain ⟨v2, m2, zs, q, he, h⟩ := hvac
      exact ⟨none, v2, m2, zs, i, q, by simp [VMap.insert, hf, hr, hk, he], h⟩

/-- Appending calls to a history. -/
theorem VMap.run_append {A : Allocator (K × V)} {lt eq : K → K → Bool} {nd : Bool}
    {ops' : List (MapOp K V)} {os' : List (MapOut K V)} {v1 v2 : Vec} {m1 m2 : Mem (K × V)}
    (h' : VMap.run A lt eq nd ops' v1 m1 = .ok (os', v2, m2)) :
    ∀ (l : List (MapOp K V)) (a : Vec) (mm : Mem (K × V)) (os : List (MapOut K V)),
      VMap.run A lt eq nd l a mm = .ok (os, v1, m1) →
      VMap.run A lt eq nd (l ++ ops') a mm = .ok (os ++ os', v2, m2) := by
  intro l
  induction l with
  | nil =>
    intro a mm os h
    cases h
    simpa using h'
  | cons op l ih =>
    intro a mm os h
    simp only [VMap.run] at h
    obtain ⟨⟨o1, a1, mm1⟩, h3, h⟩ := Exec.bind_ok h
    obtain ⟨⟨os2, a2, mm2⟩, h4, h⟩ := Exec.bind_ok h
    simp only [Except.ok.injEq, Prod.mk.injEq] at h
    obtain ⟨rfl, rfl, rfl⟩ := h
    simp [VMap.run, h3, ih a1 mm1 os2 h4]

/-- C26 is false for every strict weak order that ties two different keys `a` and `b`: whatever
happened before, also if `a` was inserted, inserting `b` hides `a`. -/
theorem C26_coarse_comparator_loses_keys (R : RawAlloc (K × V)) (lt eq : K → K → Bool)
    (hw : StrictWeak lt) (he : PartialEquiv eq) (hrefl : ∀ k, eq k k = true) (nd : Bool)
    (m0 : Mem (K × V)) (ops : List (MapOp K V)) {a b : K} (hab : lt a b = false)
    (hba : lt b a = false) (hne : eq a b = false) (y : V) :
    ∃ outs r v m, VMap.run (defaultAllocator R) lt eq nd (ops ++ [.insert b y, .get a]) Vec.new
      m0 = .ok (outs ++ [.val r, .val none], v, m) := by
  obtain ⟨os, v1, m1, ys, h1, hi1, hs1⟩ :=
    MInv.run_weak (R := R) (eq := eq) hw nd ops ⟨0, VInv.new defaultFits m0⟩ List.Pairwise.nil
  obtain ⟨r, v2, m2, zs, i, q, h2, hi2, hs2, hsp2, hq, hqk, _⟩ :=
    hi1.insert_split (R := R) hw hrefl hs1 b y
  obtain ⟨i', hsp', hf'⟩ := MInv.find (eq := eq) hw hi2 hs2 a
  have htie : ∀ c, lt c a = lt c b := by
    intro c
    cases h : lt c a <;> cases h' : lt c b <;> try rfl
    · cases hac : lt a c
      · have := (hw.incomp c a b h hac hab hba).1
        rw [h'] at this
        cases this
      · have := hw.trans a c b hac h'
        rw [hab] at this
        cases this
    · cases hbc : lt b c
      · have := (hw.incomp c b a h' hbc hba hab).1
        rw [h] at this
        cases this
      · have := hw.trans b c a hbc h
        rw [hba] at this
        cases this
  have hii : i' = i := by
    rw [← filter_length_of_split (less := fun p => lt p.1 a) hsp'.le hsp'.lo hsp'.hi,
      ← filter_length_of_split (less := fun p => lt p.1 b) hsp2.le hsp2.lo hsp2.hi]
    simp only [htie]
  subst hii
  have hqa : eq q.1 a = false := by
    cases h : eq q.1 a with
    | false => rfl
    | true =>
      rw [he.trans _ _ _ (he.symm _ _ h) hqk] at hne
      cases hne
  have hget : VMap.get lt eq a v2 m2 = .ok none := by simp [VMap.get, hf', hq, hqa]
  exact ⟨os, r, v2, m2, VMap.run_append
    (by simp [VMap.run, VMap.step, h2, hget]) ops Vec.new m0 os h1⟩

/-- Such an order: comparing only the tens.  After inserting 1 and 2 the key 1 is not found. -/
example :
    StrictWeak (fun a b : Nat => decide (a / 10 < b / 10)) ∧
    PartialEquiv (fun a b : Nat => a == b) ∧
    (do let (o, v, m) ← VMap.run (defaultAllocator RawAlloc.bump)
          (fun a b : Nat => decide (a / 10 < b / 10)) (fun a b => a == b) true
          [.insert 1 'a', .insert 2 'b', .get 1] Vec.new Mem.empty
        let s ← v.asSlice m
        .ok (o, s)) =
      (.ok ([.val none, .val none, .val none], [(2, 'b'), (1, 'a')]) : Exec _) := by
  refine ⟨⟨by simp, ?_, ?_⟩, ⟨?_, ?_⟩, rfl⟩
  · intro a b c; simp only [decide_eq_true_eq]; omega
  · intro a b c; simp only [decide_eq_false_iff_not]; omega
  · intro a b; simp only [beq_iff_eq]; omega
  · intro a b c; simp only [beq_iff_eq]; omega

/-- What remains of C26 for arbitrary strict weak orders and any reflexive `==`: every history
succeeds, the keys never decrease, and a key is found immediately after its insertion.
Missing: a later insertion of another key tied with it can hide it, see above. -/
theorem C26_insert_then_get_partial (R : RawAlloc (K × V)) (lt eq : K → K → Bool)
    (hw : StrictWeak lt) (hrefl : ∀ k, eq k k = true) (nd : Bool) (m0 : Mem (K × V))
    (ops : List (MapOp K V)) (k : K) (x : V) :
    ∃ outs r v m xs, VMap.run (defaultAllocator R) lt eq nd (ops ++ [.insert k x, .get k]) Vec.new
        m0 = .ok (outs ++ [.val r, .val (some x)], v, m) ∧
      v.asSlice m = .ok xs ∧ xs.Pairwise (fun p q => lt q.1 p.1 = false) := by
  obtain ⟨os, v1, m1, ys, h1, hi1, hs1⟩ :=
    MInv.run_weak (R := R) (eq := eq) hw nd ops ⟨0, VInv.new defaultFits m0⟩ List.Pairwise.nil
  obtain ⟨r, v2, m2, zs, i, q, h2, hi2, hs2, hsp2, hq, hqk, hqx⟩ :=
    hi1.insert_split (R := R) hw hrefl hs1 k x
  obtain ⟨i', hsp', hf'⟩ := MInv.find (eq := eq) hw hi2 hs2 k
  have hii : i' = i := by
    rw [← filter_length_of_split (less := fun p => lt p.1 k) hsp'.le hsp'.lo hsp'.hi,
      ← filter_length_of_split (less := fun p => lt p.1 k) hsp2.le hsp2.lo hsp2.hi]
  subst hii
  have hget : VMap.get lt eq k v2 m2 = .ok (some x) := by
    simp [VMap.get, hf', hq, hqk, hqx]
  obtain ⟨cap, hi2⟩ := hi2
  exact ⟨os, r, v2, m2, zs, VMap.run_append
    (by simp [VMap.run, VMap.step, h2, hget]) ops Vec.new m0 os h1, hi2.slice, hs2⟩

/-- Neither key comes before the other. -/
def Tied (lt : K → K → Bool) (a b : K) : Bool := !lt a b && !lt b a

theorem Tied.iff {lt : K → K → Bool} {a b : K} :
    Tied lt a b = true ↔ lt a b = false ∧ lt b a = false := by simp [Tied]

theorem Tied.trans {lt : K → K → Bool} (hw : StrictWeak lt) {a b c : K}
    (h1 : Tied lt a b = true) (h2 : Tied lt b c = true) : Tied lt a c = true := by
  rw [Tied.iff] at *
  exact hw.incomp a b c h1.1 h1.2 h2.1 h2.2

theorem Tied.symm {lt : K → K → Bool} {a b : K} (h : Tied lt a b = true) : Tied lt b a = true := by
  rw [Tied.iff] at *
  exact ⟨h.2, h.1⟩

section
variable {lt : K → K → Bool} {xs : List (K × V)} {k : K} {r : Nat}

/-- The element at the split of `k`, if tied with `k`, is the first such element. -/
theorem Split.head_filter (hw : StrictWeak lt) (hs : WSorted lt xs) (hsp : Split lt xs k r)
    {q : K × V} : (xs[r]? = some q ∧ Tied lt q.1 k = true) ↔
      (xs.filter fun p => Tied lt p.1 k).head? = some q := by
  have h1 : (xs.take r).filter (fun p => Tied lt p.1 k) = [] := by
    rw [List.filter_eq_nil_iff]
    intro p hp
    obtain ⟨i, hi⟩ := List.mem_iff_getElem?.1 hp
    rw [List.getElem?_take] at hi
    split at hi
    · simp [Tied, hsp.lo i p (by assumption) hi]
    · cases hi
  have h2 : xs.filter (fun p => Tied lt p.1 k) =
      (xs.drop r).filter (fun p => Tied lt p.1 k) := by
    conv => lhs; rw [← List.take_append_drop r xs]
    rw [List.filter_append, h1, List.nil_append]
  rw [h2]
  have hs' : WSorted lt (xs.drop r) := List.Pairwise.sublist (List.drop_sublist r xs) hs
  have hx : xs[r]? = (xs.drop r).head? := by simp [List.head?_drop]
  have hhi : ∀ p ∈ xs.drop r, lt p.1 k = false := by
    intro p hp
    obtain ⟨i, hi⟩ := List.mem_iff_getElem?.1 hp
    rw [List.getElem?_drop] at hi
    exact hsp.hi _ p (by omega) hi
  rw [hx]
  cases hd : xs.drop r with
  | nil => simp
  | cons p l =>
    rw [hd] at hs' hhi
    by_cases ht : Tied lt p.1 k = true
    · simp only [List.filter_cons, ht, if_true, List.head?_cons, Option.some.injEq]
      constructor
      · exact fun h => h.1
      · rintro rfl; exact ⟨rfl, ht⟩
    · have hkp : lt k p.1 = true := by
        have := hhi p (by simp)
        cases h : lt k p.1 with
        | true => rfl
        | false => exact absurd (Tied.iff.2 ⟨this, h⟩) ht
      have hnil : (p :: l).filter (fun p => Tied lt p.1 k) = [] := by
        rw [List.filter_eq_nil_iff]
        intro z hz
        rcases List.mem_cons.1 hz with rfl | hz
        · exact ht
        · intro htz
          rw [Tied.iff] at htz
          have hzp := (List.pairwise_cons.1 hs').1 z hz
          cases hpz : lt p.1 z.1 with
          | true =>
            have := hw.trans _ _ _ hkp hpz
            rw [htz.2] at this
            cases this
          | false =>
            have := (hw.incomp k z.1 p.1 htz.2 htz.1 hzp hpz).1
            rw [hkp] at this
            cases this
      rw [hnil]
      simp only [List.head?_cons, Option.some.injEq, List.head?_nil, reduceCtorEq, iff_false,
        not_and]
      rintro rfl
      exact ht

theorem filter_insertAt {f : K × V → Bool} {q : K × V} (hq : f q = false) :
    (xs.take r ++ q :: xs.drop r).filter f = xs.filter f := by
  have h := congrArg (List.filter f) (List.take_append_drop r xs)
  rw [List.filter_append] at h
  rw [List.filter_append, List.filter_cons_of_neg (by simp [hq]), h]

theorem filter_setAt {f : K × V → Bool} {p q : K × V} (hp : xs[r]? = some p) (hfp : f p = false)
    (hfq : f q = false) : (xs.set r q).filter f = xs.filter f := by
  obtain ⟨hr, rfl⟩ := List.getElem?_eq_some_iff.1 hp
  have h := congrArg (List.filter f) (List.take_append_drop r xs)
  rw [List.filter_append, List.drop_eq_getElem_cons hr, List.filter_cons_of_neg (by simp [hfp])] at h
  rw [List.set_eq_take_append_cons_drop, if_pos hr, List.filter_append,
    List.filter_cons_of_neg (by simp [hfq]), h]

theorem filter_eraseAt {f : K × V → Bool} {p : K × V} (hp : xs[r]? = some p)
    (hfp : f p = false) : (xs.eraseIdx r).filter f = xs.filter f := by
  obtain ⟨hr, rfl⟩ := List.getElem?_eq_some_iff.1 hp
  have h := congrArg (List.filter f) (List.take_append_drop r xs)
  rw [List.filter_append, List.drop_eq_getElem_cons hr, List.filter_cons_of_neg (by simp [hfp])] at h
  rw [List.eraseIdx_eq_take_drop_succ, List.filter_append, h]

end

/-- A call with keys not tied with `k` keeps the entries tied with `k`. -/
theorem MInv.step_untied {R : RawAlloc (K × V)} {lt eq : K → K → Bool} (hw : StrictWeak lt)
    (htie : ∀ a b, eq a b = true → Tied lt a b = true) (nd : Bool) {w : World (K × V)} {v : Vec}
    {m : Mem (K × V)} {xs : List (K × V)} (h : MInv w m v xs) (hs : WSorted lt xs) {k : K}
    (op : MapOp K V) (hop : op.touches (Tied lt) k = false) :
    ∃ o v' m' ys, VMap.step (defaultAllocator R) lt eq nd op v m = .ok (o, v', m') ∧
      MInv w m' v' ys ∧ WSorted lt ys ∧
      (ys.filter fun p => Tied lt p.1 k) = xs.filter fun p => Tied lt p.1 k := by
  have hfind := fun k' => h.find (eq := eq) hw hs k'
  -- an entry equal to a key not tied with `k` is not tied with `k`
  have hnt : ∀ {k' : K} {p : K × V}, Tied lt k' k = false → eq p.1 k' = true →
      Tied lt p.1 k = false := by
    intro k' p h1 h2
    cases h3 : Tied lt p.1 k with
    | false => rfl
    | true => rw [Tied.trans hw (Tied.symm (htie _ _ h2)) h3] at h1; cases h1
  have hcase : ∀ k', ∃ i, Split lt xs k' i ∧
      ((VMap.find lt eq k' v m = .ok (none, i)) ∨
        ∃ p, xs[i]? = some p ∧ eq p.1 k' = true ∧ VMap.find lt eq k' v m = .ok (some p, i)) := by
    intro k'
    obtain ⟨i, hsp, hf⟩ := hfind k'
    refine ⟨i, hsp, ?_⟩
    cases hr : xs[i]? with
    | none => rw [hr] at hf; exact .inl hf
    | some p =>
      rw [hr] at hf
      by_cases hk : eq p.1 k' = true
      · exact .inr ⟨p, rfl, hk, by simpa [hk] using hf⟩
      · exact .inl (by simpa [hk] using hf)
  cases op with
  | insert k' x =>
    obtain ⟨i, hsp, hf | ⟨p, hp, hk, hf⟩⟩ := hcase k'
    · obtain ⟨v', m', he, hi⟩ := h.insertAt (R := R) hsp.le (k', x)
      exact ⟨_, v', m', _, by simp [VMap.step, VMap.insert, hf, he]; rfl, hi, hs.insertAt hw hsp x,
        filter_insertAt hop⟩
    · obtain ⟨m', he, hi⟩ := h.setAt (List.getElem?_eq_some_iff.1 hp).1 (p.1, x)
      exact ⟨_, v, m', _, by simp [VMap.step, VMap.insert, hf, he]; rfl, hi, hs.setAt hp x,
        filter_setAt hp (hnt hop hk) (hnt (p := (p.1, x)) hop hk)⟩
  | remove k' =>
    obtain ⟨i, hsp, hf | ⟨p, hp, hk, hf⟩⟩ := hcase k'
    · exact ⟨_, v, m, xs, by simp [VMap.step, VMap.remove, VMap.removeEntry, hf]; rfl, h, hs, rfl⟩
    · obtain ⟨v', m', he, hi⟩ := h.removeAt (List.getElem?_eq_some_iff.1 hp).1
      exact ⟨_, v', m', _, by simp [VMap.step, VMap.remove, VMap.removeEntry, hf, he]; rfl, hi,
        hs.eraseAt i, filter_eraseAt hp (hnt hop hk)⟩
  | removeEntry k' =>
    obtain ⟨i, hsp, hf | ⟨p, hp, hk, hf⟩⟩ := hcase k'
    · exact ⟨_, v, m, xs, by simp [VMap.step, VMap.removeEntry, hf]; rfl, h, hs, rfl⟩
    · obtain ⟨v', m', he, hi⟩ := h.removeAt (List.getElem?_eq_some_iff.1 hp).1
      exact ⟨_, v', m', _, by simp [VMap.step, VMap.removeEntry, hf, he]; rfl, hi,
        hs.eraseAt i, filter_eraseAt hp (hnt hop hk)⟩
  | get k' =>
    obtain ⟨i, hsp, hf | ⟨p, hp, hk, hf⟩⟩ := hcase k' <;>
    exact ⟨_, v, m, xs, by simp [VMap.step, VMap.get, hf]; rfl, h, hs, rfl⟩
  | modify k' f =>
    obtain ⟨i, hsp, hf | ⟨p, hp, hk, hf⟩⟩ := hcase k'
    · exact ⟨_, v, m, xs, by simp [VMap.step, VMap.modify, hf]; rfl, h, hs, rfl⟩
    · obtain ⟨m', he, hi⟩ := h.setAt (List.getElem?_eq_some_iff.1 hp).1 (p.1, f p.2)
      exact ⟨_, v, m', _, by simp [VMap.step, VMap.modify, hf, he]; rfl, hi, hs.setAt hp _,
        filter_setAt hp (hnt hop hk) (hnt (p := (p.1, f p.2)) hop hk)⟩
  | contains k' =>
    obtain ⟨i, hsp, hf | ⟨p, hp, hk, hf⟩⟩ := hcase k' <;>
    exact ⟨_, v, m, xs, by simp [VMap.step, VMap.containsKey, VMap.get, hf]; rfl, h, hs, rfl⟩
  | entry k' f x =>
    obtain ⟨i, hsp, hf | ⟨p, hp, hk, hf⟩⟩ := hcase k'
    · obtain ⟨v', m', he, hi⟩ := h.insertAt (R := R) hsp.le (k', x)
      have hix : VMap.index i v' m' = .ok (k', x) := by
        refine hi.index ?_
        rw [List.getElem?_append_right (by simp [Nat.min_le_left])]
        simp [hsp.le]
      exact ⟨_, v', m', _, by simp [VMap.step, VMap.entry, hf, he, hix]; rfl, hi,
        hs.insertAt hw hsp x, filter_insertAt hop⟩
    · have hlt := (List.getElem?_eq_some_iff.1 hp).1
      obtain ⟨m', he, hi⟩ := h.setAt hlt (p.1, f p.2)
      have hix : VMap.index i v m' = .ok (p.1, f p.2) := hi.index (by simp [hlt])
      exact ⟨_, v, m', _, by simp [VMap.step, VMap.entry, hf, he, hix]; rfl, hi, hs.setAt hp _,
        filter_setAt hp (hnt hop hk) (hnt (p := (p.1, f p.2)) hop hk)⟩
  | entryKey k' =>
    obtain ⟨i, hsp, hf | ⟨p, hp, hk, hf⟩⟩ := hcase k' <;>
    exact ⟨_, v, m, xs, by simp [VMap.step, VMap.entryKey, hf]; rfl, h, hs, rfl⟩
  | len =>
    obtain ⟨cap, h⟩ := h
    exact ⟨_, v, m, xs, by simp [VMap.step, h.len]; rfl, ⟨cap, h⟩, hs, rfl⟩
  | isEmpty =>
    obtain ⟨cap, h⟩ := h
    exact ⟨_, v, m, xs, by simp [VMap.step, h.isEmpty]; rfl, ⟨cap, h⟩, hs, rfl⟩
  | clear => cases hop

/-- C26, the part that holds over time.  If `==` implies a tie: a key inserted is found, with the
value inserted, as long as no call names a key tied with it and the map is not cleared.
Missing: calls that name another key tied with it (`C26_coarse_comparator_loses_keys`). -/
theorem C26_survives_partial (R : RawAlloc (K × V)) (lt eq : K → K → Bool)
    (hw : StrictWeak lt) (hrefl : ∀ k, eq k k = true)
    (htie : ∀ a b, eq a b = true → lt a b = false ∧ lt b a = false) (nd : Bool)
    (m0 : Mem (K × V)) (ops later : List (MapOp K V)) (k : K) (x : V)
    (hlater : ∀ op ∈ later, op.touches (fun a b => !lt a b && !lt b a) k = false) :
    ∃ outs v m, VMap.run (defaultAllocator R) lt eq nd
      (ops ++ [.insert k x] ++ later ++ [.get k]) Vec.new m0 =
        .ok (outs ++ [.val (some x)], v, m) := by
  have htie : ∀ a b, eq a b = true → Tied lt a b = true := fun a b h => Tied.iff.2 (htie a b h)
  obtain ⟨os, v1, m1, ys, h1, hi1, hs1⟩ :=
    MInv.run_weak (R := R) (eq := eq) hw nd ops ⟨0, VInv.new defaultFits m0⟩ List.Pairwise.nil
  obtain ⟨r, v2, m2, zs, i, q, h2, hi2, hs2, hsp2, hq, hqk, rfl⟩ :=
    hi1.insert_split (R := R) hw hrefl hs1 k x
  have hhead := (hsp2.head_filter hw hs2).1 ⟨hq, htie _ _ hqk⟩
  have h12 := VMap.run_append (ops' := [.insert k q.2]) (os' := [.val r]) (v2 := v2) (m2 := m2)
    (by simp [VMap.run, VMap.step, h2]) ops Vec.new m0 os h1
  clear hsp2 hq h1 h2 hi1 hs1
  have hrun : ∀ (l : List (MapOp K V)) (v2 : Vec) (m2 : Mem (K × V)) (zs : List (K × V)),
      (∀ op ∈ l, op.touches (Tied lt) k = false) → MInv m0.live m2 v2 zs → WSorted lt zs →
      ∃ os v3 m3 us, VMap.run (defaultAllocator R) lt eq nd l v2 m2 = .ok (os, v3, m3) ∧
        MInv m0.live m3 v3 us ∧ WSorted lt us ∧
        (us.filter fun p => Tied lt p.1 k) = zs.filter fun p => Tied lt p.1 k := by
    intro l
    induction l with
    | nil => intro v2 m2 zs _ h hs; exact ⟨[], v2, m2, zs, rfl, h, hs, rfl⟩
    | cons op l ih =>
      intro v2 m2 zs hl h hs
      obtain ⟨o, va, ma, as, ha, hia, hsa, hfa⟩ :=
        h.step_untied (R := R) hw htie nd hs op (hl op (by simp))
      obtain ⟨os, vb, mb, bs, hb, hib, hsb, hfb⟩ :=
        ih va ma as (fun op' h' => hl op' (by simp [h'])) hia hsa
      exact ⟨o :: os, vb, mb, bs, by simp [VMap.run, ha, hb], hib, hsb, hfb.trans hfa⟩
  obtain ⟨os3, v3, m3, us, h3, hi3, hs3, hf3⟩ := hrun later v2 m2 zs hlater hi2 hs2
  have h123 := VMap.run_append h3 _ Vec.new m0 _ h12
  obtain ⟨j, hsp, hf⟩ := hi3.find (eq := eq) hw hs3 k
  rw [← hf3] at hhead
  have hj := ((hsp.head_filter hw hs3).2 hhead).1
  have hget : VMap.get lt eq k v3 m3 = .ok (some q.2) := by simp [VMap.get, hf, hj, hqk]
  exact ⟨_, v3, m3, VMap.run_append (v2 := v3) (m2 := m3)
    (by simp [VMap.run, VMap.step, hget]) _ Vec.new m0 _ h123⟩

/-- Comparing only the tens: 11 survives calls about 3, 25 and 40. -/
example : (∀ a b : Nat, (a == b) = true → decide (a / 10 < b / 10) = false ∧
      decide (b / 10 < a / 10) = false) ∧
    (∀ op ∈ ([.insert 3 'x', .insert 25 'y', .remove 3, .entry 40 id 'z', .get 12] :
        List (MapOp Nat Char)),
      op.touches (fun a b => !decide (a / 10 < b / 10) && !decide (b / 10 < a / 10)) 11 = false) ∧
    (do let (o, _) ← VMap.run (defaultAllocator RawAlloc.bump)
          (fun a b : Nat => decide (a / 10 < b / 10)) (fun a b => a == b) true
          [.insert 12 'b', .insert 11 'a', .insert 3 'x', .insert 25 'y', .remove 3, .get 11,
            .get 12] Vec.new Mem.empty
        .ok o) =
      (.ok [.val none, .val none, .val none, .val none, .val (some 'x'), .val (some 'a'),
        .val none] : Exec _) := by
  refine ⟨?_, ?_, rfl⟩
  · intro a b h
    rw [beq_iff_eq] at h
    subst h
    simp
  · decide

end Verif
