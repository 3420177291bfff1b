import Verif.VectorMap.Model
import Verif.Spec.FiniteMapLemmas
import Verif.Vector.Iter

/-! Lemmas about `VectorMap`. -/

set_option autoImplicit false

namespace Verif
open Spec

section Search
variable {α : Type} {xs : List α} {less : α → Bool}

/-- All elements that are less come first. -/
def Partitioned (xs : List α) (less : α → Bool) : Prop :=
  ∀ (i j : Nat) (x y : α), i ≤ j → xs[i]? = some x → xs[j]? = some y → less y = true → less x = true

theorem lowerLoop_ok (hp : Partitioned xs less) : ∀ (fuel size base : Nat), size ≤ fuel → 1 ≤ size →
    base + size ≤ xs.length → (∀ i x, i < base → xs[i]? = some x → less x = true) →
    (∀ i x, base + size ≤ i → xs[i]? = some x → less x = false) →
    ∃ b, lowerLoop xs less fuel size base = .ok b ∧ b < xs.length ∧
      (∀ i x, i < b → xs[i]? = some x → less x = true) ∧
      (∀ i x, b + 1 ≤ i → xs[i]? = some x → less x = false) := by
  intro fuel
  induction fuel with
  | zero => intro size base h1 h2; omega
  | succ fuel ih =>
    intro size base hf hs hb hlo hhi
    unfold lowerLoop
    by_cases h1 : 1 < size
    · rw [if_pos h1]
      have hmid : base + size / 2 < xs.length := by omega
      obtain ⟨x, hx⟩ : ∃ x, xs[base + size / 2]? = some x := ⟨xs[base + size / 2], by simp [hmid]⟩
      simp only [sliceAt, hx, Exec.ok_bind]
      cases hl : less x with
      | true =>
        simp only [if_true]
        refine ih _ _ (by omega) (by omega) (by omega) ?_ ?_
        · intro i y hi hy
          exact hp i _ y x (by omega) hy hx hl
        · intro i y hi hy
          exact hhi i y (by omega) hy
      | false =>
        simp only [Bool.false_eq_true, if_false]
        refine ih _ _ (by omega) (by omega) (by omega) hlo ?_
        intro i y hi hy
        cases hy2 : less y with
        | false => rfl
        | true => rw [hp _ i x y (by omega) hx hy hy2] at hl; cases hl
    · rw [if_neg h1]
      have : size = 1 := by omega
      subst this
      exact ⟨base, rfl, by omega, hlo, hhi⟩

theorem lowerBoundBy_ok (hp : Partitioned xs less) :
    ∃ r, lowerBoundBy xs less = .ok r ∧ r ≤ xs.length ∧
      (∀ i x, i < r → xs[i]? = some x → less x = true) ∧
      (∀ i x, r ≤ i → xs[i]? = some x → less x = false) := by
  unfold lowerBoundBy
  by_cases h0 : xs.length = 0
  · exact ⟨0, by simp [h0], Nat.zero_le _, fun i _ h => by omega, fun i x _ hx => by
      have := (List.getElem?_eq_some_iff.1 hx).1; omega⟩
  · rw [if_neg h0]
    obtain ⟨b, he, hb, hlo, hhi⟩ := lowerLoop_ok hp xs.length xs.length 0 (Nat.le_refl _)
      (by omega) (by omega) (fun i _ h => by omega) (fun i x hi hx => by
        have := (List.getElem?_eq_some_iff.1 hx).1; omega)
    obtain ⟨x, hx⟩ : ∃ x, xs[b]? = some x := ⟨xs[b], by simp [hb]⟩
    simp only [he, Exec.ok_bind, sliceAt, hx]
    cases hl : less x with
    | true =>
      refine ⟨b + 1, rfl, hb, ?_, hhi⟩
      intro i y hi hy
      exact hp i b y x (by omega) hy hx hl
    | false =>
      refine ⟨b, rfl, by omega, hlo, ?_⟩
      intro i y hi hy
      by_cases hib : i = b
      · subst hib; rw [hx] at hy; cases hy; exact hl
      · exact hhi i y (by omega) hy

/-- The split point is the number of smaller elements. -/
theorem filter_length_of_split {r : Nat} (hr : r ≤ xs.length)
    (hlo : ∀ i x, i < r → xs[i]? = some x → less x = true)
    (hhi : ∀ i x, r ≤ i → xs[i]? = some x → less x = false) : (xs.filter less).length = r := by
  have h1 : xs.filter less = (xs.take r).filter less ++ (xs.drop r).filter less := by
    rw [← List.filter_append, List.take_append_drop]
  have h2 : (xs.take r).filter less = xs.take r := by
    rw [List.filter_eq_self]
    intro a ha
    obtain ⟨i, hi⟩ := List.getElem?_of_mem ha
    rw [List.getElem?_take] at hi
    split at hi
    · exact hlo i a (by assumption) hi
    · cases hi
  have h3 : (xs.drop r).filter less = [] := by
    rw [List.filter_eq_nil_iff]
    intro a ha
    obtain ⟨i, hi⟩ := List.getElem?_of_mem ha
    rw [List.getElem?_drop] at hi
    rw [hhi (r + i) a (by omega) hi]
    simp
  rw [h1, h2, h3]
  simp [hr]

end Search

section Map
variable {K V : Type} {lt eq : K → K → Bool}

/-- Keys never decrease. -/
def WSorted (lt : K → K → Bool) (xs : List (K × V)) : Prop :=
  xs.Pairwise fun p q => lt q.1 p.1 = false

theorem WSorted.get {xs : List (K × V)} (h : WSorted lt xs) {i j : Nat} {p q : K × V} (hij : i < j)
    (hp : xs[i]? = some p) (hq : xs[j]? = some q) : lt q.1 p.1 = false := by
  obtain ⟨hi, rfl⟩ := List.getElem?_eq_some_iff.1 hp
  obtain ⟨hj, rfl⟩ := List.getElem?_eq_some_iff.1 hq
  exact List.pairwise_iff_getElem.1 h i j hi hj hij

theorem WSorted.partitioned (hw : StrictWeak lt) {xs : List (K × V)} (h : WSorted lt xs) (k : K) :
    Partitioned xs (fun p => lt p.1 k) := by
  intro i j x y hij hx hy hlt
  rcases Nat.lt_or_eq_of_le hij with hlt' | rfl
  · rcases hw.cotrans hlt x.1 with h1 | h1
    · rw [h.get hlt' hx hy] at h1; cases h1
    · exact h1
  · rw [hx] at hy; cases hy; exact hlt

theorem WSorted.increasing (hc : Consistent lt eq) {xs : List (K × V)} (h : WSorted lt xs)
    (hd : Distinct eq xs) : Increasing lt xs := by
  have := List.Pairwise.and h hd
  refine this.imp ?_
  intro p q ⟨h1, h2⟩
  cases h3 : lt p.1 q.1 with
  | true => rfl
  | false => rw [(hc p.1 q.1).2 ⟨h3, h1⟩] at h2; cases h2

/-- The split that the search finds. -/
structure Split (lt : K → K → Bool) (xs : List (K × V)) (k : K) (r : Nat) : Prop where
  le : r ≤ xs.length
  lo : ∀ i p, i < r → xs[i]? = some p → lt p.1 k = true
  hi : ∀ i p, r ≤ i → xs[i]? = some p → lt p.1 k = false

theorem WSorted.insertAt (hw : StrictWeak lt) {xs : List (K × V)} (h : WSorted lt xs) {k : K}
    {r : Nat} (hs : Split lt xs k r) (v : V) : WSorted lt (xs.take r ++ (k, v) :: xs.drop r) := by
  have hmem1 : ∀ p ∈ xs.take r, lt p.1 k = true := by
    intro p hp
    obtain ⟨i, hi⟩ := List.getElem?_of_mem hp
    rw [List.getElem?_take] at hi
    split at hi
    · exact hs.lo i p (by assumption) hi
    · cases hi
  have hmem2 : ∀ p ∈ xs.drop r, lt p.1 k = false := by
    intro p hp
    obtain ⟨i, hi⟩ := List.getElem?_of_mem hp
    rw [List.getElem?_drop] at hi
    exact hs.hi _ p (by omega) hi
  have h0 := h
  unfold WSorted at h
  rw [← List.take_append_drop r xs] at h
  obtain ⟨h1, h2, h3⟩ := List.pairwise_append.1 h
  refine List.pairwise_append.2 ⟨h1, List.pairwise_cons.2 ⟨hmem2, h2⟩, ?_⟩
  intro p hp q hq
  rcases List.mem_cons.1 hq with rfl | hq
  · exact hw.asymm (hmem1 p hp)
  · exact h3 p hp q hq

theorem WSorted.setAt {xs : List (K × V)} (h : WSorted lt xs) {r : Nat} {p : K × V}
    (hp : xs[r]? = some p) (v : V) : WSorted lt (xs.set r (p.1, v)) := by
  have hk : (xs.set r (p.1, v)).map Prod.fst = xs.map Prod.fst := by
    rw [List.map_set]
    apply List.ext_getElem?
    intro i
    rw [List.getElem?_set]
    split
    · subst_vars
      simp only [List.length_map, List.getElem?_map, hp, Option.map_some]
      have := (List.getElem?_eq_some_iff.1 hp).1
      simp [this]
    · rfl
  have h1 : (xs.map Prod.fst).Pairwise (fun a b => lt b a = false) := List.pairwise_map.2 h
  rw [← hk] at h1
  exact List.pairwise_map.1 h1

theorem WSorted.eraseAt {xs : List (K × V)} (h : WSorted lt xs) (r : Nat) :
    WSorted lt (xs.eraseIdx r) := List.Pairwise.sublist (List.eraseIdx_sublist _ _) h

/-- With a consistent equality, the element at the split is the only candidate. -/
theorem lookup_split (hw : StrictWeak lt) (hc : Consistent lt eq) {xs : List (K × V)}
    (h : WSorted lt xs) (hd : Distinct eq xs) {k : K} {r : Nat} (hs : Split lt xs k r) :
    (∀ i p, xs[i]? = some p → eq p.1 k = true → i = r) ∧
    lookup eq xs k = (match xs[r]? with
      | some p => if eq p.1 k then some p else none
      | none => none) := by
  have he := hc.equiv hw
  have huniq : ∀ i p, xs[i]? = some p → eq p.1 k = true → i = r := by
    intro i p hp hk
    rcases Nat.lt_trichotomy i r with hlt | heq | hgt
    · have := hs.lo i p hlt hp
      rw [((hc _ _).1 hk).1] at this
      cases this
    · exact heq
    · have hil := (List.getElem?_eq_some_iff.1 hp).1
      obtain ⟨q, hq⟩ : ∃ q, xs[r]? = some q := ⟨xs[r]'(by omega), by
        rw [List.getElem?_eq_getElem]⟩
      have h1 := hs.hi r q (Nat.le_refl _) hq
      have h2 : lt q.1 p.1 = true := by
        obtain ⟨hr, rfl⟩ := List.getElem?_eq_some_iff.1 hq
        obtain ⟨hi, rfl⟩ := List.getElem?_eq_some_iff.1 hp
        exact List.pairwise_iff_getElem.1 (h.increasing hc hd) r i hr hi hgt
      rcases hw.cotrans h2 k with h3 | h3
      · rw [h1] at h3; cases h3
      · rw [((hc _ _).1 hk).2] at h3; cases h3
  refine ⟨huniq, ?_⟩
  cases hl : lookup eq xs k with
  | some p =>
    obtain ⟨hm, hk⟩ := (lookup_some he hd).1 hl
    obtain ⟨i, hi⟩ := List.getElem?_of_mem hm
    have := huniq i p hi hk
    subst this
    simp [hi, hk]
  | none =>
    have hn := lookup_none.1 hl
    cases hr : xs[r]? with
    | none => rfl
    | some p => simp [hn p (List.mem_of_getElem? hr)]

theorem setVal_eq_set {xs : List (K × V)} {k : K} {r : Nat} {p : K × V} (v : V)
    (huniq : ∀ i p, xs[i]? = some p → eq p.1 k = true → i = r) (hp : xs[r]? = some p)
    (hk : eq p.1 k = true) : setVal eq k v xs = xs.set r (p.1, v) := by
  apply List.ext_getElem?
  intro i
  rw [List.getElem?_set, setVal, List.getElem?_map]
  by_cases hi : r = i
  · subst hi
    have := (List.getElem?_eq_some_iff.1 hp).1
    rw [hp]
    simp [hk, this]
  · rw [if_neg hi]
    cases hx : xs[i]? with
    | none => rfl
    | some q =>
      have : eq q.1 k = false := by
        cases h : eq q.1 k with
        | false => rfl
        | true => exact absurd (huniq i q hx h).symm hi
      simp [this]

theorem eraseKey_eq_eraseIdx {xs : List (K × V)} {k : K} {r : Nat} {p : K × V}
    (huniq : ∀ i p, xs[i]? = some p → eq p.1 k = true → i = r) (hp : xs[r]? = some p)
    (hk : eq p.1 k = true) : eraseKey eq k xs = xs.eraseIdx r := by
  have hlen := (List.getElem?_eq_some_iff.1 hp).1
  have hsplit : xs = xs.take r ++ p :: xs.drop (r + 1) := by
    have h1 : xs.drop r = p :: xs.drop (r + 1) := by
      rw [List.drop_eq_getElem_cons hlen]
      simp [(List.getElem?_eq_some_iff.1 hp).2]
    rw [← h1, List.take_append_drop]
  have h1 : (xs.take r).filter (fun p => !eq p.1 k) = xs.take r := by
    rw [List.filter_eq_self]
    intro q hq
    obtain ⟨i, hi⟩ := List.getElem?_of_mem hq
    rw [List.getElem?_take] at hi
    split at hi
    · cases h : eq q.1 k with
      | false => rfl
      | true => have := huniq i q hi h; omega
    · cases hi
  have h2 : (xs.drop (r + 1)).filter (fun p => !eq p.1 k) = xs.drop (r + 1) := by
    rw [List.filter_eq_self]
    intro q hq
    obtain ⟨i, hi⟩ := List.getElem?_of_mem hq
    rw [List.getElem?_drop] at hi
    cases h : eq q.1 k with
    | false => rfl
    | true => have := huniq _ q hi h; omega
  rw [List.eraseIdx_eq_take_drop_succ]
  conv => lhs; rw [hsplit]
  rw [eraseKey, List.filter_append, h1, List.filter_cons]
  simp [hk, h2]

variable {R : RawAlloc (K × V)} {w : World (K × V)} {m : Mem (K × V)} {v : Vec}
  {xs : List (K × V)} {cap : Nat}

/-- Representation of a map with contents `xs`. -/
abbrev MInv (w : World (K × V)) (m : Mem (K × V)) (v : Vec) (xs : List (K × V)) : Prop :=
  ∃ cap, VInv (fun _ => False) defaultFits w m v xs cap

theorem MInv.index (h : MInv w m v xs) {i : Nat} {p : K × V} (hp : xs[i]? = some p) :
    VMap.index i v m = .ok p := by
  obtain ⟨cap, h⟩ := h
  simp [VMap.index, h.slice, hp]

theorem MInv.find (hw : StrictWeak lt) (h : MInv w m v xs) (hs : WSorted lt xs) (k : K) :
    ∃ r, Split lt xs k r ∧ VMap.find lt eq k v m = .ok ((match xs[r]? with
      | some p => if eq p.1 k then some p else none
      | none => none), r) := by
  obtain ⟨cap, h⟩ := h
  obtain ⟨r, he, hle, hlo, hhi⟩ := lowerBoundBy_ok (hs.partitioned hw k)
  refine ⟨r, ⟨hle, hlo, hhi⟩, ?_⟩
  simp only [VMap.find, VMap.lowerBound, h.slice, Exec.ok_bind, he, h.len]
  by_cases hr : r < xs.length
  · obtain ⟨p, hp⟩ : ∃ p, xs[r]? = some p := ⟨xs[r], by simp [hr]⟩
    have hin : VMap.index r v m = .ok p := MInv.index ⟨cap, h⟩ hp
    simp only [hr, if_true, hin, Exec.ok_bind, hp]
  · have : xs[r]? = none := by simp; omega
    simp [hr]

theorem MInv.insertAt (h : MInv w m v xs) {r : Nat} (hr : r ≤ xs.length) (p : K × V) :
    ∃ v' m', v.insert (defaultAllocator R) r p m = .ok (v', m') ∧
      MInv w m' v' (xs.take r ++ p :: xs.drop r) := by
  obtain ⟨cap, h⟩ := h
  obtain ⟨v1, m1, b1, blk1, he, hB, _⟩ := h.insert (defaultAllocator_lawful R) p hr
  rw [insertIdx_eq_take_drop _ _ _ hr] at hB
  exact ⟨v1, m1, he, _, hB.inv⟩

theorem MInv.setAt (h : MInv w m v xs) {r : Nat} (hr : r < xs.length) (p : K × V) :
    ∃ m', v.setAt false r p m = .ok m' ∧ MInv w m' v (xs.set r p) := by
  obtain ⟨cap, h⟩ := h
  obtain ⟨b, blk, hB⟩ := h.own (by intro e; simp [e] at hr)
  obtain ⟨m', he, hB', _⟩ := hB.setAt false p hr
  exact ⟨m', he, _, hB'.inv⟩

theorem MInv.removeAt (h : MInv w m v xs) {r : Nat} (hr : r < xs.length) :
    ∃ v' m', v.remove r m = .ok (xs[r]?, v', m') ∧ MInv w m' v' (xs.eraseIdx r) := by
  obtain ⟨cap, h⟩ := h
  obtain ⟨b, blk, hB⟩ := h.own (by intro e; simp [e] at hr)
  obtain ⟨v', m', blk', he, hinv, _⟩ := hB.remove hr
  exact ⟨v', m', he, _, hinv.inv⟩

theorem take_cons_drop_perm (xs : List (K × V)) (r : Nat) (p : K × V) :
    (xs.take r ++ p :: xs.drop r).Perm (p :: xs) := by
  have : xs.take r ++ xs.drop r = xs := List.take_append_drop r xs
  exact List.perm_middle.trans (by rw [this])

/-- For every strict weak order, whatever `==` is, a call succeeds and keeps the order. -/
theorem MInv.step_weak (hw : StrictWeak lt) (nd : Bool) (op : MapOp K V) (h : MInv w m v xs)
    (hs : WSorted lt xs) :
    ∃ v' m' ys, (∃ o, VMap.step (defaultAllocator R) lt eq nd op v m = .ok (o, v', m')) ∧
      MInv w m' v' ys ∧ WSorted lt ys := by
  have hfind := fun k => MInv.find (eq := eq) hw h hs k
  cases op with
  | insert k x =>
    obtain ⟨r, hsp, hf⟩ := hfind k
    have hvac : ∃ v' m' ys, v.insert (defaultAllocator R) r (k, x) m = .ok (v', m') ∧
        MInv w m' v' ys ∧ WSorted lt ys := by
      obtain ⟨v', m', he, hi⟩ := h.insertAt (R := R) hsp.le (k, x)
      exact ⟨v', m', _, he, hi, hs.insertAt hw hsp x⟩
    cases hr : xs[r]? with
    | none =>
      obtain ⟨v', m', ys, he, hi, hs'⟩ := hvac
      exact ⟨v', m', ys, by simp [VMap.step, VMap.insert, hf, hr, he], hi, hs'⟩
    | some p =>
      by_cases hk : eq p.1 k = true
      · obtain ⟨m', he, hi⟩ := h.setAt (List.getElem?_eq_some_iff.1 hr).1 (p.1, x)
        exact ⟨v, m', _, by simp [VMap.step, VMap.insert, hf, hr, hk, he], hi, hs.setAt hr x⟩
      · obtain ⟨v', m', ys, he, hi, hs'⟩ := hvac
        exact ⟨v', m', ys, by simp [VMap.step, VMap.insert, hf, hr, hk, he], hi, hs'⟩
  | remove k =>
    obtain ⟨r, hsp, hf⟩ := hfind k
    cases hr : xs[r]? with
    | none => exact ⟨v, m, xs, by simp [VMap.step, VMap.remove, VMap.removeEntry, hf, hr], h, hs⟩
    | some p =>
      by_cases hk : eq p.1 k = true
      · obtain ⟨v', m', he, hi⟩ := h.removeAt (List.getElem?_eq_some_iff.1 hr).1
        exact ⟨v', m', _, by
          simp [VMap.step, VMap.remove, VMap.removeEntry, hf, hr, hk, he], hi, hs.eraseAt r⟩
      · exact ⟨v, m, xs, by
          simp [VMap.step, VMap.remove, VMap.removeEntry, hf, hr, hk], h, hs⟩
  | removeEntry k =>
    obtain ⟨r, hsp, hf⟩ := hfind k
    cases hr : xs[r]? with
    | none => exact ⟨v, m, xs, by simp [VMap.step, VMap.removeEntry, hf, hr], h, hs⟩
    | some p =>
      by_cases hk : eq p.1 k = true
      · obtain ⟨v', m', he, hi⟩ := h.removeAt (List.getElem?_eq_some_iff.1 hr).1
        exact ⟨v', m', _, by
          simp [VMap.step, VMap.removeEntry, hf, hr, hk, he], hi, hs.eraseAt r⟩
      · exact ⟨v, m, xs, by simp [VMap.step, VMap.removeEntry, hf, hr, hk], h, hs⟩
  | get k =>
    obtain ⟨r, hsp, hf⟩ := hfind k
    exact ⟨v, m, xs, by simp [VMap.step, VMap.get, hf], h, hs⟩
  | modify k f =>
    obtain ⟨r, hsp, hf⟩ := hfind k
    cases hr : xs[r]? with
    | none => exact ⟨v, m, xs, by simp [VMap.step, VMap.modify, hf, hr], h, hs⟩
    | some p =>
      by_cases hk : eq p.1 k = true
      · obtain ⟨m', he, hi⟩ := h.setAt (List.getElem?_eq_some_iff.1 hr).1 (p.1, f p.2)
        exact ⟨v, m', _, by simp [VMap.step, VMap.modify, hf, hr, hk, he], hi, hs.setAt hr _⟩
      · exact ⟨v, m, xs, by simp [VMap.step, VMap.modify, hf, hr, hk], h, hs⟩
  | contains k =>
    obtain ⟨r, hsp, hf⟩ := hfind k
    exact ⟨v, m, xs, by simp [VMap.step, VMap.containsKey, VMap.get, hf], h, hs⟩
  | entry k f x =>
    obtain ⟨r, hsp, hf⟩ := hfind k
    have hvac : ∃ v' m' ys, v.insert (defaultAllocator R) r (k, x) m = .ok (v', m') ∧
        VMap.index r v' m' = .ok (k, x) ∧ MInv w m' v' ys ∧ WSorted lt ys := by
      obtain ⟨v', m', he, hi⟩ := h.insertAt (R := R) hsp.le (k, x)
      refine ⟨v', m', _, he, hi.index ?_, hi, hs.insertAt hw hsp x⟩
      rw [List.getElem?_append_right (by simp [Nat.min_le_left])]
      simp [hsp.le]
    cases hr : xs[r]? with
    | none =>
      obtain ⟨v', m', ys, he, hix, hi, hs'⟩ := hvac
      exact ⟨v', m', ys, by simp [VMap.step, VMap.entry, hf, hr, he, hix], hi, hs'⟩
    | some p =>
      by_cases hk : eq p.1 k = true
      · have hlt := (List.getElem?_eq_some_iff.1 hr).1
        obtain ⟨m', he, hi⟩ := h.setAt hlt (p.1, f p.2)
        have hix : VMap.index r v m' = .ok (p.1, f p.2) := hi.index (by simp [hlt])
        exact ⟨v, m', _, by simp [VMap.step, VMap.entry, hf, hr, hk, he, hix], hi,
          hs.setAt hr _⟩
      · obtain ⟨v', m', ys, he, hix, hi, hs'⟩ := hvac
        exact ⟨v', m', ys, by simp [VMap.step, VMap.entry, hf, hr, hk, he, hix], hi, hs'⟩
  | entryKey k =>
    obtain ⟨r, hsp, hf⟩ := hfind k
    cases hr : xs[r]? with
    | none => exact ⟨v, m, xs, by simp [VMap.step, VMap.entryKey, hf, hr], h, hs⟩
    | some p =>
      by_cases hk : eq p.1 k = true
      · exact ⟨v, m, xs, by simp [VMap.step, VMap.entryKey, hf, hr, hk], h, hs⟩
      · exact ⟨v, m, xs, by simp [VMap.step, VMap.entryKey, hf, hr, hk], h, hs⟩
  | len =>
    obtain ⟨cap, h⟩ := h
    exact ⟨v, m, xs, by simp [VMap.step, h.len], ⟨cap, h⟩, hs⟩
  | isEmpty =>
    obtain ⟨cap, h⟩ := h
    exact ⟨v, m, xs, by simp [VMap.step, h.isEmpty], ⟨cap, h⟩, hs⟩
  | clear =>
    obtain ⟨cap, h⟩ := h
    obtain ⟨m', he, _, _, _, hi, _⟩ := h.clear (defaultAllocator_lawful R) nd
    exact ⟨_, m', [], by simp [VMap.step, he], ⟨_, hi⟩, List.Pairwise.nil⟩

/-- With a consistent `==` a call is the call on the finite map. -/
theorem MInv.step (hw : StrictWeak lt) (hc : Consistent lt eq) (nd : Bool) (op : MapOp K V)
    (h : MInv w m v xs) (hs : WSorted lt xs) (hd : Distinct eq xs) :
    ∃ v' m' ys, VMap.step (defaultAllocator R) lt eq nd op v m =
        .ok ((op.step eq xs).1, v', m') ∧
      MInv w m' v' ys ∧ WSorted lt ys ∧ ys.Perm (op.step eq xs).2 := by
  have hfind := fun k => MInv.find (eq := eq) hw h hs k
  have hlk := fun {k : K} {r : Nat} (hsp : Split lt xs k r) => lookup_split hw hc hs hd hsp
  -- a lookup that fails
  have hmiss : ∀ {k : K}, lookup eq xs k = none → eraseKey eq k xs = xs := by
    intro k hk
    rw [eraseKey, List.filter_eq_self]
    intro p hp
    simp [lookup_none.1 hk p hp]
  cases op with
  | insert k x =>
    obtain ⟨r, hsp, hf⟩ := hfind k
    obtain ⟨hu, hl⟩ := hlk hsp
    rw [← hl] at hf
    cases hlu : lookup eq xs k with
    | none =>
      obtain ⟨v', m', he, hi⟩ := h.insertAt (R := R) hsp.le (k, x)
      exact ⟨v', m', _, by simp [VMap.step, VMap.insert, hf, hlu, he, MapOp.step], hi,
        hs.insertAt hw hsp x, by simp only [MapOp.step, hlu]; exact take_cons_drop_perm ..⟩
    | some p =>
      rw [hlu] at hl
      have hr : xs[r]? = some p ∧ eq p.1 k = true := by
        split at hl
        · split at hl
          · cases hl; exact ⟨by assumption, by assumption⟩
          · cases hl
        · cases hl
      obtain ⟨m', he, hi⟩ := h.setAt (List.getElem?_eq_some_iff.1 hr.1).1 (p.1, x)
      exact ⟨v, m', _, by simp [VMap.step, VMap.insert, hf, hlu, he, MapOp.step], hi,
        hs.setAt hr.1 x, by simp only [MapOp.step, hlu]; rw [setVal_eq_set x hu hr.1 hr.2]⟩
  | remove k =>
    obtain ⟨r, hsp, hf⟩ := hfind k
    obtain ⟨hu, hl⟩ := hlk hsp
    rw [← hl] at hf
    cases hlu : lookup eq xs k with
    | none =>
      exact ⟨v, m, xs, by simp [VMap.step, VMap.remove, VMap.removeEntry, hf, hlu, MapOp.step], h,
        hs, by simp only [MapOp.step]; rw [hmiss hlu]⟩
    | some p =>
      rw [hlu] at hl
      have hr : xs[r]? = some p ∧ eq p.1 k = true := by
        split at hl
        · split at hl
          · cases hl; exact ⟨by assumption, by assumption⟩
          · cases hl
        · cases hl
      obtain ⟨v', m', he, hi⟩ := h.removeAt (List.getElem?_eq_some_iff.1 hr.1).1
      rw [hr.1] at he
      exact ⟨v', m', _, by simp [VMap.step, VMap.remove, VMap.removeEntry, hf, hlu, he, MapOp.step],
        hi, hs.eraseAt r, by simp only [MapOp.step]; rw [eraseKey_eq_eraseIdx hu hr.1 hr.2]⟩
  | removeEntry k =>
    obtain ⟨r, hsp, hf⟩ := hfind k
    obtain ⟨hu, hl⟩ := hlk hsp
    rw [← hl] at hf
    cases hlu : lookup eq xs k with
    | none =>
      exact ⟨v, m, xs, by simp [VMap.step, VMap.removeEntry, hf, hlu, MapOp.step], h,
        hs, by simp only [MapOp.step]; rw [hmiss hlu]⟩
    | some p =>
      rw [hlu] at hl
      have hr : xs[r]? = some p ∧ eq p.1 k = true := by
        split at hl
        · split at hl
          · cases hl; exact ⟨by assumption, by assumption⟩
          · cases hl
        · cases hl
      obtain ⟨v', m', he, hi⟩ := h.removeAt (List.getElem?_eq_some_iff.1 hr.1).1
      rw [hr.1] at he
      exact ⟨v', m', _, by simp [VMap.step, VMap.removeEntry, hf, hlu, he, MapOp.step],
        hi, hs.eraseAt r, by simp only [MapOp.step]; rw [eraseKey_eq_eraseIdx hu hr.1 hr.2]⟩
  | get k =>
    obtain ⟨r, hsp, hf⟩ := hfind k
    rw [← (hlk hsp).2] at hf
    exact ⟨v, m, xs, by simp [VMap.step, VMap.get, hf, MapOp.step], h, hs, .refl _⟩
  | modify k f =>
    obtain ⟨r, hsp, hf⟩ := hfind k
    obtain ⟨hu, hl⟩ := hlk hsp
    rw [← hl] at hf
    cases hlu : lookup eq xs k with
    | none =>
      exact ⟨v, m, xs, by simp [VMap.step, VMap.modify, hf, hlu, MapOp.step], h, hs, by
        simp only [MapOp.step, hlu]; exact .refl _⟩
    | some p =>
      rw [hlu] at hl
      have hr : xs[r]? = some p ∧ eq p.1 k = true := by
        split at hl
        · split at hl
          · cases hl; exact ⟨by assumption, by assumption⟩
          · cases hl
        · cases hl
      obtain ⟨m', he, hi⟩ := h.setAt (List.getElem?_eq_some_iff.1 hr.1).1 (p.1, f p.2)
      exact ⟨v, m', _, by simp [VMap.step, VMap.modify, hf, hlu, he, MapOp.step], hi,
        hs.setAt hr.1 _, by simp only [MapOp.step, hlu]; rw [setVal_eq_set _ hu hr.1 hr.2]⟩
  | contains k =>
    obtain ⟨r, hsp, hf⟩ := hfind k
    rw [← (hlk hsp).2] at hf
    exact ⟨v, m, xs, by simp [VMap.step, VMap.containsKey, VMap.get, hf, MapOp.step], h, hs,
      .refl _⟩
  | entry k f x =>
    obtain ⟨r, hsp, hf⟩ := hfind k
    obtain ⟨hu, hl⟩ := hlk hsp
    rw [← hl] at hf
    cases hlu : lookup eq xs k with
    | none =>
      obtain ⟨v', m', he, hi⟩ := h.insertAt (R := R) hsp.le (k, x)
      have hix : VMap.index r v' m' = .ok (k, x) := by
        refine hi.index ?_
        rw [List.getElem?_append_right (by simp [Nat.min_le_left])]
        simp [hsp.le]
      exact ⟨v', m', _, by simp [VMap.step, VMap.entry, hf, hlu, he, hix, MapOp.step], hi,
        hs.insertAt hw hsp x, by simp only [MapOp.step, hlu]; exact take_cons_drop_perm ..⟩
    | some p =>
      rw [hlu] at hl
      have hr : xs[r]? = some p ∧ eq p.1 k = true := by
        split at hl
        · split at hl
          · cases hl; exact ⟨by assumption, by assumption⟩
          · cases hl
        · cases hl
      have hlt := (List.getElem?_eq_some_iff.1 hr.1).1
      obtain ⟨m', he, hi⟩ := h.setAt hlt (p.1, f p.2)
      have hix : VMap.index r v m' = .ok (p.1, f p.2) := hi.index (by simp [hlt])
      exact ⟨v, m', _, by simp [VMap.step, VMap.entry, hf, hlu, he, hix, MapOp.step], hi,
        hs.setAt hr.1 _, by simp only [MapOp.step, hlu]; rw [setVal_eq_set _ hu hr.1 hr.2]⟩
  | entryKey k =>
    obtain ⟨r, hsp, hf⟩ := hfind k
    rw [← (hlk hsp).2] at hf
    cases hlu : lookup eq xs k with
    | none =>
      exact ⟨v, m, xs, by simp [VMap.step, VMap.entryKey, hf, hlu, MapOp.step], h, hs, by
        simp only [MapOp.step, hlu]; exact .refl _⟩
    | some p =>
      exact ⟨v, m, xs, by simp [VMap.step, VMap.entryKey, hf, hlu, MapOp.step], h, hs, by
        simp only [MapOp.step, hlu]; exact .refl _⟩
  | len =>
    obtain ⟨cap, h⟩ := h
    exact ⟨v, m, xs, by simp [VMap.step, h.len, MapOp.step], ⟨cap, h⟩, hs, .refl _⟩
  | isEmpty =>
    obtain ⟨cap, h⟩ := h
    exact ⟨v, m, xs, by cases xs <;> simp [VMap.step, h.isEmpty, MapOp.step], ⟨cap, h⟩, hs,
      .refl _⟩
  | clear =>
    obtain ⟨cap, h⟩ := h
    obtain ⟨m', he, _, _, _, hi, _⟩ := h.clear (defaultAllocator_lawful R) nd
    exact ⟨_, m', [], by simp [VMap.step, he, MapOp.step], ⟨_, hi⟩, List.Pairwise.nil, .refl _⟩

theorem MInv.run (hw : StrictWeak lt) (hc : Consistent lt eq) (nd : Bool) (ops : List (MapOp K V)) :
    ∀ {m : Mem (K × V)} {v : Vec} {xs : List (K × V)}, MInv w m v xs → WSorted lt xs →
    Distinct eq xs →
    ∃ v' m' ys, VMap.run (defaultAllocator R) lt eq nd ops v m =
        .ok ((MapOp.run eq ops xs).1, v', m') ∧
      MInv w m' v' ys ∧ WSorted lt ys ∧ ys.Perm (MapOp.run eq ops xs).2 ∧ Distinct eq ys := by
  have he := hc.equiv hw
  induction ops with
  | nil => intro m v xs h hs hd; exact ⟨v, m, xs, rfl, h, hs, .refl _, hd⟩
  | cons op ops ih =>
    intro m v xs h hs hd
    obtain ⟨v1, m1, ys, he1, hi1, hs1, hp1⟩ := h.step (R := R) hw hc nd op hs hd
    have hd1 : Distinct eq ys := (hd.step he op).perm he hp1.symm
    obtain ⟨v2, m2, zs, he2, hi2, hs2, hp2, hd2⟩ := ih hi1 hs1 hd1
    obtain ⟨h3, h4⟩ := run_perm he ops hp1 hd1
    refine ⟨v2, m2, zs, ?_, hi2, hs2, hp2.trans h4, hd2⟩
    simp [VMap.run, he1, he2, h3, MapOp.run]

theorem MInv.run_weak (hw : StrictWeak lt) (nd : Bool) (ops : List (MapOp K V)) :
    ∀ {m : Mem (K × V)} {v : Vec} {xs : List (K × V)}, MInv w m v xs → WSorted lt xs →
    ∃ os v' m' ys, VMap.run (defaultAllocator R) lt eq nd ops v m = .ok (os, v', m') ∧
      MInv w m' v' ys ∧ WSorted lt ys := by
  induction ops with
  | nil => intro m v xs h hs; exact ⟨[], v, m, xs, rfl, h, hs⟩
  | cons op ops ih =>
    intro m v xs h hs
    obtain ⟨v1, m1, ys, ⟨o, he1⟩, hi1, hs1⟩ := h.step_weak (R := R) (eq := eq) hw nd op hs
    obtain ⟨os, v2, m2, zs, he2, hi2, hs2⟩ := ih hi1 hs1
    exact ⟨o :: os, v2, m2, zs, by simp [VMap.run, he1, he2], hi2, hs2⟩

end Map

end Verif
