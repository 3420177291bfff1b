import Verif.VectorMap.Proofs
import Verif.Spec.Honest

/-! `VectorMap` with an arbitrary comparator and an arbitrary `==`. -/

set_option autoImplicit false

namespace Verif
open Spec

section Search
variable {α : Type} {xs : List α} {less : α → Bool}

/-- The search loop ends inside the slice whatever the closure says. -/
theorem lowerLoop_any : ∀ (fuel size base : Nat), size ≤ fuel → 1 ≤ size →
    base + size ≤ xs.length →
    ∃ b, lowerLoop xs less fuel size base = .ok b ∧ b < xs.length := by
  intro fuel
  induction fuel with
  | zero => intro size base h1 h2; omega
  | succ fuel ih =>
    intro size base hf hs hb
    unfold lowerLoop
    by_cases h1 : 1 < size
    · rw [if_pos h1]
      have hmid : base + size / 2 < xs.length := by omega
      obtain ⟨x, hx⟩ : ∃ x, xs[base + size / 2]? = some x := ⟨xs[base + size / 2], by simp [hmid]⟩
      simp only [sliceAt, hx, Exec.ok_bind]
      cases less x with
      | true => exact ih _ _ (by omega) (by omega) (by simp; omega)
      | false => exact ih _ _ (by omega) (by omega) (by simp; omega)
    · rw [if_neg h1]
      exact ⟨base, rfl, by omega⟩

theorem lowerBoundBy_any (xs : List α) (less : α → Bool) :
    ∃ r, lowerBoundBy xs less = .ok r ∧ r ≤ xs.length := by
  unfold lowerBoundBy
  by_cases h0 : xs.length = 0
  · exact ⟨0, by simp [h0], Nat.zero_le _⟩
  · rw [if_neg h0]
    obtain ⟨b, he, hb⟩ := lowerLoop_any (xs := xs) (less := less) xs.length xs.length 0
      (Nat.le_refl _) (by omega) (by omega)
    obtain ⟨x, hx⟩ : ∃ x, xs[b]? = some x := ⟨xs[b], by simp [hb]⟩
    simp only [he, Exec.ok_bind, sliceAt, hx]
    cases less x with
    | true => exact ⟨b + 1, rfl, hb⟩
    | false => exact ⟨b, rfl, by omega⟩

end Search

variable {K V : Type} {lt eq : K → K → Bool} {R : RawAlloc (K × V)} {w : World (K × V)}
  {m : Mem (K × V)} {v : Vec} {xs : List (K × V)}

theorem perm_eraseIdx {α : Type} {l : List α} {r : Nat} {p : α} (h : l[r]? = some p) :
    l.Perm (p :: l.eraseIdx r) := by
  obtain ⟨hr, rfl⟩ := List.getElem?_eq_some_iff.1 h
  rw [List.eraseIdx_eq_take_drop_succ]
  conv => lhs; rw [← List.take_append_drop r l, List.drop_eq_getElem_cons hr]
  exact List.perm_middle

theorem perm_set {α : Type} {l : List α} {r : Nat} {p : α} (h : l[r]? = some p) (q : α) :
    (l.set r q).Perm (q :: l.eraseIdx r) := by
  obtain ⟨hr, rfl⟩ := List.getElem?_eq_some_iff.1 h
  have := perm_eraseIdx (l := l.set r q) (r := r) (p := q) (by simp [hr])
  rwa [List.eraseIdx_set_eq] at this

/-- The test of the lower bound either finds an entry or not. -/
theorem MInv.find_any (lt eq : K → K → Bool) (h : MInv w m v xs) (k : K) :
    ∃ r, r ≤ xs.length ∧
      (VMap.find lt eq k v m = .ok (none, r) ∨
        ∃ p, xs[r]? = some p ∧ eq p.1 k = true ∧ VMap.find lt eq k v m = .ok (some p, r)) := by
  obtain ⟨cap, h⟩ := h
  obtain ⟨r, he, hle⟩ := lowerBoundBy_any xs (fun p : K × V => lt p.1 k)
  refine ⟨r, hle, ?_⟩
  simp only [VMap.find, VMap.lowerBound, h.slice, Exec.ok_bind, he, h.len]
  by_cases hr : r < xs.length
  · obtain ⟨p, hp⟩ : ∃ p, xs[r]? = some p := ⟨xs[r], by simp [hr]⟩
    have hin : VMap.index r v m = .ok p := MInv.index ⟨cap, h⟩ hp
    simp only [hr, if_true, hin, Exec.ok_bind]
    cases hk : eq p.1 k with
    | false => exact .inl (by simp)
    | true => exact .inr ⟨p, hp, hk, by simp⟩
  · exact .inl (by simp [hr])

/-- One call, whatever the comparator and `==`. -/
theorem MInv.step_any (R : RawAlloc (K × V)) (lt eq : K → K → Bool) (nd : Bool) (op : MapOp K V)
    (h : MInv w m v xs) :
    ∃ o v' m' ys d, VMap.step (defaultAllocator R) lt eq nd op v m = .ok (o, v', m') ∧
      MInv w m' v' ys ∧ Honest op o xs ys d := by
  have hfind := fun k => h.find_any lt eq k
  cases op with
  | insert k x =>
    obtain ⟨r, hr, hf | ⟨p, hp, _, hf⟩⟩ := hfind k
    · obtain ⟨v', m', he, hi⟩ := h.insertAt (R := R) hr (k, x)
      exact ⟨_, v', m', _, _, by simp [VMap.step, VMap.insert, hf, he], hi,
        .insertNew (take_cons_drop_perm ..)⟩
    · obtain ⟨m', he, hi⟩ := h.setAt (List.getElem?_eq_some_iff.1 hp).1 (p.1, x)
      exact ⟨_, v, m', _, _, by simp [VMap.step, VMap.insert, hf, he], hi,
        .insertOld (perm_eraseIdx hp) (perm_set hp _)⟩
  | remove k =>
    obtain ⟨r, hr, hf | ⟨p, hp, _, hf⟩⟩ := hfind k
    · exact ⟨_, v, m, xs, _, by simp [VMap.step, VMap.remove, VMap.removeEntry, hf], h,
        .removeNone (.refl _)⟩
    · obtain ⟨v', m', he, hi⟩ := h.removeAt (List.getElem?_eq_some_iff.1 hp).1
      rw [hp] at he
      exact ⟨_, v', m', _, _, by simp [VMap.step, VMap.remove, VMap.removeEntry, hf, he], hi,
        .removeSome (perm_eraseIdx hp)⟩
  | removeEntry k =>
    obtain ⟨r, hr, hf | ⟨p, hp, _, hf⟩⟩ := hfind k
    · exact ⟨_, v, m, xs, _, by simp [VMap.step, VMap.removeEntry, hf], h,
        .removeEntryNone (.refl _)⟩
    · obtain ⟨v', m', he, hi⟩ := h.removeAt (List.getElem?_eq_some_iff.1 hp).1
      rw [hp] at he
      exact ⟨_, v', m', _, _, by simp [VMap.step, VMap.removeEntry, hf, he], hi,
        .removeEntrySome (perm_eraseIdx hp)⟩
  | get k =>
    obtain ⟨r, hr, hf | ⟨p, hp, _, hf⟩⟩ := hfind k
    · exact ⟨_, v, m, xs, _, by simp [VMap.step, VMap.get, hf], h, .getNone (.refl _)⟩
    · exact ⟨_, v, m, xs, _, by simp [VMap.step, VMap.get, hf], h,
        .getSome (.refl _) (List.mem_of_getElem? hp)⟩
  | modify k f =>
    obtain ⟨r, hr, hf | ⟨p, hp, _, hf⟩⟩ := hfind k
    · exact ⟨_, v, m, xs, _, by simp [VMap.step, VMap.modify, hf], h, .modifyNone (.refl _)⟩
    · obtain ⟨m', he, hi⟩ := h.setAt (List.getElem?_eq_some_iff.1 hp).1 (p.1, f p.2)
      exact ⟨_, v, m', _, _, by simp [VMap.step, VMap.modify, hf, he], hi,
        .modifySome (perm_eraseIdx hp) (perm_set hp _)⟩
  | contains k =>
    obtain ⟨r, hr, hf | ⟨p, hp, _, hf⟩⟩ := hfind k
    · exact ⟨_, v, m, xs, _, by simp [VMap.step, VMap.containsKey, VMap.get, hf]; rfl, h,
        .contains (.refl _) (by simp)⟩
    · exact ⟨_, v, m, xs, _, by simp [VMap.step, VMap.containsKey, VMap.get, hf]; rfl, h,
        .contains (.refl _) (fun _ e => by simp [e] at hp)⟩
  | entry k f x =>
    obtain ⟨r, hr, hf | ⟨p, hp, _, hf⟩⟩ := hfind k
    · obtain ⟨v', m', he, hi⟩ := h.insertAt (R := R) hr (k, x)
      have hix : VMap.index r v' m' = .ok (k, x) := hi.index (by
        rw [List.getElem?_append_right (by simp [Nat.min_le_left])]
        simp [hr])
      exact ⟨_, v', m', _, _, by simp [VMap.step, VMap.entry, hf, he, hix], hi,
        .entryNew (take_cons_drop_perm ..)⟩
    · have hlt := (List.getElem?_eq_some_iff.1 hp).1
      obtain ⟨m', he, hi⟩ := h.setAt hlt (p.1, f p.2)
      have hix : VMap.index r v m' = .ok (p.1, f p.2) := hi.index (by simp [hlt])
      exact ⟨_, v, m', _, _, by simp [VMap.step, VMap.entry, hf, he, hix], hi,
        .entryOld (perm_eraseIdx hp) (perm_set hp _)⟩
  | entryKey k =>
    obtain ⟨r, hr, hf | ⟨p, hp, _, hf⟩⟩ := hfind k
    · exact ⟨_, v, m, xs, _, by simp [VMap.step, VMap.entryKey, hf], h,
        .entryKeyNew (.refl _)⟩
    · exact ⟨_, v, m, xs, _, by simp [VMap.step, VMap.entryKey, hf], h,
        .entryKeyOld (.refl _) (List.mem_of_getElem? hp)⟩
  | len =>
    obtain ⟨cap, h⟩ := h
    exact ⟨_, v, m, xs, _, by simp [VMap.step, h.len], ⟨cap, h⟩, .len (.refl _)⟩
  | isEmpty =>
    obtain ⟨cap, h⟩ := h
    exact ⟨_, v, m, xs, _, by simp [VMap.step, h.isEmpty]; cases xs <;> rfl, ⟨cap, h⟩, .isEmpty (.refl _)⟩
  | clear =>
    obtain ⟨cap, h⟩ := h
    obtain ⟨m', he, _, _, _, hi, _⟩ := h.clear (defaultAllocator_lawful R) nd
    exact ⟨_, _, m', [], _, by simp [VMap.step, he], ⟨_, hi⟩, .clear⟩

/-- A history of calls during which comparator and `==` change from call to call. -/
def VMap.runAny (A : Allocator (K × V)) (nd : Bool) :
    List ((K → K → Bool) × (K → K → Bool) × MapOp K V) → Vec → Mem (K × V) →
    Exec (List (MapOut K V) × Vec × Mem (K × V))
  | [], v, m => .ok ([], v, m)
  | (lt, eq, op) :: ops, v, m => do
    let (o, v, m) ← VMap.step A lt eq nd op v m
    let (os, v, m) ← VMap.runAny A nd ops v m
    .ok (o :: os, v, m)

theorem MInv.run_any (R : RawAlloc (K × V)) (nd : Bool)
    (ops : List ((K → K → Bool) × (K → K → Bool) × MapOp K V)) :
    ∀ {m : Mem (K × V)} {v : Vec} {xs : List (K × V)}, MInv w m v xs →
    ∃ os v' m' ys d, VMap.runAny (defaultAllocator R) nd ops v m = .ok (os, v', m') ∧
      MInv w m' v' ys ∧ HonestRun (ops.map fun o => o.2.2) os xs ys d := by
  induction ops with
  | nil => intro m v xs h; exact ⟨[], v, m, xs, [], rfl, h, .nil⟩
  | cons op ops ih =>
    intro m v xs h
    obtain ⟨lt, eq, op⟩ := op
    obtain ⟨o, v1, m1, ys, d, he, hi, hh⟩ := h.step_any R lt eq nd op
    obtain ⟨os, v2, m2, zs, d', he2, hi2, hh2⟩ := ih hi
    exact ⟨o :: os, v2, m2, zs, d ++ d', by simp [VMap.runAny, he, he2], hi2, .cons hh hh2⟩

end Verif
