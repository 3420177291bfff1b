import Verif.VectorMap.Any
import Mathlib.Data.Nat.Log

/-!
# The comparisons a `VectorMap` makes

The definitions of `VectorMap/Model.lean` again, returning also the list of the calls of the
comparator and of `==`; `lowerLoopT_fst` to `findT_fst` say that they are the same functions
otherwise.
-/

set_option autoImplicit false

namespace Verif
open Spec

/-- `lowerLoop` (superslice 1.0, used at src/vector_map/mod.rs:190-200) with the elements given to
the closure, in order. -/
def lowerLoopT {α : Type} (xs : List α) (less : α → Bool) : Nat → Nat → Nat →
    Exec (Nat × List α)
  | 0, _, _ => .error .ub
  | fuel + 1, size, base =>
    if 1 < size then do
      let half := size / 2
      let mid := base + half
      let x ← sliceAt xs mid
      let (r, l) ← lowerLoopT xs less fuel (size - half) (if less x then mid else base)
      .ok (r, x :: l)
    else .ok (base, [])

/-- `lowerBoundBy` (superslice 1.0) with the elements given to the closure, in order. -/
def lowerBoundByT {α : Type} (xs : List α) (less : α → Bool) : Exec (Nat × List α) :=
  if xs.length = 0 then .ok (0, []) else do
    let (base, l) ← lowerLoopT xs less xs.length xs.length 0
    let x ← sliceAt xs base
    .ok (if less x then base + 1 else base, l ++ [x])

namespace VMap

variable {K V : Type}

/-- What a search asked of the key type: calls `C::compare(a, b)`, and tests `a == b`. -/
structure Asked (K : Type) where
  compares : List (K × K)
  equals : List (K × K)

/-- `VMap.find` (src/vector_map/mod.rs:190-200 and 79, 100-108, 120-128, 145, 182) with the calls
of `C::compare` and of `==`. -/
def findT (lt eq : K → K → Bool) (key : K) (v : Vec) (m : Mem (K × V)) :
    Exec ((Option (K × V) × Nat) × Asked K) := do
  let xs ← v.asSlice m
  let (i, l) ← lowerBoundByT xs (fun p => lt p.1 key)
  let cmps := l.map fun p => (p.1, key)
  let n ← v.len
  if i < n then do
    let p ← index i v m
    .ok ((if eq p.1 key then some p else none, i), ⟨cmps, [(p.1, key)]⟩)
  else .ok ((none, i), ⟨cmps, []⟩)

end VMap

variable {α K V : Type}

theorem lowerLoopT_fst (xs : List α) (less : α → Bool) : ∀ fuel size base : Nat,
    (lowerLoopT xs less fuel size base).map Prod.fst = lowerLoop xs less fuel size base := by
  intro fuel
  induction fuel with
  | zero => intro size base; rfl
  | succ fuel ih =>
    intro size base
    unfold lowerLoopT lowerLoop
    by_cases hs : 1 < size
    · rw [if_pos hs, if_pos hs]
      cases hx : sliceAt xs (base + size / 2) with
      | error e => simp [Except.map, hx]
      | ok x =>
        simp only [hx, Exec.ok_bind]
        rw [← ih]
        cases lowerLoopT xs less fuel (size - size / 2)
          (if less x = true then base + size / 2 else base) with
        | error e => rfl
        | ok r => rfl
    · rw [if_neg hs, if_neg hs]; rfl

theorem lowerBoundByT_fst (xs : List α) (less : α → Bool) :
    (lowerBoundByT xs less).map Prod.fst = lowerBoundBy xs less := by
  unfold lowerBoundByT lowerBoundBy
  by_cases h0 : xs.length = 0
  · rw [if_pos h0, if_pos h0]; rfl
  · rw [if_neg h0, if_neg h0, ← lowerLoopT_fst]
    cases lowerLoopT xs less xs.length xs.length 0 with
    | error e => rfl
    | ok r =>
      simp only [Exec.ok_bind, Except.map]
      cases sliceAt xs r.1 <;> rfl

theorem findT_fst (lt eq : K → K → Bool) (key : K) (v : Vec) (m : Mem (K × V)) :
    (VMap.findT lt eq key v m).map Prod.fst = VMap.find lt eq key v m := by
  unfold VMap.findT VMap.find VMap.lowerBound
  cases v.asSlice m with
  | error e => rfl
  | ok xs =>
    simp only [Exec.ok_bind]
    rw [← lowerBoundByT_fst]
    cases lowerBoundByT xs (fun p => lt p.1 key) with
    | error e => rfl
    | ok r =>
      simp only [Exec.ok_bind, Except.map]
      cases v.len with
      | error e => rfl
      | ok n =>
        simp only [Exec.ok_bind]
        by_cases hi : r.1 < n
        · rw [if_pos hi, if_pos hi]
          cases VMap.index r.1 v m <;> rfl
        · rw [if_neg hi, if_neg hi]

theorem lowerLoopT_cost {xs : List α} (less : α → Bool) : ∀ fuel size base : Nat, size ≤ fuel →
    1 ≤ size → base + size ≤ xs.length →
    ∃ b l, lowerLoopT xs less fuel size base = .ok (b, l) ∧ b < xs.length ∧
      l.length = Nat.clog 2 size ∧ ∀ x ∈ l, x ∈ xs := by
  intro fuel
  induction fuel with
  | zero => intro size base h1 h2; omega
  | succ fuel ih =>
    intro size base hf hs hb
    unfold lowerLoopT
    by_cases h : 1 < size
    · rw [if_pos h]
      obtain ⟨x, hx⟩ : ∃ x, xs[base + size / 2]? = some x :=
        ⟨xs[base + size / 2]'(by omega), by simp⟩
      obtain ⟨b, l, he, hb', hl, hm⟩ := ih (size - size / 2)
        (if less x then base + size / 2 else base) (by omega) (by omega) (by split <;> omega)
      refine ⟨b, x :: l, ?_, hb', ?_, ?_⟩
      · simp [sliceAt, hx, he]
      · rw [List.length_cons, hl, Nat.clog_of_two_le (by omega) h]
        congr 2
        omega
      · intro y hy
        rcases List.mem_cons.1 hy with rfl | hy
        · exact List.mem_of_getElem? hx
        · exact hm y hy
    · have : size = 1 := by omega
      subst this
      exact ⟨base, [], by simp, by omega, by simp, by simp⟩

theorem lowerBoundByT_cost (xs : List α) (less : α → Bool) :
    ∃ r l, lowerBoundByT xs less = .ok (r, l) ∧
      l.length = (if xs.length = 0 then 0 else Nat.clog 2 xs.length + 1) ∧
      ∀ x ∈ l, x ∈ xs := by
  unfold lowerBoundByT
  by_cases h0 : xs.length = 0
  · exact ⟨0, [], by simp [h0], by simp [h0], by simp⟩
  · obtain ⟨b, l, he, hb, hl, hm⟩ := lowerLoopT_cost (xs := xs) less xs.length xs.length 0
      (Nat.le_refl _) (by omega) (by omega)
    have hx : xs[b]? = some xs[b] := by simp
    refine ⟨if less xs[b] then b + 1 else b, l ++ [xs[b]], ?_, by simp [hl, h0], ?_⟩
    · simp [h0, he, sliceAt, hx]
    · intro y hy
      rcases List.mem_append.1 hy with hy | hy
      · exact hm y hy
      · rw [List.mem_singleton.1 hy]; exact List.getElem_mem hb

theorem MInv.findT {w : Nat → Option (Block (K × V))} {m : Mem (K × V)} {v : Vec}
    {xs : List (K × V)} (lt eq : K → K → Bool) (h : MInv w m v xs) (k : K) :
    ∃ r q, VMap.find lt eq k v m = .ok r ∧ VMap.findT lt eq k v m = .ok (r, q) ∧
      q.compares.length = (if xs.length = 0 then 0 else Nat.clog 2 xs.length + 1) ∧
      q.equals.length ≤ 1 ∧
      ∀ p ∈ q.compares ++ q.equals, p.1 ∈ xs.map Prod.fst ∧ p.2 = k := by
  have hfst := findT_fst lt eq k v m
  obtain ⟨cap, h⟩ := h
  obtain ⟨r, l, he, hl, hm⟩ := lowerBoundByT_cost xs (fun p : K × V => lt p.1 k)
  have hcmp : ∀ p ∈ l.map (fun p => (p.1, k)), p.1 ∈ xs.map Prod.fst ∧ p.2 = k := by
    intro p hp
    obtain ⟨x, hx, rfl⟩ := List.mem_map.1 hp
    exact ⟨List.mem_map_of_mem (hm x hx), rfl⟩
  by_cases hr : r < xs.length
  · have hx : xs[r]? = some xs[r] := by simp
    have hT : VMap.findT lt eq k v m = .ok
        ((if eq xs[r].1 k then some xs[r] else none, r), ⟨l.map fun p => (p.1, k), [(xs[r].1, k)]⟩) := by
      simp [VMap.findT, h.slice, he, h.len, hr, VMap.index]
    rw [hT] at hfst
    refine ⟨_, _, hfst.symm, hT, by simpa using hl, by simp, ?_⟩
    intro p hp
    rcases List.mem_append.1 hp with hp | hp
    · exact hcmp p hp
    · rw [List.mem_singleton.1 hp]
      exact ⟨List.mem_map_of_mem (List.getElem_mem hr), rfl⟩
  · have hT : VMap.findT lt eq k v m = .ok ((none, r), ⟨l.map fun p => (p.1, k), []⟩) := by
      simp [VMap.findT, h.slice, he, h.len, hr]
    rw [hT] at hfst
    refine ⟨_, _, hfst.symm, hT, by simpa using hl, by simp, ?_⟩
    intro p hp
    exact hcmp p (by simpa using hp)

end Verif
