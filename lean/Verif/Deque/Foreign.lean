import Verif.Deque.Iter

/-!
# C++ reading a deque that Rust wrote

`Deque` and `CompatIter` have the fields of EASTL's `DequeBase` and `DequeIterator`
(src/deque/mod.rs:14-24, src/deque/iter.rs:6-53): `mpPtrArray`, `mnPtrArraySize`, `mItBegin`,
`mItEnd`; `mpCurrent`, `mpBegin`, `mpEnd`, `mpCurrentArrayPtr`.  These are the functions of EASTL's
`deque.h` that C++ code reads a deque with.  They are not part of /repo; they say what the memory
Rust leaves means to its other reader.
-/

set_option autoImplicit false

namespace Verif
open Spec

variable {α : Type}

/-- C++ `DequeIterator::operator++`: `if (++mpCurrent == mpEnd) { mpBegin = *++mpCurrentArrayPtr;
mpEnd = mpBegin + kDequeSubarraySize; mpCurrent = mpBegin; }`. -/
def DIt.cxxInc (E : DEnv α) (m : DMem α) (it : DIt) : Exec DIt := do
  let c ← m.t.ptrAdd it.current 1
  if c = it.last then do
    let a ← m.p.ptrAdd it.arr 1
    let b ← m.p.read a
    let e ← m.t.ptrAdd b E.S
    .ok ⟨b, b, e, a⟩
  else .ok { it with current := c }

/-- C++ `DequeIterator::operator--`: `if (mpCurrent == mpBegin) { mpBegin = *--mpCurrentArrayPtr;
mpEnd = mpBegin + kDequeSubarraySize; mpCurrent = mpEnd; } --mpCurrent;`. -/
def DIt.cxxDec (E : DEnv α) (m : DMem α) (it : DIt) : Exec DIt := do
  let it ← (if it.current = it.first then do
      let a ← m.p.ptrSub it.arr 1
      let b ← m.p.read a
      let e ← m.t.ptrAdd b E.S
      .ok ⟨e, b, e, a⟩
    else .ok it : Exec DIt)
  let c ← m.t.ptrSub it.current 1
  .ok { it with current := c }

/-- C++ `for (; it != end; ++it)`: the elements visited; `!=` compares `mpCurrent`.  The first
argument bounds the number of rounds. -/
def DIt.cxxWalk (E : DEnv α) (m : DMem α) (e : DIt) : Nat → DIt → Exec (List α)
  | 0, _ => .error .ub
  | fuel + 1, it =>
    if it.current = e.current then .ok []
    else do
      let x ← m.t.read it.current
      let it ← it.cxxInc E m
      let xs ← DIt.cxxWalk E m e fuel it
      .ok (x :: xs)

/-- C++ `while (it != begin) { --it; … }` (a loop over `rbegin()` to `rend()`). -/
def DIt.cxxWalkBack (E : DEnv α) (m : DMem α) (b : DIt) : Nat → DIt → Exec (List α)
  | 0, _ => .error .ub
  | fuel + 1, it =>
    if it.current = b.current then .ok []
    else do
      let it ← it.cxxDec E m
      let x ← m.t.read it.current
      let xs ← DIt.cxxWalkBack E m b fuel it
      .ok (x :: xs)

/-- Pointer difference, possibly negative. -/
def Ptr.diff (p q : Ptr) : Exec Int :=
  match p, q with
  | .loc b i, .loc b' i' => if b = b' then .ok (i - i' : Int) else .error .ub
  | _, _ => .error .ub

/-- C++ `deque::size`: `mItEnd - mItBegin`, and `DequeIterator::operator-`:
`kDequeSubarraySize * ((mpCurrentArrayPtr - it.mpCurrentArrayPtr) - 1) + (mpCurrent - mpBegin) +
(it.mpEnd - it.mpCurrent)`. -/
def Deque.cxxSize (E : DEnv α) (d : Deque) : Exec Int := do
  let n ← d.e.arr.diff d.b.arr
  let x ← d.e.current.diff d.e.first
  let y ← d.b.last.diff d.b.current
  .ok (E.S * (n - 1) + x + y)

/-- C++ `deque::operator[]`: `pos = (mItBegin.mpCurrent - mItBegin.mpBegin) + n;
index = (16777216 + pos) / kDequeSubarraySize - 16777216 / kDequeSubarraySize;
return *(*(mItBegin.mpCurrentArrayPtr + index) + (pos - index * kDequeSubarraySize))`. -/
def Deque.cxxIndex (E : DEnv α) (d : Deque) (n : Nat) (m : DMem α) : Exec α := do
  let o ← d.b.current.offsetFrom d.b.first
  let pos := o + n
  let index := (16777216 + pos) / E.S - 16777216 / E.S
  let a ← m.p.ptrAdd d.b.arr index
  let b ← m.p.read a
  let p ← m.t.ptrAdd b (pos - index * E.S)
  m.t.read p

section
variable {E : DEnv α} {wt : World α} {wp : World Ptr} {m : DMem α} {d : Deque}
  {pb lo bo : Nat} {bl : List Nat} {xs : List α}

theorem DRep.cxxInc (h : DRep E wt wp m d pb lo bo bl xs) {i : Nat} (hi : i < xs.length) :
    (itAt E.S pb lo bl (bo + i)).cxxInc E m = .ok (itAt E.S pb lo bl (bo + (i + 1))) := by
  have hS := h.S_pos
  have hq := h.idx_lt (k := i) (by omega)
  have hq1 : (bo + i + 1) / E.S < bl.length := h.idx_lt (k := i + 1) (by omega)
  have hadd := h.t.ptrAdd hq (o := (bo + i) % E.S) (n := 1) (by have := Nat.mod_lt (bo + i) hS; omega)
  unfold DIt.cxxInc
  simp only [itAt, cellPtr, hadd, Exec.ok_bind, Ptr.loc.injEq, true_and, ← Nat.add_assoc]
  rcases div_mod_step E.S (bo + i) hS with ⟨c1, c2, c3⟩ | ⟨c1, c2, c3⟩
  · rw [if_neg (by omega), c2, c3]
  · rw [if_pos c1, h.p.ptrAdd (by have := h.p.fits; rw [c2] at hq1; omega)]
    have hrd := h.p.cells _ hq1
    rw [c2, ← Nat.add_assoc] at hrd
    have := h.t.ptrAdd hq1 (o := 0) (n := E.S) (by omega)
    rw [c2] at this
    simp only [Exec.ok_bind, hrd, this, c2, c3, Nat.zero_add]
    simp only [Nat.add_assoc]

theorem DRep.cxxDec (h : DRep E wt wp m d pb lo bo bl xs) {i : Nat} (hi : i < xs.length) :
    (itAt E.S pb lo bl (bo + (i + 1))).cxxDec E m = .ok (itAt E.S pb lo bl (bo + i)) := by
  have hS := h.S_pos
  have hq := h.idx_lt (k := i) (by omega)
  have hq1 : (bo + i + 1) / E.S < bl.length := h.idx_lt (k := i + 1) (by omega)
  unfold DIt.cxxDec
  simp only [itAt, cellPtr, Ptr.loc.injEq, true_and, ← Nat.add_assoc]
  rcases div_mod_step E.S (bo + i) hS with ⟨c1, c2, c3⟩ | ⟨c1, c2, c3⟩
  · rw [if_neg (by omega)]
    have hsub := h.t.ptrSub hq1 (o := (bo + i + 1) % E.S) (n := 1)
      (by have := Nat.mod_lt (bo + i) hS; omega)
    rw [c2, c3] at hsub
    simp only [Exec.ok_bind, c2, c3, hsub, Nat.add_sub_cancel]
  · have hsub : m.p.ptrSub (.loc pb (lo + ((bo + i) / E.S + 1))) 1 =
        .ok (.loc pb (lo + (bo + i) / E.S)) := by
      rw [← Nat.add_assoc, h.p.ptrSub (Nat.le_add_left _ _), Nat.add_sub_cancel]
    have hrd := h.p.cells _ hq
    have h1 := h.t.ptrAdd hq (o := 0) (n := E.S) (by omega)
    have h2 := h.t.ptrSub hq (o := E.S) (n := 1) (by omega)
    rw [if_pos c3, c2]
    simp only [hsub, Exec.ok_bind, hrd, h1, Nat.zero_add, h2]
    rw [show E.S - 1 = (bo + i) % E.S by omega]

theorem DRep.cxxWalk (h : DRep E wt wp m d pb lo bo bl xs) :
    ∀ (n i fuel : Nat), i + n = xs.length → n < fuel →
      DIt.cxxWalk E m d.e fuel (itAt E.S pb lo bl (bo + i)) = .ok (xs.drop i) := by
  intro n
  induction n with
  | zero =>
    intro i fuel hi hf
    obtain ⟨f, rfl⟩ : ∃ f, fuel = f + 1 := ⟨fuel - 1, by omega⟩
    have : xs.drop i = [] := List.drop_eq_nil_of_le (by omega)
    rw [DIt.cxxWalk, if_pos (by rw [h.e, show i = xs.length by omega]), this]
  | succ n ih =>
    intro i fuel hi hf
    obtain ⟨f, rfl⟩ : ∃ f, fuel = f + 1 := ⟨fuel - 1, by omega⟩
    have hlt : i < xs.length := by omega
    have hne : ¬ cellPtr E.S bl (bo + i) = cellPtr E.S bl (bo + xs.length) := by
      rw [cellPtr_inj h.t.nodup (h.idx_lt (by omega)) (h.idx_lt (Nat.le_refl _))]
      omega
    have hrd : m.t.read (itAt E.S pb lo bl (bo + i)).current = .ok xs[i] := h.head? hlt
    rw [DIt.cxxWalk, if_neg (by rw [h.e]; exact hne), h.cxxInc hlt, hrd]
    simp only [Exec.ok_bind]
    rw [ih (i + 1) f (by omega) (by omega), List.drop_eq_getElem_cons hlt]
    rfl

theorem DRep.cxxWalkBack (h : DRep E wt wp m d pb lo bo bl xs) :
    ∀ (i fuel : Nat), i ≤ xs.length → i < fuel →
      DIt.cxxWalkBack E m d.b fuel (itAt E.S pb lo bl (bo + i)) = .ok (xs.take i).reverse := by
  intro i
  induction i with
  | zero =>
    intro fuel hi hf
    obtain ⟨f, rfl⟩ : ∃ f, fuel = f + 1 := ⟨fuel - 1, by omega⟩
    rw [DIt.cxxWalkBack, if_pos (by rw [h.b]; rfl)]
    simp
  | succ i ih =>
    intro fuel hi hf
    obtain ⟨f, rfl⟩ : ∃ f, fuel = f + 1 := ⟨fuel - 1, by omega⟩
    have hlt : i < xs.length := by omega
    have hne : ¬ cellPtr E.S bl (bo + (i + 1)) = cellPtr E.S bl bo := by
      have h0 := h.idx_lt (k := 0) (by omega)
      rw [Nat.add_zero] at h0
      rw [cellPtr_inj h.t.nodup (h.idx_lt (by omega)) h0]
      omega
    have hrd : m.t.read (itAt E.S pb lo bl (bo + i)).current = .ok xs[i] := h.head? hlt
    rw [DIt.cxxWalkBack, if_neg (by rw [h.b]; exact hne), h.cxxDec hlt]
    simp only [Exec.ok_bind, hrd]
    rw [ih f (by omega) (by omega), ← List.take_append_getElem hlt]
    simp only [Exec.ok_bind, List.reverse_append, List.reverse_singleton, List.singleton_append]

theorem DRep.cxxSize (h : DRep E wt wp m d pb lo bo bl xs) :
    d.cxxSize E = .ok (xs.length : Int) := by
  unfold Deque.cxxSize
  rw [h.b, h.e]
  simp only [itAt, cellPtr, Ptr.diff, if_true, Exec.ok_bind, h.bo_div, h.bo_mod]
  have h1 := Nat.div_add_mod (bo + xs.length) E.S
  generalize (bo + xs.length) / E.S = q at *
  generalize (bo + xs.length) % E.S = r at *
  congr 1
  have h2 : (E.S : Int) * q + r = bo + xs.length := by exact_mod_cast h1
  push_cast
  have : (E.S : Int) * ((lo + q : Int) - (lo + 0) - 1) = E.S * q - E.S := by
    rw [show (lo + q : Int) - (lo + 0) - 1 = q - 1 by omega, Int.mul_sub, Int.mul_one]
  rw [this]
  omega

theorem DRep.cxxIndex (h : DRep E wt wp m d pb lo bo bl xs) (hS : E.S ∣ 16777216) (n : Nat)
    {x : α} (hx : xs[n]? = some x) : d.cxxIndex E n m = .ok x := by
  obtain ⟨hn, rfl⟩ := List.getElem?_eq_some_iff.1 hx
  have hpos := h.S_pos
  have hq := h.idx_lt (k := n) (by omega)
  have hidx : (16777216 + (bo + n)) / E.S - 16777216 / E.S = (bo + n) / E.S := by
    obtain ⟨k, hk⟩ := hS
    rw [hk, Nat.add_comm, Nat.add_mul_div_left _ _ hpos, Nat.mul_div_cancel_left _ hpos,
      Nat.add_sub_cancel]
  unfold Deque.cxxIndex
  rw [h.b]
  have hmod : bo + n - (bo + n) / E.S * E.S = (bo + n) % E.S := by
    have := Nat.div_add_mod (bo + n) E.S
    rw [Nat.mul_comm] at this
    omega
  have hoff : (cellPtr E.S bl bo).offsetFrom (.loc (bl.getD 0 0) 0) = .ok bo := by
    simp [cellPtr, Ptr.offsetFrom, h.bo_mod, h.bo_div]
  have h1 := h.p.ptrAdd (o := lo) (n := (bo + n) / E.S) (by have := h.p.fits; omega)
  have h2 := h.t.ptrAdd hq (o := 0) (n := (bo + n) % E.S)
    (by have := Nat.mod_lt (bo + n) hpos; omega)
  simp only [itAt, h.bo_div, hoff, Exec.ok_bind, hidx, hmod, Nat.add_zero, h1, h.p.cells _ hq, h2,
    Nat.zero_add]
  exact h.head? hn

end

end Verif
