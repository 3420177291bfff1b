import Verif.Mem
import Mathlib.Data.List.Basic

/-! Helper lemmas about the memory model. -/

set_option autoImplicit false

namespace Verif

@[simp] theorem Exec.ok_bind {α β : Type} (x : α) (f : α → Exec β) :
    ((Except.ok x : Exec α) >>= f) = f x := rfl

@[simp] theorem Exec.error_bind {α β : Type} (e : Fault) (f : α → Exec β) :
    ((Except.error e : Exec α) >>= f) = .error e := rfl

namespace Mem
variable {α : Type}

@[simp] theorem setBlock_live (m : Mem α) (b : Nat) (o : Option (Block α)) :
    (m.setBlock b o).live = Function.update m.live b o := rfl
@[simp] theorem setBlock_dropped (m : Mem α) (b : Nat) (o : Option (Block α)) :
    (m.setBlock b o).dropped = m.dropped := rfl
@[simp] theorem setBlock_allocs (m : Mem α) (b : Nat) (o : Option (Block α)) :
    (m.setBlock b o).allocs = m.allocs := rfl
@[simp] theorem setBlock_copied (m : Mem α) (b : Nat) (o : Option (Block α)) :
    (m.setBlock b o).copied = m.copied := rfl

theorem cell_loc {m : Mem α} {b o : Nat} {blk : Block α} (h : m.live b = some blk)
    (ho : o < blk.size) : m.cell (.loc b o) = .ok (blk.cells o) := by
  simp [cell, h, ho]

theorem read_loc {m : Mem α} {b o : Nat} {blk : Block α} {x : α} (h : m.live b = some blk)
    (ho : o < blk.size) (hx : blk.cells o = some x) : m.read (.loc b o) = .ok x := by
  simp [read, cell, h, ho, hx]

theorem write_loc {m : Mem α} {b o : Nat} {blk : Block α} (x : α) (h : m.live b = some blk)
    (ho : o < blk.size) : m.write (.loc b o) x =
      .ok (m.setBlock b (some { blk with cells := Function.update blk.cells o (some x) })) := by
  simp [write, h, ho]

theorem ptrAdd_loc {m : Mem α} {b o n : Nat} {blk : Block α} (h : m.live b = some blk)
    (ho : o + n ≤ blk.size) : m.ptrAdd (.loc b o) n = .ok (.loc b (o + n)) := by
  simp [ptrAdd, h, ho]

@[simp] theorem ptrAdd_null (m : Mem α) : m.ptrAdd .null 0 = .ok .null := rfl

theorem ptrSub_loc {m : Mem α} {b o n : Nat} {blk : Block α} (h : m.live b = some blk)
    (ho : n ≤ o) : m.ptrSub (.loc b o) n = .ok (.loc b (o - n)) := by
  simp [ptrSub, h, ho]

theorem copy_loc {m : Mem α} {sb so db d n : Nat} {s t : Block α}
    (hs : m.live sb = some s) (ht : m.live db = some t)
    (h1 : so + n ≤ s.size) (h2 : d + n ≤ t.size) :
    ∃ m', m.copy (.loc sb so) (.loc db d) n = .ok m' ∧
      m'.live = Function.update m.live db (some { t with
          cells := fun j => if d ≤ j ∧ j < d + n then s.cells (so + (j - d)) else t.cells j }) ∧
      m'.dropped = m.dropped ∧ m'.allocs = m.allocs ∧ m'.copied = m.copied + n := by
  refine ⟨{ m.setBlock db (some { t with
      cells := fun j => if d ≤ j ∧ j < d + n then s.cells (so + (j - d)) else t.cells j }) with
      copied := m.copied + n }, ?_, rfl, rfl, rfl, rfl⟩
  simp only [copy, hs, ht, h1, h2, and_self, if_true, setBlock_copied]

theorem readRange_loc {m : Mem α} {b : Nat} {blk : Block α} (h : m.live b = some blk) :
    ∀ (xs : List α) (o : Nat), o + xs.length ≤ blk.size →
      (∀ i, i < xs.length → blk.cells (o + i) = xs[i]?) →
      m.readRange (.loc b o) xs.length = .ok xs := by
  intro xs
  induction xs with
  | nil => intro o _ _; rfl
  | cons x xs ih =>
    intro o hsz hc
    simp only [List.length_cons] at hsz
    have h0 : blk.cells o = some x := by simpa using hc 0 (by simp)
    have hr : m.read (.loc b o) = .ok x := read_loc h (by omega) h0
    have ht : m.readRange (.loc b (o + 1)) xs.length = .ok xs := by
      apply ih
      · omega
      · intro i hi
        have := hc (i + 1) (by simpa using hi)
        simpa [Nat.add_assoc, Nat.add_comm 1 i] using this
    simp [readRange, hr, Ptr.next, ht]

theorem dropCell_true {m : Mem α} {p : Ptr} {x : α} (h : m.read p = .ok x) :
    m.dropCell true p = .ok { m with dropped := m.dropped ++ [x] } := by
  simp [dropCell, h]

@[simp] theorem dropCell_false (m : Mem α) (p : Ptr) : m.dropCell false p = .ok m := rfl

@[simp] theorem dropRange_false (m : Mem α) (p : Ptr) (n : Nat) :
    m.dropRange false p n = .ok m := by
  induction n generalizing p with
  | zero => rfl
  | succ n ih => simp [dropRange, ih]

theorem dropRange_true {b : Nat} {blk : Block α} :
    ∀ (xs : List α) (o : Nat) (m : Mem α), m.live b = some blk → o + xs.length ≤ blk.size →
      (∀ i, i < xs.length → blk.cells (o + i) = xs[i]?) →
      m.dropRange true (.loc b o) xs.length = .ok { m with dropped := m.dropped ++ xs } := by
  intro xs
  induction xs with
  | nil => intro o m _ _ _; simp [dropRange]
  | cons x xs ih =>
    intro o m h hsz hc
    simp only [List.length_cons] at hsz
    have h0 : blk.cells o = some x := by simpa using hc 0 (by simp)
    have hr : m.read (.loc b o) = .ok x := read_loc h (by omega) h0
    have := ih (o + 1) { m with dropped := m.dropped ++ [x] } h (by omega) (by
        intro i hi
        have := hc (i + 1) (by simpa using hi)
        simpa [Nat.add_assoc, Nat.add_comm 1 i] using this)
    simp [dropRange, dropCell_true hr, Ptr.next, this]

/-- Dropping a range of initialised cells: only the drop log changes. -/
theorem dropRange_ok (nd : Bool) {b : Nat} {blk : Block α} (xs : List α) (o : Nat) (m : Mem α)
    (h : m.live b = some blk) (hsz : o + xs.length ≤ blk.size)
    (hc : ∀ i, i < xs.length → blk.cells (o + i) = xs[i]?) :
    m.dropRange nd (.loc b o) xs.length =
      .ok { m with dropped := m.dropped ++ if nd then xs else [] } := by
  cases nd
  · simp
  · simpa using dropRange_true xs o m h hsz hc

/-- `clone_from_slice` over plain data. -/
theorem cloneFrom_false {b : Nat} :
    ∀ (xs : List α) (o : Nat) (m : Mem α) (blk : Block α), m.live b = some blk →
      o + xs.length ≤ blk.size →
      ∃ m', m.cloneFrom false (.loc b o) xs = .ok m' ∧
        m'.live = Function.update m.live b (some { blk with
          cells := fun j => if o ≤ j ∧ j < o + xs.length then xs[j - o]? else blk.cells j }) ∧
        m'.dropped = m.dropped ∧ m'.allocs = m.allocs ∧ m'.copied = m.copied := by
  intro xs
  induction xs with
  | nil =>
    intro o m blk h _
    refine ⟨m, rfl, ?_, rfl, rfl, rfl⟩
    have : (fun j => if o ≤ j ∧ j < o + ([] : List α).length then ([] : List α)[j - o]?
        else blk.cells j) = blk.cells := by
      funext j
      have : ¬ (o ≤ j ∧ j < o) := by omega
      simp [this]
    rw [this]
    simp [← h]
  | cons x xs ih =>
    intro o m blk h hsz
    simp only [List.length_cons] at hsz
    obtain ⟨m', hm, hl, hd, ha, hcp⟩ := ih (o + 1)
      (m.setBlock b (some { blk with cells := Function.update blk.cells o (some x) }))
      { blk with cells := Function.update blk.cells o (some x) } (by simp) (by
        show o + 1 + xs.length ≤ blk.size; omega)
    refine ⟨m', ?_, ?_, by simpa using hd, by simpa using ha, by simpa using hcp⟩
    · simp only [cloneFrom, dropCell_false, Exec.ok_bind,
        write_loc x h (show o < blk.size by omega), Ptr.next, hm]
    · rw [hl]
      simp only [setBlock_live, Function.update_idem]
      congr 3
      funext j
      by_cases hj : j = o
      · subst hj
        simp
        omega
      · by_cases h1 : o ≤ j ∧ j < o + (xs.length + 1)
        · have h2 : o + 1 ≤ j ∧ j < o + 1 + xs.length := by omega
          have h3 : j - o = (j - (o + 1)) + 1 := by omega
          simp [h1, h2, h3]
        · have h2 : ¬ (o + 1 ≤ j ∧ j < o + 1 + xs.length) := by omega
          simp [h1, h2, hj]

/-- `clone_from_slice` over values with destructors: the overwritten values are dropped, so
they must be initialised. -/
theorem cloneFrom_true {b : Nat} :
    ∀ (xs ys : List α) (o : Nat) (m : Mem α) (blk : Block α), m.live b = some blk →
      ys.length = xs.length →
      o + xs.length ≤ blk.size →
      (∀ i, i < ys.length → blk.cells (o + i) = ys[i]?) →
      ∃ m', m.cloneFrom true (.loc b o) xs = .ok m' ∧
        m'.live = Function.update m.live b (some { blk with
          cells := fun j => if o ≤ j ∧ j < o + xs.length then xs[j - o]? else blk.cells j }) ∧
        m'.dropped = m.dropped ++ ys ∧ m'.allocs = m.allocs ∧ m'.copied = m.copied := by
  intro xs
  induction xs with
  | nil =>
    intro ys o m blk h hy _ _
    have hy' : ys = [] := List.length_eq_zero_iff.1 (by simpa using hy)
    subst hy'
    refine ⟨m, rfl, ?_, by simp, rfl, rfl⟩
    have : (fun j => if o ≤ j ∧ j < o + ([] : List α).length then ([] : List α)[j - o]?
        else blk.cells j) = blk.cells := by
      funext j
      have : ¬ (o ≤ j ∧ j < o) := by omega
      simp [this]
    rw [this]
    simp [← h]
  | cons x xs ih =>
    intro ys o m blk h hy hsz hc
    cases ys with
    | nil => simp at hy
    | cons y ys =>
    simp only [List.length_cons] at hsz hy
    have h0 : blk.cells o = some y := by simpa using hc 0 (by simp)
    have hr : m.read (.loc b o) = .ok y := read_loc h (by omega) h0
    obtain ⟨m', hm, hl, hd, ha, hcp⟩ := ih ys (o + 1)
      (({ m with dropped := m.dropped ++ [y] } : Mem α).setBlock b
        (some { blk with cells := Function.update blk.cells o (some x) }))
      { blk with cells := Function.update blk.cells o (some x) } (by simp) (by omega) (by
        show o + 1 + xs.length ≤ blk.size; omega) (by
          intro i hi
          have h1 := hc (i + 1) (by simpa using hi)
          have h2 : o + 1 + i ≠ o := by omega
          simp only [Function.update, h2, dite_false]
          simpa [Nat.add_assoc, Nat.add_comm 1 i] using h1)
    refine ⟨m', ?_, ?_, by simpa using hd, by simpa using ha, by simpa using hcp⟩
    · have hw := write_loc (m := { m with dropped := m.dropped ++ [y] }) x h
        (show o < blk.size by omega)
      simp only [cloneFrom, dropCell_true hr, Exec.ok_bind, hw, Ptr.next, hm]
    · rw [hl]
      simp only [setBlock_live, Function.update_idem]
      congr 3
      funext j
      by_cases hj : j = o
      · subst hj
        simp
        omega
      · by_cases h1 : o ≤ j ∧ j < o + (xs.length + 1)
        · have h2 : o + 1 ≤ j ∧ j < o + 1 + xs.length := by omega
          have h3 : j - o = (j - (o + 1)) + 1 := by omega
          simp [h1, h2, h3]
        · have h2 : ¬ (o + 1 ≤ j ∧ j < o + 1 + xs.length) := by omega
          simp [h1, h2, hj]

end Mem

/-- What the containers need from an allocator.  `fits b blk n`: block `b` with this size and
origin may be freed as `n` elements.  `keeps b`: freeing `b` is a no-op (inline storage).
`init blk n`: what is known about the contents of a block fresh from `alloc n`. -/
structure Lawful {α : Type} (A : Allocator α) (fits : Nat → Nat → Region → Nat → Prop)
    (keeps : Nat → Prop) (init : Block α → Nat → Prop) : Prop where
  alloc_ok : ∀ (n : Nat) (m : Mem α), 0 < n → (∀ b, keeps b → m.live b ≠ none) →
    ∃ b blk m', A.alloc n m = .ok (.loc b 0, m') ∧ m.live b = none ∧
      m'.live = Function.update m.live b (some blk) ∧ fits b blk.size blk.region n ∧
      n ≤ blk.size ∧ ¬ keeps b ∧ init blk n ∧
      m'.dropped = m.dropped ∧ m'.allocs = m.allocs + 1 ∧ m'.copied = m.copied
  dealloc_free : ∀ (b n : Nat) (m : Mem α) (blk : Block α), m.live b = some blk →
    fits b blk.size blk.region n → ¬ keeps b →
    ∃ m', A.dealloc (.loc b 0) n m = .ok m' ∧ m'.live = Function.update m.live b none ∧
      m'.dropped = m.dropped ∧ m'.allocs = m.allocs ∧ m'.copied = m.copied
  dealloc_keep : ∀ (b n : Nat) (m : Mem α) (blk : Block α), m.live b = some blk →
    fits b blk.size blk.region n → keeps b → A.dealloc (.loc b 0) n m = .ok m

/-- Layout rule of `DefaultAllocator`: freed with exactly the allocated size. -/
def defaultFits : Nat → Nat → Region → Nat → Prop :=
  fun _ size region n => region = .heap ∧ size = n

theorem defaultAllocator_lawful {α : Type} (R : RawAlloc α) :
    Lawful (defaultAllocator R) defaultFits (fun _ => False)
      (fun blk _ => blk.cells = fun _ => none) where
  alloc_ok := by
    intro n m hn _
    refine ⟨R.pick m n, ⟨n, .heap, fun _ => none⟩, (R.alloc n m).2, ?_, R.fresh m n, ?_,
      ⟨rfl, rfl⟩, Nat.le_refl _, not_false, rfl, rfl, rfl, rfl⟩
    · have : n ≠ 0 := by omega
      simp [defaultAllocator, this, RawAlloc.alloc]
    · rfl
  dealloc_free := by
    intro b n m blk h hf _
    refine ⟨m.setBlock b none, ?_, rfl, rfl, rfl, rfl⟩
    simp [defaultAllocator, rawDealloc, h, hf.1, hf.2]
  dealloc_keep := by
    intro b n m blk _ _ h
    exact h.elim

end Verif
