import Verif.Deque.LimitsProofs
import Verif.Spec.Refusals
import Verif.Unwind.Model

/-! The deque with an allocator that panics.

Each call comes with the number of requests for memory the allocator grants it; the next request
panics, and the program catches the panic.  The functions that allocate are modelled again with the
state such a panic leaves.  Sizes are unbounded numbers, as in `Verif.Deque.Model`. -/

set_option autoImplicit false

namespace Verif
open Spec

variable {α : Type}

/-- `Drop` (src/deque/mod.rs:436-457) of a deque whose elements have `size` bytes, while a panic
unwinds: `offset_from` (src/deque/iter.rs:224-237) panics if there are no bytes, which aborts. -/
def Deque.dropHalf (E : DEnv α) (size : Nat) (d : Deque) (m : DMem α) :
    Exec (Ends (Deque × DMem α)) :=
  if size = 0 then .ok .aborts
  else do
    let m ← d.drop E m
    .ok (.unwinds (d, m))

/-- `new`/`new_in` with `init` (src/deque/mod.rs:27-29, 101-111, 310-331) for elements of `size`
bytes.  `allocate_raw_aligned` panics if no bytes are asked for (src/allocator.rs:104).  A panic
unwinds through `new_in`, which drops the deque: the size of its pointer array is already 8 and
everything else is still null. -/
def Deque.newInG (E : DEnv α) (size g : Nat) (m : DMem α) : Exec (Ends (Deque × DMem α)) :=
  if g = 0 then (⟨.null, 8, .null, .null⟩ : Deque).dropHalf E size m
  else do
    let (a, m) ← m.allocPtrs E 8
    let p ← m.p.fillNull a 8
    let m := { m with p := p }
    if g = 1 ∨ E.S * size = 0 then (⟨.null, 8, .null, .null⟩ : Deque).dropHalf E size m
    else do
      let (s, m) ← m.allocSub E
      let slot ← m.p.ptrAdd a 3
      let p ← m.p.write slot s
      let m := { m with p := p }
      let b ← DIt.null.setSubarray E m slot
      let b := { b with current := b.first }
      let e ← DIt.null.setSubarray E m slot
      let e := { e with current := e.first }
      .ok (.returns (⟨a, 8, b, e⟩, m))

/-- `realloc_ptr_array` (src/deque/mod.rs:348-421): moving the pointers inside the array needs no
memory; a new array is allocated before anything changes.  Returns how many further requests are
granted, or `none` if it panicked. -/
def Deque.reallocG (E : DEnv α) (d : Deque) (m : DMem α) (addl : Nat) (front : Bool) (g : Nat) :
    Exec (Option Nat × Deque × DMem α) := do
  let unusedFront ← d.b.arr.offsetFrom d.ptrs
  let used ← (do let n ← d.e.arr.offsetFrom d.b.arr; .ok (n + 1))
  let unusedBack := d.size - unusedFront - used
  if (front = false ∧ addl ≤ unusedFront) ∨ (front = true ∧ addl ≤ unusedBack) then do
    let (d, m) ← d.realloc E m addl front
    .ok (some g, d, m)
  else if g = 0 then .ok (none, d, m)
  else do
    let (d, m) ← d.realloc E m addl front
    .ok (some (g - 1), d, m)

/-- `push_back` (src/deque/mod.rs:171-195).  The element is written to its slot before the subarray
is asked for: if that request panics, nobody drops the element, and `end_it` has not moved. -/
def Deque.pushBackG (E : DEnv α) (g : Nat) (d : Deque) (x : α) (m : DMem α) :
    Exec (Bool × Deque × DMem α) := do
  let l ← m.t.ptrSub d.e.last 1
  if d.e.current ≠ l then do
    let t ← m.t.write d.e.current x
    let c ← t.ptrAdd d.e.current 1
    .ok (true, { d with e := { d.e with current := c } }, { m with t := t })
  else do
    let lastSlot ← m.p.ptrAdd d.ptrs (d.size - 1)
    let (r, d, m) ← (if d.e.arr = lastSlot then d.reallocG E m 1 false g
      else .ok (some g, d, m))
    match r with
    | none => .ok (false, d, m.unwound E x)
    | some g => do
      let t ← m.t.write d.e.current x
      if g = 0 then .ok (false, d, { m with t := t })
      else do
        let slot ← m.p.ptrAdd d.e.arr 1
        let (s, m) ← DMem.allocSub E { m with t := t }
        let p ← m.p.write slot s
        let m := { m with p := p }
        let e ← d.e.setSubarray E m slot
        .ok (true, { d with e := { e with current := e.first } }, m)

/-- `push_front` (src/deque/mod.rs:202-226).  The element is written last. -/
def Deque.pushFrontG (E : DEnv α) (g : Nat) (d : Deque) (x : α) (m : DMem α) :
    Exec (Bool × Deque × DMem α) := do
  let (ok, d, m) ← (
    if d.b.current ≠ d.b.first then do
      let c ← m.t.ptrSub d.b.current 1
      .ok (true, { d with b := { d.b with current := c } }, m)
    else do
      let (r, d, m) ← (if d.b.arr = d.ptrs then d.reallocG E m 1 true g
        else .ok (some g, d, m))
      match r with
      | none => .ok (false, d, m)
      | some g =>
        if g = 0 then .ok (false, d, m)
        else do
          let slot ← m.p.ptrSub d.b.arr 1
          let (s, m) ← m.allocSub E
          let p ← m.p.write slot s
          let m := { m with p := p }
          let b ← d.b.setSubarray E m slot
          let c ← m.t.ptrSub b.last 1
          .ok (true, { d with b := { b with current := c } }, m))
  if ok then do
    let t ← m.t.write d.b.current x
    .ok (true, d, { m with t := t })
  else .ok (false, d, m.unwound E x)

/-- One public call: what it returned, or `none` if it panicked.  Calls that are no pushes ask for no
memory. -/
def Deque.stepG (E : DEnv α) (g : Nat) (op : DeqOp α) (d : Deque) (m : DMem α) :
    Exec (Option (Out α) × Deque × DMem α) :=
  match op with
  | .pushBack x => do
    let (ok, d, m) ← d.pushBackG E g x m
    .ok (if ok then some .unit else none, d, m)
  | .pushFront x => do
    let (ok, d, m) ← d.pushFrontG E g x m
    .ok (if ok then some .unit else none, d, m)
  | op => do
    let (o, d, m) ← d.step E op m
    .ok (some o, d, m)

/-- A history of public calls, each panic being caught. -/
def Deque.runG (E : DEnv α) : List (Nat × DeqOp α) → Deque → DMem α →
    Exec (List (Option (Out α)) × Deque × DMem α)
  | [], d, m => .ok ([], d, m)
  | (g, op) :: calls, d, m => do
    let (o, d, m) ← d.stepG E g op m
    let (os, d, m) ← Deque.runG E calls d m
    .ok (o :: os, d, m)

section
variable {E : DEnv α} {wt : World α} {wp : World Ptr} {m : DMem α} {d : Deque}
  {pb lo bo : Nat} {bl : List Nat} {xs : List α}

/-- Making room succeeds as with a working allocator, or is refused its array and changes nothing. -/
theorem DRep.reallocG (h : DRep E wt wp m d pb lo bo bl xs) (front : Bool) (g : Nat)
    {d1 : Deque} {m1 : DMem α} (hr : d.realloc E m 1 front = .ok (d1, m1)) :
    (g = 0 ∧ d.reallocG E m 1 front g = .ok (none, d, m)) ∨
    ∃ g', g ≤ g' + 1 ∧ d.reallocG E m 1 front g = .ok (some g', d1, m1) := by
  unfold Deque.reallocG
  simp only [h.unusedFront, h.usedPtrs, Exec.ok_bind, hr]
  split_ifs with c1 c2
  · exact .inr ⟨g, by omega, rfl⟩
  · exact .inl ⟨c2, rfl⟩
  · exact .inr ⟨g - 1, by omega, rfl⟩

/-- Writing to the slot behind the last element. -/
theorem DRep.scratch (h : DRep E wt wp m d pb lo bo bl xs) {t : Mem α} {x : α}
    (ht : m.t.write d.e.current x = .ok t) :
    DRep E wt wp { m with t := t } d pb lo bo bl xs ∧ t.dropped = m.t.dropped := by
  obtain ⟨t', h1, h2, h3, h4, h5⟩ := h.t.write h.S_pos (h.idx_lt (Nat.le_refl xs.length)) x
  have hcur : d.e.current = cellPtr E.S bl (bo + xs.length) := by rw [h.e]; rfl
  rw [hcur, h1] at ht
  simp only [Except.ok.injEq] at ht
  subst ht
  refine ⟨⟨h2, h.p, h.ptrs, h.b_lt, h.b, h.e, h.len, ?_⟩, h3⟩
  intro k y hk
  have hlt : k < xs.length := (List.getElem?_eq_some_iff.1 hk).1
  show t'.read _ = _
  rw [h5 _ (h.idx_lt (Nat.le_of_lt hlt)) (by omega)]
  exact h.vals k y hk

/-- `push_back`: as with a working allocator; or it panics and the element is dropped; or, if it
would have filled its subarray, it panics and the element is forgotten. -/
theorem DRep.pushBackG (h : DRep E wt wp m d pb lo bo bl xs) (g : Nat) (x : α) {d' : Deque}
    {m' : DMem α} (hp : d.pushBack E x m = .ok (d', m')) :
    d.pushBackG E g x m = .ok (true, d', m') ∨
    (g < 2 ∧ ∃ d1 m1 pb1 lo1, d.pushBackG E g x m = .ok (false, d1, m1) ∧
      DRep E wt wp m1 d1 pb1 lo1 bo bl xs ∧
      (m1.t.dropped = m.t.dropped ++ (if E.nd then [x] else []) ∨ m1.t.dropped = m.t.dropped)) := by
  unfold Deque.pushBack at hp
  unfold Deque.pushBackG
  simp only [h.lastPtr, Exec.ok_bind] at hp ⊢
  split at hp
  · rename_i hc
    left
    rw [if_pos hc]
    obtain ⟨t, ht, hp⟩ := Exec.of_bind_ok hp
    obtain ⟨c, hcc, hp⟩ := Exec.of_bind_ok hp
    simp only [Except.ok.injEq, Prod.mk.injEq] at hp
    obtain ⟨rfl, rfl⟩ := hp
    simp only [ht, hcc, Exec.ok_bind]
  · rename_i hc
    rw [if_neg hc]
    simp only [h.lastSlot, Exec.ok_bind] at hp ⊢
    obtain ⟨⟨d1, m1⟩, hr, hp⟩ := Exec.of_bind_ok hp
    have hroom : (g = 0 ∧ (if d.e.arr = .loc pb (d.size - 1) then d.reallocG E m 1 false g
          else .ok (some g, d, m)) = .ok (none, d, m)) ∨
        ∃ g' pb1 lo1, g ≤ g' + 1 ∧
          (if d.e.arr = .loc pb (d.size - 1) then d.reallocG E m 1 false g
            else .ok (some g, d, m)) = .ok (some g', d1, m1) ∧
          DRep E wt wp m1 d1 pb1 lo1 bo bl xs ∧ m1.t = m.t := by
      by_cases he : d.e.arr = .loc pb (d.size - 1)
      · rw [if_pos he] at hr ⊢
        obtain ⟨d2, p, pb2, lo2, e1, e2, _⟩ := h.realloc false (by simpa using h.atLastSlot.1 he)
        rw [e1] at hr
        simp only [Except.ok.injEq, Prod.mk.injEq] at hr
        obtain ⟨rfl, rfl⟩ := hr
        rcases h.reallocG false g e1 with ⟨hg, f⟩ | ⟨g', hg, f⟩
        · exact .inl ⟨hg, f⟩
        · exact .inr ⟨g', pb2, lo2, hg, f, e2, rfl⟩
      · rw [if_neg he] at hr ⊢
        simp only [Except.ok.injEq, Prod.mk.injEq] at hr
        obtain ⟨rfl, rfl⟩ := hr
        exact .inr ⟨g, pb, lo, by omega, rfl, h, rfl⟩
    rcases hroom with ⟨hg, f⟩ | ⟨g', pb1, lo1, hg, f, hrep, hmt⟩
    · right
      refine ⟨by omega, d, m.unwound E x, pb, lo, ?_, h.unwound x, .inl rfl⟩
      simp only [f, Exec.ok_bind]
    · rw [f]
      obtain ⟨t, ht, hp⟩ := Exec.of_bind_ok hp
      simp only [Exec.ok_bind, ht]
      by_cases h0 : g' = 0
      · right
        obtain ⟨s1, s2⟩ := hrep.scratch ht
        refine ⟨by omega, d1, { m1 with t := t }, pb1, lo1, by rw [if_pos h0], s1, .inr ?_⟩
        rw [← hmt]; exact s2
      · left
        rw [if_neg h0]
        obtain ⟨sl, hsl, hp⟩ := Exec.of_bind_ok hp
        obtain ⟨⟨s, m2⟩, hs, hp⟩ := Exec.of_bind_ok hp
        obtain ⟨p, hpp, hp⟩ := Exec.of_bind_ok hp
        obtain ⟨e, he, hp⟩ := Exec.of_bind_ok hp
        simp only [Except.ok.injEq, Prod.mk.injEq] at hp
        obtain ⟨rfl, rfl⟩ := hp
        simp only [hsl, hs, hpp, he, Exec.ok_bind]

/-- `push_back` of an element that fills its subarray, refused the next one. -/
theorem DRep.pushBackG_forgets (h : DRep E wt wp m d pb lo bo bl xs) (x : α)
    (hfull : (bo + xs.length) % E.S + 1 = E.S) :
    ∃ g d1 m1 pb1 lo1, g < 2 ∧ d.pushBackG E g x m = .ok (false, d1, m1) ∧
      DRep E wt wp m1 d1 pb1 lo1 bo bl xs ∧ m1.t.dropped = m.t.dropped := by
  have hcur : d.e.current = .loc (bl.getD ((bo + xs.length) / E.S) 0) (E.S - 1) := h.atEnd.2 hfull
  have hwrite : ∀ (d1 : Deque) (m1 : DMem α) (pb1 lo1 : Nat),
      DRep E wt wp m1 d1 pb1 lo1 bo bl xs → ∃ t, m1.t.write d1.e.current x = .ok t := by
    intro d1 m1 pb1 lo1 h1
    obtain ⟨t, e, _⟩ := h1.t.write h1.S_pos (h1.idx_lt (Nat.le_refl xs.length)) x
    exact ⟨t, by rw [h1.e]; exact e⟩
  have hroom : ∃ g d1 m1 pb1 lo1, g < 2 ∧
      (if d.e.arr = .loc pb (d.size - 1) then d.reallocG E m 1 false g
        else .ok (some g, d, m)) = .ok (some 0, d1, m1) ∧
      DRep E wt wp m1 d1 pb1 lo1 bo bl xs ∧ m1.t = m.t := by
    by_cases he : d.e.arr = .loc pb (d.size - 1)
    · obtain ⟨d2, p, pb2, lo2, e1, e2, _⟩ := h.realloc false (by simpa using h.atLastSlot.1 he)
      rcases h.reallocG false 1 e1 with ⟨hg, f⟩ | ⟨g', hg, f⟩
      · cases hg
      · by_cases h0 : g' = 0
        · exact ⟨1, d2, _, pb2, lo2, by omega, by rw [if_pos he, f, h0], e2, rfl⟩
        · rcases h.reallocG false 0 e1 with ⟨_, f0⟩ | ⟨g0, _, f0⟩
          · exfalso
            revert f f0
            unfold Deque.reallocG
            simp only [h.unusedFront, h.usedPtrs, Exec.ok_bind, e1]
            split_ifs <;> (simp_all; try omega)
          · refine ⟨0, d2, _, pb2, lo2, by omega, ?_, e2, rfl⟩
            rw [if_pos he]
            revert f0
            unfold Deque.reallocG
            simp only [h.unusedFront, h.usedPtrs, Exec.ok_bind, e1]
            split_ifs <;> simp_all
    · exact ⟨0, d, m, pb, lo, by omega, by rw [if_neg he], h, rfl⟩
  obtain ⟨g, d1, m1, pb1, lo1, hg, f, hrep, hmt⟩ := hroom
  obtain ⟨t, ht⟩ := hwrite d1 m1 pb1 lo1 hrep
  obtain ⟨s1, s2⟩ := hrep.scratch ht
  refine ⟨g, d1, { m1 with t := t }, pb1, lo1, hg, ?_, s1, by rw [← hmt]; exact s2⟩
  unfold Deque.pushBackG
  simp only [h.lastPtr, Exec.ok_bind]
  rw [if_neg (by simpa using hcur)]
  simp only [h.lastSlot, Exec.ok_bind, f, ht, if_true]

/-- `push_front`: as with a working allocator, or it panics and the element is dropped. -/
theorem DRep.pushFrontG (h : DRep E wt wp m d pb lo bo bl xs) (g : Nat) (x : α) {d' : Deque}
    {m' : DMem α} (hp : d.pushFront E x m = .ok (d', m')) :
    d.pushFrontG E g x m = .ok (true, d', m') ∨
    (g < 2 ∧ ∃ d1 m1 pb1 lo1, d.pushFrontG E g x m = .ok (false, d1, m1) ∧
      DRep E wt wp m1 d1 pb1 lo1 bo bl xs ∧
      m1.t.dropped = m.t.dropped ++ (if E.nd then [x] else [])) := by
  unfold Deque.pushFront at hp
  unfold Deque.pushFrontG
  obtain ⟨⟨d1, m1⟩, h1, hp⟩ := Exec.of_bind_ok hp
  obtain ⟨t, ht, hp⟩ := Exec.of_bind_ok hp
  simp only [Except.ok.injEq, Prod.mk.injEq] at hp
  obtain ⟨rfl, rfl⟩ := hp
  split at h1
  · rename_i hc
    left
    rw [if_pos hc]
    obtain ⟨c, hcc, h1⟩ := Exec.of_bind_ok h1
    simp only [Except.ok.injEq, Prod.mk.injEq] at h1
    obtain ⟨rfl, rfl⟩ := h1
    simp only [hcc, Exec.ok_bind, if_true, ht]
  · rename_i hc
    rw [if_neg hc]
    obtain ⟨⟨d2, m2⟩, hr, h1⟩ := Exec.of_bind_ok h1
    have hroom : (g = 0 ∧ (if d.b.arr = d.ptrs then d.reallocG E m 1 true g
          else .ok (some g, d, m)) = .ok (none, d, m)) ∨
        ∃ g' pb1 lo1, g ≤ g' + 1 ∧ (if d.b.arr = d.ptrs then d.reallocG E m 1 true g
            else .ok (some g, d, m)) = .ok (some g', d2, m2) ∧
          DRep E wt wp m2 d2 pb1 lo1 bo bl xs ∧ m2.t = m.t := by
      by_cases he : d.b.arr = d.ptrs
      · rw [if_pos he] at hr ⊢
        obtain ⟨d3, p, pb2, lo2, e1, e2, _⟩ := h.realloc true (by simpa using h.atFirstSlot.1 he)
        rw [e1] at hr
        simp only [Except.ok.injEq, Prod.mk.injEq] at hr
        obtain ⟨rfl, rfl⟩ := hr
        rcases h.reallocG true g e1 with ⟨hg, f⟩ | ⟨g', hg, f⟩
        · exact .inl ⟨hg, f⟩
        · exact .inr ⟨g', pb2, lo2, hg, f, e2, rfl⟩
      · rw [if_neg he] at hr ⊢
        simp only [Except.ok.injEq, Prod.mk.injEq] at hr
        obtain ⟨rfl, rfl⟩ := hr
        exact .inr ⟨g, pb, lo, by omega, rfl, h, rfl⟩
    rcases hroom with ⟨hg, f⟩ | ⟨g', pb1, lo1, hg, f, hrep, hmt⟩
    · right
      refine ⟨by omega, d, m.unwound E x, pb, lo, ?_, h.unwound x, rfl⟩
      simp only [f, Exec.ok_bind, Bool.false_eq_true, if_false]
    · rw [f]
      simp only [Exec.ok_bind]
      by_cases h0 : g' = 0
      · right
        refine ⟨by omega, d2, m2.unwound E x, pb1, lo1, ?_, hrep.unwound x, by
          rw [DMem.unwound, hmt]⟩
        simp only [if_pos h0, Exec.ok_bind, Bool.false_eq_true, if_false]
      · left
        rw [if_neg h0]
        obtain ⟨sl, hsl, h1⟩ := Exec.of_bind_ok h1
        obtain ⟨⟨s, m3⟩, hs, h1⟩ := Exec.of_bind_ok h1
        obtain ⟨p, hpp, h1⟩ := Exec.of_bind_ok h1
        obtain ⟨b, hb, h1⟩ := Exec.of_bind_ok h1
        obtain ⟨c, hc, h1⟩ := Exec.of_bind_ok h1
        simp only [Except.ok.injEq, Prod.mk.injEq] at h1
        obtain ⟨rfl, rfl⟩ := h1
        simp only [hsl, hs, hpp, hb, hc, ht, Exec.ok_bind, if_true]

end

/-- What represents a deque, without naming its blocks. -/
def DRepr (E : DEnv α) (wt : World α) (wp : World Ptr) (m : DMem α) (d : Deque) (xs : List α) :
    Prop :=
  ∃ pb lo bo bl, DRep E wt wp m d pb lo bo bl xs

/-- One call. -/
theorem DRepr.stepG {E : DEnv α} {wt : World α} {wp : World Ptr} {m : DMem α} {d : Deque}
    {xs : List α} (h : DRepr E wt wp m d xs) (g : Nat) (op : DeqOp α) :
    (∃ d' m', d.stepG E g op m = .ok (some (op.step xs).1, d', m') ∧
      DRepr E wt wp m' d' (op.step xs).2 ∧
      m'.t.dropped = m.t.dropped ++ if E.nd then op.overwritten xs else []) ∨
    (g < 2 ∧ op.isPush = true ∧ ∃ d' m' drops lost, d.stepG E g op m = .ok (none, d', m') ∧
      DRepr E wt wp m' d' xs ∧ m'.t.dropped = m.t.dropped ++ (if E.nd then drops else []) ∧
      op.movedIn xs = drops ++ lost ∧ lost.Sublist (DeqOp.backs [op])) := by
  obtain ⟨pb, lo, bo, bl, h⟩ := h
  cases op with
  | pushBack x =>
    obtain ⟨d', m', pb', lo', bl', h1, h2, h3, _, h4⟩ := h.pushBack x
    rcases h.pushBackG g x h1 with e | ⟨hg, d1, m1, pb1, lo1, e1, e2, e3⟩
    · exact .inl ⟨d', m', by simp [Deque.stepG, e, DeqOp.step], ⟨_, _, _, _, h2⟩,
        by simp [h3, DeqOp.overwritten]⟩
    · right
      refine ⟨hg, rfl, d1, m1, ?_⟩
      rcases e3 with e3 | e3
      · exact ⟨[x], [], by simp [Deque.stepG, e1], ⟨_, _, _, _, e2⟩, e3, rfl, by simp⟩
      · exact ⟨[], [x], by simp [Deque.stepG, e1], ⟨_, _, _, _, e2⟩, by simp [e3], rfl,
          by simp [DeqOp.backs]⟩
  | pushFront x =>
    obtain ⟨d', m', pb', lo', bo', bl', h1, h2, h3, _, h4⟩ := h.pushFront x
    rcases h.pushFrontG g x h1 with e | ⟨hg, d1, m1, pb1, lo1, e1, e2, e3⟩
    · exact .inl ⟨d', m', by simp [Deque.stepG, e, DeqOp.step], ⟨_, _, _, _, h2⟩,
        by simp [h3, DeqOp.overwritten]⟩
    · right
      exact ⟨hg, rfl, d1, m1, [x], [], by simp [Deque.stepG, e1], ⟨_, _, _, _, e2⟩, e3, rfl,
        by simp⟩
  | popBack | popFront | front | back | setFront x | setBack x | remove i | len | isEmpty =>
    left
    obtain ⟨m0, rfl, rfl⟩ := h.world
    obtain ⟨d', m', e1, ⟨_, _, _, _, e2⟩, e3⟩ :=
      DInv.step (m0 := m0) ⟨pb, lo, bo, bl, h⟩ _
    exact ⟨d', m', by simp only [Deque.stepG, e1, Exec.ok_bind], ⟨_, _, _, _, e2⟩, e3⟩

theorem perm_forget {i r x b f v w l : List α} (h : (i ++ r ++ x).Perm (b ++ f ++ l)) :
    (i ++ ((v ++ w) ++ r) ++ x).Perm (b ++ (v ++ f) ++ (w ++ l)) := by
  classical
  rw [List.perm_iff_count] at *
  intro y
  have := h y
  simp only [List.count_append] at *
  omega

theorem perm_account {i r x o w s f a b l : List α}
    (h1 : (i ++ x).Perm (o ++ (w ++ s))) (h2 : (a ++ r ++ s).Perm (b ++ f ++ l)) :
    (i ++ a ++ r ++ x).Perm (o ++ b ++ (w ++ f) ++ l) := by
  classical
  rw [List.perm_iff_count] at *
  intro y
  have := h1 y
  have := h2 y
  simp only [List.count_append] at *
  omega

/-- A history: what returned behaved as if the other calls had not been made. -/
theorem DRepr.runG {E : DEnv α} {wt : World α} {wp : World Ptr} :
    ∀ (calls : List (Nat × DeqOp α)) {m : DMem α} {d : Deque} {xs : List α},
    DRepr E wt wp m d xs →
    ∃ (outs : List (Option (Out α))) (d' : Deque) (m' : DMem α) (drops lost : List α),
      Deque.runG E calls d m = .ok (outs, d', m') ∧ outs.length = calls.length ∧
      (∀ p ∈ calls.zip outs, p.2 = none → p.1.1 < 2 ∧ p.1.2.isPush = true) ∧
      outs.filterMap id = (DeqOp.run (answered (calls.map Prod.snd) outs) xs).1 ∧
      DRepr E wt wp m' d' (DeqOp.run (answered (calls.map Prod.snd) outs) xs).2 ∧
      m'.t.dropped = m.t.dropped ++ (if E.nd then drops else []) ∧
      (DeqOp.allIn (answered (calls.map Prod.snd) outs) xs ++
        DeqOp.refused (calls.map Prod.snd) outs ++ xs).Perm
        (DeqOp.allOut (answered (calls.map Prod.snd) outs) xs ++
          (drops ++ (DeqOp.run (answered (calls.map Prod.snd) outs) xs).2) ++ lost) ∧
      lost.Sublist (DeqOp.backs (panicked (calls.map Prod.snd) outs))
  | [], m, d, xs, h => by
    refine ⟨[], d, m, [], [], rfl, rfl, by simp, rfl, h, by simp, ?_, by simp⟩
    simp [answered, DeqOp.refused, DeqOp.allIn, DeqOp.allOut, DeqOp.run]
  | (g, op) :: calls, m, d, xs, h => by
    rcases h.stepG g op with ⟨d1, m1, e1, e3, e4⟩ |
      ⟨hg, hp, d1, m1, drops0, lost0, e1, e2, e3, e4, e5⟩
    · obtain ⟨outs, d', m', drops, lost, f1, f2, f0, f3, f4, f5, f6, f7⟩ := DRepr.runG calls e3
      refine ⟨some (op.step xs).1 :: outs, d', m', op.overwritten xs ++ drops, lost, ?_, ?_,
        ?_, ?_, f4, ?_, ?_, f7⟩
      · simp only [Deque.runG, e1, Exec.ok_bind, f1]
      · simp [f2]
      · intro p hp hn
        rw [List.zip_cons_cons, List.mem_cons] at hp
        rcases hp with rfl | hp
        · cases hn
        · exact f0 p hp hn
      · show (op.step xs).1 :: outs.filterMap id = _
        rw [f3]
        rfl
      · rw [f5, e4]; cases E.nd <;> simp
      · simp only [List.map_cons, answered, DeqOp.refused, DeqOp.allIn, DeqOp.allOut, DeqOp.run]
        have := perm_account (DeqOp.accounts op xs) f6
        simpa only [List.append_assoc] using this
    · obtain ⟨outs, d', m', drops, lost, f1, f2, f0, f3, f4, f5, f6, f7⟩ := DRepr.runG calls e2
      refine ⟨none :: outs, d', m', drops0 ++ drops, lost0 ++ lost, ?_, by simp [f2], ?_,
        by simpa [answered] using f3, f4, ?_, ?_, ?_⟩
      · simp only [Deque.runG, e1, Exec.ok_bind, f1]
      · intro p hp' hn
        rw [List.zip_cons_cons, List.mem_cons] at hp'
        rcases hp' with rfl | hp'
        · exact ⟨hg, hp⟩
        · exact f0 p hp' hn
      · rw [f5, e3]; cases E.nd <;> simp
      · simp only [List.map_cons]
        rw [refused_cons hp _ outs xs, e4]
        simp only [answered]
        have := perm_forget (v := drops0) (w := lost0) f6
        simpa only [List.append_assoc] using this
      · simp only [List.map_cons, panicked, DeqOp.backs]
        rw [show op :: panicked (List.map Prod.snd calls) outs =
          [op] ++ panicked (List.map Prod.snd calls) outs from rfl, List.filterMap_append]
        exact e5.append f7

end Verif
