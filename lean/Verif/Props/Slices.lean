import Verif.Vector.SlicesProofs
import Verif.Props.FixedVector
import Verif.Props.Vector

/-!
# C135: elements may be rearranged through slices
-/

set_option autoImplicit false

namespace Verif
open Spec

variable {α : Type}

/-- C135.  A history of calls on an empty vector and of exchanges and replacements in the slice it
lends out has the results that it has on a sequence, panics included.  When the vector is dropped at
the end, memory is as it was before, and the values moved in are, up to order, the values handed out
and the values dropped.  (Copying slices in is covered for elements without destructor, see C07.) -/
theorem C135_vector_slices (R : RawAlloc α) (nd : Bool) (m0 : Mem α) (ops : List (EditOp α))
    (hops : nd = true → ∀ op ∈ ops, op.isSlice = false) :
    match EditOp.run ops [] with
    | .error e => Vec.edit (defaultAllocator R) nd ops Vec.new m0 = .error e
    | .ok (outs, xs) => ∃ v m, Vec.edit (defaultAllocator R) nd ops Vec.new m0 = .ok (outs, v, m) ∧
        v.asSlice m = .ok xs ∧ v.len = .ok xs.length ∧
        ∃ m' drops, v.clear (defaultAllocator R) nd m = .ok (Vec.new, m') ∧ m'.live = m0.live ∧
          m'.dropped = m0.dropped ++ drops ∧
          (nd = true → (ops.flatMap EditOp.movedIn).Perm (outs.flatMap Out.movedOut ++ drops)) := by
  have h := VInv.edit (defaultAllocator_lawful R) nd ops hops (VInv.new defaultFits m0)
  cases hr : EditOp.run ops [] with
  | error e => rw [hr] at h; exact h
  | ok r =>
    obtain ⟨os, xs⟩ := r
    rw [hr] at h
    obtain ⟨v, m, ds, cap, he, hi, hd, hp⟩ := h
    obtain ⟨m', hc, _, hw, _, _, hef⟩ := hi.clear (defaultAllocator_lawful R) nd
    refine ⟨v, m, he, hi.slice, hi.len, m', ds ++ (if nd then xs else []), hc,
      funext fun p => hw p not_false, ?_, ?_⟩
    · rw [hef.dropped, hd, List.append_assoc]
    · intro hn
      simpa [hn] using hp hn

/-- C135.  The same for a fixed vector with `n` elements in the object at `d`, before and after it
outgrows them. -/
theorem C135_fixed_vector_slices (R : RawAlloc α) (nd : Bool) (n d : Nat) (hn : 0 < n)
    (m0 : Mem α) (hd : m0.live d = none) (ops : List (EditOp α))
    (hops : nd = true → ∀ op ∈ ops, op.isSlice = false) :
    ∃ f1 m1, FVec.newIn n d m0 = .ok (f1, m1) ∧
      match EditOp.run ops [] with
      | .error e => f1.edit R nd ops m1 = .error e
      | .ok (outs, xs) => ∃ f m, f1.edit R nd ops m1 = .ok (outs, f, m) ∧
          f.vec.asSlice m = .ok xs ∧ f.vec.len = .ok xs.length ∧
          ∃ m' drops, f.destroy R nd m = .ok m' ∧ m'.live = m0.live ∧
            m'.dropped = m0.dropped ++ drops ∧
            (nd = true → (ops.flatMap EditOp.movedIn).Perm (outs.flatMap Out.movedOut ++ drops)) := by
  obtain ⟨f1, m1, he1, hi1, hb1, _, _, hdr1, _⟩ := FInvA.new hn m0 hd
  refine ⟨f1, m1, he1, ?_⟩
  have hA := fixedAllocator_lawful R f1.buf
  rw [← hi1.pool] at hA
  have h := VInv.edit hA nd ops hops hi1.inv
  cases hr : EditOp.run ops [] with
  | error e => rw [hr] at h; simp only at h; simp [FVec.edit, h]
  | ok r =>
    obtain ⟨os, xs⟩ := r
    rw [hr] at h
    obtain ⟨v, m, ds, cap, he, hi, hds, hp⟩ := h
    obtain ⟨m2, hc, _, hw, _, _, hef⟩ := hi.clear hA nd
    refine ⟨{ f1 with vec := v }, m, by simp [FVec.edit, he], hi.slice, hi.len,
      m2.setBlock f1.buf none, ds ++ (if nd then xs else []), ?_, ?_, ?_, ?_⟩
    · simp [FVec.destroy, hc]
    · funext p
      by_cases hpb : p = f1.buf
      · subst hpb; simp [hi1.out]
      · simpa [hpb] using hw p hpb
    · simp [hef.dropped, hds, hdr1]
    · intro h
      simpa [h] using hp h

/-- C135.  Sorting, reversing and rotating: after any history, for every rearrangement of the contents
there are exchanges that bring it about.  They allocate and drop nothing and leave the vector's
pointers, and with them its capacity, as they were. -/
theorem C135_any_order (R : RawAlloc α) (nd : Bool) (m0 : Mem α) (ops : List (EditOp α))
    (hops : nd = true → ∀ op ∈ ops, op.isSlice = false) {outs : List (Out α)} {v : Vec} {m : Mem α}
    {xs ys : List α} (hrun : Vec.edit (defaultAllocator R) nd ops Vec.new m0 = .ok (outs, v, m))
    (hx : v.asSlice m = .ok xs) (hp : xs.Perm ys) :
    ∃ sw : List (Nat × Nat), ∃ m', Vec.edit (defaultAllocator R) nd (sw.map fun p => .swap p.1 p.2) v m =
        .ok (sw.map (fun _ => .unit), v, m') ∧
      v.asSlice m' = .ok ys ∧ m'.dropped = m.dropped ∧ m'.allocs = m.allocs ∧
      ∀ b, m0.live b ≠ none → m'.live b = m0.live b := by
  have h := VInv.edit (defaultAllocator_lawful R) nd ops hops (VInv.new defaultFits m0)
  cases hr : EditOp.run ops [] with
  | error e => rw [hr] at h; simp only at h; rw [h] at hrun; cases hrun
  | ok r =>
    obtain ⟨os, zs⟩ := r
    rw [hr] at h
    obtain ⟨v', m', ds, cap, he, hi, _, _⟩ := h
    rw [hrun] at he
    cases he
    have : zs = xs := by
      have h := hi.slice
      rw [hx] at h
      cases h; rfl
    subst this
    obtain ⟨sw, hsw⟩ := exchanges_of_perm hp
    obtain ⟨m2, e1, e2, e3⟩ := hi.exchanges (defaultAllocator R) nd sw hsw
    refine ⟨sw, m2, e1, e2.slice, by simpa using e3.dropped, by simpa using e3.allocs, ?_⟩
    intro b hb
    rcases e2.default_rep with h | ⟨b', blk, h⟩
    · rw [h.live]
    · rw [h.live]
      have : b ≠ b' := by rintro rfl; exact hb h.fresh
      simp [this]

/-- C135.  The owning iterator lends out what is left as a slice.  Exchanges in it between calls have
the results that they have on the sequence; every value is handed out or dropped with the iterator,
once. -/
theorem C135_into_iter_slices (R : RawAlloc α) (nd : Bool) (m0 : Mem α) (ops : List (SeqOp α))
    (hops : nd = true → ∀ o ∈ ops, o.isSlice = false)
    {outs : List (Out α)} {v : Vec} {m : Mem α} {xs : List α}
    (hrun : Vec.run (defaultAllocator R) nd ops Vec.new m0 = .ok (outs, v, m))
    (hx : v.asSlice m = .ok xs) (calls : List SlicedIterOp) :
    match SlicedIterOp.run calls xs with
    | .error e => v.intoIter.runSliced calls m = .error e
    | .ok (os, ys) => ∃ it m1, v.intoIter.runSliced calls m = .ok (os, it, m1) ∧
        it.asSlice m1 = .ok ys ∧ (os.flatMap Option.toList ++ ys).Perm xs ∧
        ∃ m', it.drop (defaultAllocator R) nd m1 = .ok m' ∧ m'.live = m0.live ∧
          m'.dropped = m.dropped ++ (if nd then ys else []) := by
  obtain ⟨zs, ds, cap, _, hi, _, _⟩ := reachable_inv R nd m0 ops hops hrun
  have : zs = xs := by
    have h := hi.slice
    rw [hx] at h
    cases h; rfl
  subst this
  have h := ItRep.runSliced calls hi.default_rep.intoIter
  cases hr : SlicedIterOp.run calls zs with
  | error e => rw [hr] at h; exact h
  | ok r =>
    obtain ⟨os, ys⟩ := r
    rw [hr] at h
    obtain ⟨it, m1, h1, h2, hd, hp⟩ := h
    obtain ⟨m', h3, h4, h5⟩ := h2.drop R nd
    exact ⟨it, m1, h1, h2.slice, hp, m', h3, h4, by rw [h5, hd]⟩

/-! ## Cases -/

/-- Three elements reversed, one replaced, one removed. -/
example : (do
    let (os, v, m) ← Vec.edit (defaultAllocator RawAlloc.bump) true
      [.call (.push 1), .call (.push 2), .call (.push 3), .swap 0 2, .replace 1 9, .call .slice,
        .call (.remove 0)] Vec.new (Mem.empty (α := Nat))
    let (_, m) ← v.clear (defaultAllocator RawAlloc.bump) true m
    .ok (os, m.dropped)) =
  (.ok ([.unit, .unit, .unit, .unit, .elem (some 2), .list [3, 9, 1], .elem (some 3)], [9, 1]) :
    Exec _) := rfl

example : Vec.edit (defaultAllocator RawAlloc.bump) true [.call (.push 1), .swap 0 1] Vec.new
    (Mem.empty (α := Nat)) = .error .panic := rfl

/-- A fixed vector of two elements that has outgrown them. -/
example : (do
    let (f, m) ← FVec.newIn 2 7 (Mem.empty (α := Nat))
    let (os, f, m) ← f.edit RawAlloc.bump true
      [.call (.push 1), .call (.push 2), .swap 0 1, .call (.push 3), .swap 0 2, .call .slice] m
    let m ← f.destroy RawAlloc.bump true m
    .ok (os, f.hasOverflowed, m.dropped)) =
  (.ok ([.unit, .unit, .unit, .unit, .unit, .list [3, 1, 2]], true, [3, 1, 2]) : Exec _) := rfl

/-- The last is brought to the front before it is taken. -/
example : (do
    let (_, v, m) ← Vec.run (defaultAllocator RawAlloc.bump) true [.push 1, .push 2, .push 3] Vec.new
      (Mem.empty (α := Nat))
    let (os, it, m) ← v.intoIter.runSliced [.swap 0 2, .take .next, .swap 0 1, .take .nextBack] m
    let m ← it.drop (defaultAllocator RawAlloc.bump) true m
    .ok (os, m.dropped)) = (.ok ([some 3, some 2], [1]) : Exec _) := rfl

/-- The hypotheses of `C135_any_order` with something to sort. -/
example : ([3, 1, 2] : List Nat).Perm [1, 2, 3] ∧ (do
    let (_, v, m) ← Vec.edit (defaultAllocator RawAlloc.bump) true
      [.call (.push 3), .call (.push 1), .call (.push 2)] Vec.new (Mem.empty (α := Nat))
    v.asSlice m) = .ok [3, 1, 2] := ⟨by decide, rfl⟩

end Verif
