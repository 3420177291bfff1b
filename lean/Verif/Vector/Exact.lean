import Verif.Vector.Iter
import Verif.Vector.Refine
import Mathlib.Algebra.Order.Group.Multiset
import Mathlib.Tactic.Abel

/-! Slice calls on vectors of a type with destructor: helper lemmas. -/

set_option autoImplicit false

namespace Verif
open Spec

variable {α : Type}

theorem exists_cells (cells : Nat → Option α) : ∀ (n o : Nat),
    (∀ i, i < n → cells (o + i) ≠ none) →
    ∃ ys : List α, ys.length = n ∧ ∀ i, i < ys.length → cells (o + i) = ys[i]?
  | 0, _, _ => ⟨[], rfl, by simp⟩
  | n + 1, o, h => by
    obtain ⟨y, hy⟩ := Option.ne_none_iff_exists'.1 (h 0 (by omega))
    obtain ⟨ys, h1, h2⟩ := exists_cells cells n (o + 1) (fun i hi => by
      have := h (i + 1) (by omega)
      rwa [show o + (i + 1) = o + 1 + i by omega] at this)
    refine ⟨y :: ys, by simp [h1], ?_⟩
    intro i hi
    cases i with
    | zero => simpa using hy
    | succ i =>
      have := h2 i (by simpa using hi)
      rw [show o + (i + 1) = o + 1 + i by omega, this]
      simp

theorem Mem.cloneFrom_ub {b : Nat} : ∀ (xs : List α) (o : Nat) (m : Mem α) (blk : Block α),
    m.live b = some blk → o + xs.length ≤ blk.size →
    (∃ i, i < xs.length ∧ blk.cells (o + i) = none) →
    m.cloneFrom true (.loc b o) xs = .error .ub := by
  intro xs
  induction xs with
  | nil => rintro o m blk _ _ ⟨i, hi, _⟩; simp at hi
  | cons x xs ih =>
    rintro o m blk h hsz ⟨i, hi, hc⟩
    simp only [List.length_cons] at hsz hi
    have ho : o < blk.size := by omega
    cases hco : blk.cells o with
    | none => simp [Mem.cloneFrom, Mem.dropCell, Mem.read, Mem.cell_loc h ho, hco]
    | some y =>
      have hr : m.read (.loc b o) = .ok y := Mem.read_loc h ho hco
      have hw := Mem.write_loc (m := { m with dropped := m.dropped ++ [y] }) x h ho
      simp only [Mem.cloneFrom, Mem.dropCell_true hr, Exec.ok_bind, hw, Ptr.next]
      refine ih (o + 1) _ { blk with cells := Function.update blk.cells o (some x) } (by simp)
        (by show o + 1 + xs.length ≤ blk.size; omega) ?_
      cases i with
      | zero => rw [Nat.add_zero, hco] at hc; cases hc
      | succ i =>
        refine ⟨i, by omega, ?_⟩
        have : o + 1 + i ≠ o := by omega
        simp only [Function.update_of_ne this]
        rw [show o + 1 + i = o + (i + 1) by omega]
        exact hc

/-- `clone_from_slice` over values with destructors: undefined behaviour, or as many values are
dropped as are written. -/
theorem Mem.cloneFrom_or {b : Nat} (xs : List α) (o : Nat) (m : Mem α) (blk : Block α)
    (h : m.live b = some blk) (hsz : o + xs.length ≤ blk.size) :
    m.cloneFrom true (.loc b o) xs = .error .ub ∨
    ∃ m' ys, m.cloneFrom true (.loc b o) xs = .ok m' ∧ ys.length = xs.length ∧
      m'.live = Function.update m.live b (some { blk with
        cells := fun j => if o ≤ j ∧ j < o + xs.length then xs[j - o]? else blk.cells j }) ∧
      m'.dropped = m.dropped ++ ys := by
  by_cases hc : ∀ i, i < xs.length → blk.cells (o + i) ≠ none
  · obtain ⟨ys, h1, h2⟩ := exists_cells blk.cells xs.length o hc
    obtain ⟨m', e1, e2, e3, _⟩ := Mem.cloneFrom_true xs ys o m blk h h1 hsz h2
    exact .inr ⟨m', ys, e1, h1, e2, e3⟩
  · left
    push Not at hc
    exact Mem.cloneFrom_ub xs o m blk h hsz hc

variable {fits : Nat → Nat → Region → Nat → Prop} {keeps : Nat → Prop}
  {init : Block α → Nat → Prop} {A : Allocator α}
  {w : World α} {m : Mem α} {v : Vec} {xs : List α} {cap : Nat}

/-- `append` to a vector of a type with destructor. -/
theorem VInv.append_or (hA : Lawful A fits keeps init) (buf : List α)
    (h : VInv keeps fits w m v xs cap) :
    v.append A true buf m = .error .ub ∨
    ∃ v' m' ds, v.append A true buf m = .ok (v', m') ∧
      VInv keeps fits w m' v' (xs ++ buf) (max cap (xs.length + buf.length)) ∧
      ds.length = buf.length ∧ m'.dropped = m.dropped ++ ds := by
  obtain ⟨v1, m1, hr, h1, e1⟩ := h.reserveTo hA (xs.length + buf.length)
  have hstart : v.append A true buf m = (do
      let e ← m1.ptrAdd v1.endPtr buf.length
      let v : Vec := { v1 with endPtr := e }
      if v.beginPtr = Ptr.null then .ok (v, m1) else do
        let p ← m1.ptrAdd v.beginPtr xs.length
        let m ← m1.cloneFrom true p buf
        .ok (v, m)) := by
    unfold Vec.append
    rw [h.len, h.capacity]
    simp only [Exec.ok_bind]
    rw [hr]
    rfl
  rw [hstart]
  obtain ⟨hk, w', hw, h1 | ⟨b, blk, h1⟩⟩ := h1
  · have hx := h1.nil
    have hc := h1.cap0
    have hb : buf = [] := List.length_eq_zero_iff.1 (by omega)
    right
    refine ⟨v1, m1, [], ?_, ⟨hk, w', hw, .inl ⟨h1.live, h1.ptrs, by simp [hx, hb], by
      simpa using hc⟩⟩, by simp [hb], by simpa using e1.dropped⟩
    simp [h1.ptrs, hb]
  · have hcl := h1.cap_le
    have hpt := h1.ptrs
    have hB : VInvB keeps fits w m1 v1 b blk xs (max cap (xs.length + buf.length)) := ⟨hk, w', hw, h1⟩
    have hlv := h1.live_b
    have hst : (do
        let e ← m1.ptrAdd v1.endPtr buf.length
        let v : Vec := { v1 with endPtr := e }
        if v.beginPtr = Ptr.null then .ok (v, m1) else do
          let p ← m1.ptrAdd v.beginPtr xs.length
          let m ← m1.cloneFrom true p buf
          .ok (v, m)) = (do
        let m ← m1.cloneFrom true (.loc b xs.length) buf
        .ok (⟨.loc b 0, .loc b (xs.length + buf.length),
          .loc b (max cap (xs.length + buf.length))⟩, m)) := by
      subst hpt
      simp only [Mem.ptrAdd_loc hlv (show xs.length + buf.length ≤ blk.size by omega),
        Exec.ok_bind, reduceCtorEq, if_false,
        Mem.ptrAdd_loc hlv (show 0 + xs.length ≤ blk.size by omega), Nat.zero_add]
    rw [hst]
    rcases Mem.cloneFrom_or buf xs.length m1 blk hlv (by omega) with hub | ⟨m2, ds, hcf, hds, hl2, hd2⟩
    · left; rw [hub]; rfl
    · right
      refine ⟨_, m2, ds, by rw [hcf]; rfl,
        (hB.update hl2 rfl rfl (by rw [List.length_append]; omega) ?_ (by simp)).inv, hds, by
          rw [hd2, e1.dropped]; simp⟩
      intro i hi
      simp only [List.length_append] at hi
      by_cases h3 : i < xs.length
      · have h4 : ¬ (xs.length ≤ i ∧ i < xs.length + buf.length) := by omega
        simp only [h4, if_false, h1.cells i h3]
        rw [List.getElem?_append_left h3]
      · have h4 : xs.length ≤ i ∧ i < xs.length + buf.length := by omega
        simp only [h4, and_self, if_true]
        rw [List.getElem?_append_right h4.1]

/-- `assign` to a vector of a type with destructor. -/
theorem VInv.assign_or (hA : Lawful A fits keeps init) (buf : List α)
    (h : VInv keeps fits w m v xs cap) :
    v.assign A true buf m = .error .ub ∨
    ∃ v' m' ds, v.assign A true buf m = .ok (v', m') ∧
      VInv keeps fits w m' v' buf (max cap buf.length) ∧
      ds.length = buf.length ∧ m'.dropped = m.dropped ++ ds := by
  obtain ⟨v1, m1, hr, h1, e1⟩ := h.reserveTo hA buf.length
  have hstart : v.assign A true buf m = (do
      let e ← m1.ptrAdd v1.beginPtr buf.length
      let v : Vec := { v1 with endPtr := e }
      if v.beginPtr = Ptr.null then .ok (v, m1) else do
        let m ← m1.cloneFrom true v.beginPtr buf
        .ok (v, m)) := by
    unfold Vec.assign
    rw [h.capacity]
    simp only [Exec.ok_bind]
    rw [hr]
    rfl
  rw [hstart]
  obtain ⟨hk, w', hw, h1 | ⟨b, blk, h1⟩⟩ := h1
  · have hc := h1.cap0
    have hb : buf = [] := List.length_eq_zero_iff.1 (by omega)
    right
    refine ⟨v1, m1, [], ?_, ⟨hk, w', hw, .inl ⟨h1.live, h1.ptrs, hb, by
      simpa using hc⟩⟩, by simp [hb], by simpa using e1.dropped⟩
    simp [h1.ptrs, hb]
  · have hcl := h1.cap_le
    have hpt := h1.ptrs
    have hB : VInvB keeps fits w m1 v1 b blk xs (max cap buf.length) := ⟨hk, w', hw, h1⟩
    have hlv := h1.live_b
    have hst : (do
        let e ← m1.ptrAdd v1.beginPtr buf.length
        let v : Vec := { v1 with endPtr := e }
        if v.beginPtr = Ptr.null then .ok (v, m1) else do
          let m ← m1.cloneFrom true v.beginPtr buf
          .ok (v, m)) = (do
        let m ← m1.cloneFrom true (.loc b 0) buf
        .ok (⟨.loc b 0, .loc b buf.length, .loc b (max cap buf.length)⟩, m)) := by
      subst hpt
      simp only [Mem.ptrAdd_loc hlv (show 0 + buf.length ≤ blk.size by omega),
        Exec.ok_bind, reduceCtorEq, if_false, Nat.zero_add]
    rw [hst]
    rcases Mem.cloneFrom_or buf 0 m1 blk hlv (by omega) with hub | ⟨m2, ds, hcf, hds, hl2, hd2⟩
    · left; rw [hub]; rfl
    · right
      refine ⟨_, m2, ds, by rw [hcf]; rfl,
        (hB.update hl2 rfl rfl (by omega) ?_ (by simp)).inv, hds, by rw [hd2, e1.dropped]; simp⟩
      intro i hi
      simp [hi]

/-- One exact call. -/
theorem VInv.step_exact (hA : Lawful A fits keeps init) (op : SeqOp α) (hop : op.exact xs = true)
    (h : VInv keeps fits w m v xs cap) :
    match op.step xs with
    | .error e => v.step A true op m = .error e
    | .ok (o, ys) => ∃ v' m' ds cap', v.step A true op m = .ok (o, v', m') ∧
        VInv keeps fits w m' v' ys cap' ∧ m'.dropped = m.dropped ++ ds ∧
        (op.putIn ++ xs).Perm (o.movedOut ++ ds ++ ys) := by
  cases hs : op.isSlice with
  | false =>
    have h1 := h.step hA true op (fun _ => hs)
    have hp : op.putIn = op.movedIn := by cases op <;> first | rfl | cases hs
    cases ho : op.step xs with
    | error e => rw [ho] at h1; exact h1
    | ok r =>
      obtain ⟨o, ys⟩ := r
      rw [ho] at h1
      obtain ⟨v', m', ds, na, nc, e1, e2, e3, e4⟩ := h1
      exact ⟨v', m', ds, _, e1, e2, e3.dropped, by rw [hp]; exact e4 rfl⟩
  | true =>
    cases op with
    | append buf =>
      have hb : buf = [] := by simpa [SeqOp.exact] using hop
      subst hb
      rcases h.append_or hA [] with hub | ⟨v', m', ds, e1, e2, e3, e4⟩
      · exfalso
        -- nothing to clone
        obtain ⟨v1, m1, hr, h1, _⟩ := h.reserveTo hA (xs.length + 0)
        unfold Vec.append at hub
        rw [h.len, h.capacity] at hub
        simp only [Exec.ok_bind, List.length_nil] at hub
        rw [hr] at hub
        simp only [Exec.ok_bind] at hub
        obtain ⟨hk, w', hw, h1 | ⟨b, blk, h1⟩⟩ := h1
        · simp [h1.ptrs] at hub
        · have hcl := h1.cap_le
          have hlv := h1.live_b
          have hpt := h1.ptrs
          subst hpt
          simp [Mem.ptrAdd_loc hlv (show xs.length + 0 ≤ blk.size by omega),
            Mem.ptrAdd_loc hlv (show 0 + xs.length ≤ blk.size by omega), Mem.cloneFrom] at hub
      · refine ⟨v', m', ds, _, by simp [Vec.step, e1], e2, e4, ?_⟩
        have : ds = [] := List.length_eq_zero_iff.1 e3
        simp [SeqOp.putIn, Out.movedOut, this]
    | assign buf =>
      have hb : buf.length = xs.length := by simpa [SeqOp.exact] using hop
      obtain ⟨v', m', he, hinv, hef⟩ := h.assign hA true buf (fun _ => by omega)
      refine ⟨v', m', xs, _, by simp [Vec.step, he], hinv, ?_, ?_⟩
      · have := hef.dropped
        rw [if_pos rfl, hb, List.take_length] at this
        exact this
      · simpa [SeqOp.putIn, Out.movedOut] using List.perm_append_comm
    | _ => cases hs

/-- Histories of exact calls. -/
theorem VInv.run_exact (hA : Lawful A fits keeps init) : ∀ (ops : List (SeqOp α))
    {m : Mem α} {v : Vec} {xs : List α} {cap : Nat}, SeqOp.allExact ops xs = true →
    VInv keeps fits w m v xs cap →
    match SeqOp.run ops xs with
    | .error e => Vec.run A true ops v m = .error e
    | .ok (os, ys) => ∃ v' m' ds cap', Vec.run A true ops v m = .ok (os, v', m') ∧
        VInv keeps fits w m' v' ys cap' ∧ m'.dropped = m.dropped ++ ds ∧
        (ops.flatMap SeqOp.putIn ++ xs).Perm (os.flatMap Out.movedOut ++ ds ++ ys) := by
  intro ops
  induction ops with
  | nil =>
    intro m v xs cap _ h
    exact ⟨v, m, [], cap, rfl, h, by simp, by simp⟩
  | cons op ops ih =>
    intro m v xs cap hops h
    simp only [SeqOp.allExact, Bool.and_eq_true] at hops
    have h1 := h.step_exact hA op hops.1
    cases hs : op.step xs with
    | error e =>
      rw [hs] at h1
      simp only at h1
      simp [SeqOp.run, hs, Vec.run, h1]
    | ok r =>
      obtain ⟨o, ys⟩ := r
      rw [hs] at h1
      obtain ⟨v1, m1, d1, cap1, he1, hi1, hd1, hac1⟩ := h1
      have hops2 := hops.2
      rw [hs] at hops2
      have h2 := ih hops2 hi1
      cases hr : SeqOp.run ops ys with
      | error e =>
        rw [hr] at h2
        simp only at h2
        simp [SeqOp.run, hs, hr, Vec.run, he1, h2]
      | ok r =>
        obtain ⟨os, zs⟩ := r
        rw [hr] at h2
        obtain ⟨v2, m2, d2, cap2, he2, hi2, hd2, hac2⟩ := h2
        simp only [SeqOp.run, hs, hr]
        refine ⟨v2, m2, d1 ++ d2, cap2, by simp [Vec.run, he1, he2], hi2, ?_, ?_⟩
        · rw [hd2, hd1, List.append_assoc]
        · rw [← Multiset.coe_eq_coe] at hac1 hac2 ⊢
          simp only [← Multiset.coe_add, List.flatMap_cons] at hac1 hac2 ⊢
          calc _ = ((op.putIn : Multiset α) + xs) + (ops.flatMap SeqOp.putIn : List α) := by abel
            _ = (o.movedOut + d1 : Multiset α) +
                ((ops.flatMap SeqOp.putIn : List α) + (ys : Multiset α)) := by rw [hac1]; abel
            _ = _ := by rw [hac2]; abel

end Verif
