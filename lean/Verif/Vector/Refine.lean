import Verif.Vector.Run
import Verif.Vector.Proofs
import Mathlib.Data.List.Perm.Basic
import Mathlib.Tactic.SplitIfs

/-! Refinement of histories: helper lemmas for the property theorems. -/

set_option autoImplicit false

namespace Verif
open Spec

variable {α : Type} {fits : Nat → Nat → Region → Nat → Prop} {keeps : Nat → Prop}
  {init : Block α → Nat → Prop} {A : Allocator α}
  {w : World α} {m : Mem α} {v : Vec} {xs : List α} {cap : Nat}

theorem insertIdx_eq_take_drop (x : α) : ∀ (xs : List α) (i : Nat), i ≤ xs.length →
    xs.insertIdx i x = xs.take i ++ x :: xs.drop i
  | xs, 0, _ => by simp
  | [], i + 1, h => by simp at h
  | y :: ys, i + 1, h => by
    simp only [List.length_cons] at h
    simp [insertIdx_eq_take_drop x ys i (by omega)]

theorem set_eq_take_drop (x : α) (xs : List α) (i : Nat) (hi : i < xs.length) :
    xs.set i x = xs.take i ++ x :: xs.drop (i + 1) := by
  rw [List.set_eq_take_append_cons_drop, if_pos hi]

theorem eraseIdx_eq_take_drop (xs : List α) (i : Nat) :
    xs.eraseIdx i = xs.take i ++ xs.drop (i + 1) := by
  rw [List.eraseIdx_eq_take_drop_succ]

/-- The accounting of one call: what went in is what came out, was dropped, or is inside. -/
def Accounts (op : SeqOp α) (o : Out α) (drops xs ys : List α) : Prop :=
  (op.movedIn ++ xs).Perm (o.movedOut ++ drops ++ ys)

/-- One call of the model against one call of the specification. -/
theorem VInv.step (hA : Lawful A fits keeps init) (nd : Bool) (op : SeqOp α)
    (hop : nd = true → op.isSlice = false) (h : VInv keeps fits w m v xs cap) :
    match op.step xs with
    | .error e => v.step A nd op m = .error e
    | .ok (o, ys) => ∃ v' m' ds na nc, v.step A nd op m = .ok (o, v', m') ∧
        VInv keeps fits w m' v' ys (op.capAfter xs.length cap) ∧ Eff m m' ds na nc ∧
        (nd = true → Accounts op o ds xs ys) := by
  have hcapE : growCap xs.length cap =
      (if xs.length < cap then cap else if cap = 0 then 1 else 2 * cap) := by
    have := h.len_le
    unfold growCap Vec.calculateGrowCapacity
    split_ifs <;> omega
  cases op with
  | push x =>
    obtain ⟨v', m', b, blk, he, hi, hef⟩ := h.push hA x
    refine ⟨v', m', _, _, _, by simp [Vec.step, he], ?_, hef, ?_⟩
    · simpa [SeqOp.capAfter, hcapE] using hi.inv
    · intro _
      simpa [Accounts, SeqOp.movedIn, Out.movedOut] using (List.perm_append_singleton x xs).symm
  | pop =>
    rcases List.eq_nil_or_concat xs with hx | ⟨ys, x, hx⟩
    · subst hx
      exact ⟨v, m, _, _, _, by simp [Vec.step, h.pop_nil], by simpa [SeqOp.capAfter] using h,
        Eff.refl m, by simp [Accounts, SeqOp.movedIn, Out.movedOut]⟩
    · rw [List.concat_eq_append] at hx
      subst hx
      obtain ⟨b, blk, hB⟩ := h.own (by simp)
      obtain ⟨v', he, hi⟩ := hB.pop
      refine ⟨v', m, _, _, _, by simp [Vec.step, he], ?_, Eff.refl m, ?_⟩
      · simpa [SeqOp.capAfter] using hi.inv
      · intro _
        simp [Accounts, SeqOp.movedIn, Out.movedOut]
  | insert i x =>
    simp only [SeqOp.step]
    by_cases hi : i ≤ xs.length
    · rw [if_pos hi]
      obtain ⟨v', m', b, blk, he, hinv, hef⟩ := h.insert hA x hi
      refine ⟨v', m', _, _, _, by simp [Vec.step, he], ?_, hef, ?_⟩
      · have := hinv.inv
        rw [insertIdx_eq_take_drop x xs i hi] at this
        simpa [SeqOp.capAfter, hcapE] using this
      · intro _
        have := (List.perm_middle (a := x) (l₁ := xs.take i) (l₂ := xs.drop i)).symm
        rw [List.take_append_drop] at this
        simpa [Accounts, SeqOp.movedIn, Out.movedOut] using this
    · rw [if_neg hi]
      simp [Vec.step, h.insert_panic x hi]
  | remove i =>
    by_cases hi : i < xs.length
    · obtain ⟨b, blk, hB⟩ := h.own (by intro e; simp [e] at hi)
      obtain ⟨v', m', blk', he, hinv, _, hef⟩ := hB.remove hi
      refine ⟨v', m', _, _, _, by simp [Vec.step, he], ?_, hef, ?_⟩
      · have := hinv.inv
        rw [eraseIdx_eq_take_drop] at this
        simpa [SeqOp.capAfter] using this
      · intro _
        have h1 : xs.take i ++ xs[i] :: xs.drop (i + 1) = xs := by simp
        have := List.perm_middle (a := xs[i]) (l₁ := xs.take i) (l₂ := xs.drop (i + 1))
        rw [h1] at this
        simpa [Accounts, SeqOp.movedIn, Out.movedOut, hi] using this
    · have hle : xs.length ≤ i := by omega
      have hn : xs[i]? = none := by simp [hle]
      have ht : xs.take i ++ xs.drop (i + 1) = xs := by
        rw [List.take_of_length_le hle, List.drop_eq_nil_of_le (by omega)]; simp
      refine ⟨v, m, _, _, _, by simp [Vec.step, h.remove_none hle, hn], ?_, Eff.refl m, ?_⟩
      · rw [ht]; simpa [SeqOp.capAfter] using h
      · intro _
        rw [ht, hn]
        simp [Accounts, SeqOp.movedIn, Out.movedOut]
  | set i x =>
    simp only [SeqOp.step]
    by_cases hi : i < xs.length
    · rw [if_pos hi]
      obtain ⟨b, blk, hB⟩ := h.own (by intro e; simp [e] at hi)
      obtain ⟨m', he, hinv, hef⟩ := hB.setAt nd x hi
      refine ⟨v, m', _, _, _, by simp [Vec.step, he], ?_, hef, ?_⟩
      · have := hinv.inv
        rw [set_eq_take_drop x xs i hi] at this
        simpa [SeqOp.capAfter] using this
      · intro hnd
        have h1 : xs.take i ++ xs[i] :: xs.drop (i + 1) = xs := by simp
        have h2 := List.perm_middle (a := xs[i]) (l₁ := xs.take i) (l₂ := xs.drop (i + 1))
        rw [h1] at h2
        have h3 := (List.perm_middle (a := x) (l₁ := xs.take i) (l₂ := xs.drop (i + 1))).symm
        have : (x :: xs).Perm (xs[i] :: (xs.take i ++ x :: xs.drop (i + 1))) :=
          ((h2.cons x).trans (List.Perm.swap _ _ _)).trans (h3.cons _)
        simpa [Accounts, SeqOp.movedIn, Out.movedOut, hnd] using this
    · rw [if_neg hi]
      simp [Vec.step, h.setAt_panic nd x hi]
  | reserve n =>
    obtain ⟨v', m', he, hinv, hef⟩ := h.reserve_any hA n
    exact ⟨v', m', _, _, _, by simp [Vec.step, he], by simpa [SeqOp.capAfter] using hinv, hef,
      by simp [Accounts, SeqOp.movedIn, Out.movedOut]⟩
  | append buf =>
    have hnd : nd = false := by
      cases nd
      · rfl
      · simpa [SeqOp.isSlice] using hop rfl
    subst hnd
    obtain ⟨v', m', he, hinv, hef⟩ := h.append hA buf
    exact ⟨v', m', _, _, _, by simp [Vec.step, he], by simpa [SeqOp.capAfter] using hinv, hef,
      by simp⟩
  | assign buf =>
    have hnd : nd = false := by
      cases nd
      · rfl
      · simpa [SeqOp.isSlice] using hop rfl
    subst hnd
    obtain ⟨v', m', he, hinv, hef⟩ := h.assign hA false buf (by simp)
    exact ⟨v', m', _, _, _, by simp [Vec.step, he], by simpa [SeqOp.capAfter] using hinv, hef,
      by simp⟩
  | clear =>
    obtain ⟨m', he, _, _, _, hinv, hef⟩ := h.clear hA nd
    exact ⟨⟨.null, .null, .null⟩, m', _, _, _, by simp [Vec.step, he],
      by simpa [SeqOp.capAfter] using hinv, hef, by intro hnd; simp [Accounts, SeqOp.movedIn, Out.movedOut, hnd]⟩
  | len =>
    exact ⟨v, m, _, _, _, by simp [Vec.step, h.len], by simpa [SeqOp.capAfter] using h,
      Eff.refl m, by simp [Accounts, SeqOp.movedIn, Out.movedOut]⟩
  | isEmpty =>
    refine ⟨v, m, _, _, _, ?_, by simpa [SeqOp.capAfter] using h,
      Eff.refl m, by simp [Accounts, SeqOp.movedIn, Out.movedOut]⟩
    simp only [Vec.step, h.isEmpty, Exec.ok_bind]
    cases xs <;> simp
  | slice =>
    exact ⟨v, m, _, _, _, by simp [Vec.step, h.slice], by simpa [SeqOp.capAfter] using h,
      Eff.refl m, by simp [Accounts, SeqOp.movedIn, Out.movedOut]⟩

/-- Chaining the accounts of one call and of the rest of a history. -/
theorem accounts_trans {op : SeqOp α} {o : Out α} {d1 d2 xs ys zs ins outs : List α}
    (p1 : Accounts op o d1 xs ys) (p2 : (ins ++ ys).Perm (outs ++ d2 ++ zs)) :
    (op.movedIn ++ ins ++ xs).Perm (o.movedOut ++ outs ++ (d1 ++ d2) ++ zs) := by
  unfold Accounts at p1
  -- in ++ ins ++ xs ~ out ++ d1 ++ ins ++ ys ~ out ++ d1 ++ outs ++ d2 ++ zs
  have s1 : (op.movedIn ++ ins ++ xs).Perm
      (ins ++ (op.movedIn ++ xs)) := by
    rw [List.append_assoc]
    exact List.perm_append_comm_assoc _ _ _
  have s2 : (ins ++ (op.movedIn ++ xs)).Perm
      (ins ++ (o.movedOut ++ d1 ++ ys)) := p1.append_left _
  have s3 : (ins ++ (o.movedOut ++ d1 ++ ys)).Perm
      ((o.movedOut ++ d1) ++ (ins ++ ys)) :=
    List.perm_append_comm_assoc _ _ _
  have s4 : ((o.movedOut ++ d1) ++ (ins ++ ys)).Perm
      ((o.movedOut ++ d1) ++ (outs ++ d2 ++ zs)) := p2.append_left _
  have s5 : ((o.movedOut ++ d1) ++ (outs ++ d2 ++ zs)).Perm
      (o.movedOut ++ outs ++ (d1 ++ d2) ++ zs) := by
    simp only [List.append_assoc]
    refine List.Perm.append_left _ ?_
    exact List.perm_append_comm_assoc _ _ _
  exact s1.trans (s2.trans (s3.trans (s4.trans s5)))

/-- Histories of the model against histories of the specification. -/
theorem VInv.run (hA : Lawful A fits keeps init) (nd : Bool) (ops : List (SeqOp α)) :
    ∀ {m : Mem α} {v : Vec} {xs : List α} {cap : Nat},
    (nd = true → ∀ op ∈ ops, op.isSlice = false) → VInv keeps fits w m v xs cap →
    match SeqOp.run ops xs with
    | .error e => Vec.run A nd ops v m = .error e
    | .ok (os, ys) => ∃ v' m' ds cap', Vec.run A nd ops v m = .ok (os, v', m') ∧
        VInv keeps fits w m' v' ys cap' ∧ m'.dropped = m.dropped ++ ds ∧
        (nd = true → (ops.flatMap SeqOp.movedIn ++ xs).Perm
          (os.flatMap Out.movedOut ++ ds ++ ys)) := by
  induction ops with
  | nil =>
    intro m v xs cap _ h
    exact ⟨v, m, [], cap, rfl, h, by simp, by simp⟩
  | cons op ops ih =>
    intro m v xs cap hops h
    have h1 := h.step hA nd op (fun hn => hops hn op (by simp))
    cases hs : op.step xs with
    | error e =>
      rw [hs] at h1
      simp only at h1
      simp [SeqOp.run, hs, Vec.run, h1]
    | ok r =>
      obtain ⟨o, ys⟩ := r
      rw [hs] at h1
      obtain ⟨v1, m1, d1, a1, c1, he1, hi1, hef1, hac1⟩ := h1
      have h2 := ih (fun hn op' hop' => hops hn op' (by simp [hop'])) hi1
      cases hr : SeqOp.run ops ys with
      | error e =>
        rw [hr] at h2
        simp only at h2
        simp [SeqOp.run, hs, hr, Vec.run, he1, h2]
      | ok r =>
        obtain ⟨os, zs⟩ := r
        rw [hr] at h2
        obtain ⟨v2, m2, d2, cap2, he2, hi2, hd2, hac2⟩ := h2
        simp only [SeqOp.run, hs, hr]
        refine ⟨v2, m2, d1 ++ d2, cap2, by simp [Vec.run, he1, he2], hi2, ?_, ?_⟩
        · rw [hd2, hef1.dropped, List.append_assoc]
        · intro hn
          exact accounts_trans (hac1 hn) (hac2 hn)

end Verif
