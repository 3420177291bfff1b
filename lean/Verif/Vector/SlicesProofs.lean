import Verif.Vector.Slices
import Verif.Vector.Iter
import Mathlib.Data.List.Perm.Basic

/-! Lemmas about what is done through the mutable slice of a vector. -/

set_option autoImplicit false

namespace Verif
open Spec

section spec
variable {α : Type}

theorem exchange_ok {i j : Nat} {xs : List α} (hi : i < xs.length) (hj : j < xs.length) :
    exchange i j xs = .ok ((xs.set i xs[j]).set j xs[i]) := by
  simp [exchange, hi, hj]

theorem exchange_panic {i j : Nat} {xs : List α} (h : ¬ (i < xs.length ∧ j < xs.length)) :
    exchange i j xs = .error .panic := by
  unfold exchange
  by_cases hi : i < xs.length
  · have hj : ¬ j < xs.length := fun e => h ⟨hi, e⟩
    simp [hi, hj]
  · simp [hi]

theorem set_perm {xs : List α} {i : Nat} (hi : i < xs.length) (x : α) :
    (x :: xs).Perm (xs[i] :: xs.set i x) := by
  induction xs generalizing i with
  | nil => simp at hi
  | cons y ys ih =>
    cases i with
    | zero => simpa using List.Perm.swap y x ys
    | succ i =>
      have := ih (i := i) (by simpa using hi)
      simp only [List.getElem_cons_succ, List.set_cons_succ]
      exact ((List.Perm.swap y x ys).trans (this.cons y)).trans (List.Perm.swap _ _ _)

theorem exchange_perm {i j : Nat} {xs : List α} (hi : i < xs.length) (hj : j < xs.length) :
    ((xs.set i xs[j]).set j xs[i]).Perm xs := by
  by_cases h : i = j
  · subst h; simp
  · have h1 := set_perm hi xs[j]
    have h2 := set_perm (xs := xs.set i xs[j]) (i := j) (by simpa using hj) xs[i]
    rw [List.getElem_set_ne h] at h2
    have h3 := h1.trans h2
    exact ((List.perm_cons _).1 h3).symm

theorem exchange_cons {i j : Nat} {x : α} {xs ys : List α} (h : exchange i j xs = .ok ys) :
    exchange (i + 1) (j + 1) (x :: xs) = .ok (x :: ys) := by
  unfold exchange at h ⊢
  simp only [List.getElem?_cons_succ]
  cases hi : xs[i]? with
  | none => simp [hi] at h
  | some a =>
    cases hj : xs[j]? with
    | none => simp [hi, hj] at h
    | some b =>
      simp only [hi, hj, Except.ok.injEq] at h
      simp [← h]

theorem exchanges_cons {x : α} : ∀ (sw : List (Nat × Nat)) {xs ys : List α},
    exchanges sw xs = .ok ys →
    exchanges (sw.map fun p => (p.1 + 1, p.2 + 1)) (x :: xs) = .ok (x :: ys) := by
  intro sw
  induction sw with
  | nil => intro xs ys h; cases h; rfl
  | cons p sw ih =>
    intro xs ys h
    obtain ⟨i, j⟩ := p
    simp only [exchanges] at h
    cases he : exchange i j xs with
    | error e => rw [he] at h; cases h
    | ok zs =>
      rw [he] at h
      simp only [List.map_cons, exchanges, exchange_cons he]
      exact ih h

/-- Every rearrangement is a number of exchanges. -/
theorem exchanges_of_perm : ∀ {ys xs : List α}, xs.Perm ys → ∃ sw, exchanges sw xs = .ok ys := by
  intro ys
  induction ys with
  | nil =>
    intro xs h
    rw [List.perm_nil.1 h]
    exact ⟨[], rfl⟩
  | cons y ys ih =>
    intro xs h
    cases xs with
    | nil => exact absurd h.symm (by simp)
    | cons x xs =>
      have hy : y ∈ x :: xs := h.symm.subset (by simp)
      obtain ⟨k, hk, hky⟩ := List.getElem_of_mem hy
      have hz := exchange_perm (xs := x :: xs) (i := 0) (j := k) (by simp) hk
      have he := exchange_ok (xs := x :: xs) (i := 0) (j := k) (by simp) hk
      cases k with
      | zero =>
        simp only [List.getElem_cons_zero] at hky
        subst hky
        obtain ⟨sw, hsw⟩ := ih ((List.perm_cons _).1 h)
        exact ⟨_, exchanges_cons sw hsw⟩
      | succ k =>
        simp only [List.getElem_cons_succ] at hky
        simp only [List.getElem_cons_succ, List.set_cons_zero, List.set_cons_succ,
          List.getElem_cons_zero, hky] at he hz
        obtain ⟨sw, hsw⟩ := ih ((List.perm_cons _).1 (hz.trans h))
        exact ⟨(0, k + 1) :: sw.map (fun p => (p.1 + 1, p.2 + 1)), by
          simp only [exchanges, he]; exact exchanges_cons sw hsw⟩

end spec

variable {α : Type} {fits : Nat → Nat → Region → Nat → Prop} {keeps : Nat → Prop}
  {init : Block α → Nat → Prop} {A : Allocator α}
  {w : World α} {m : Mem α} {v : Vec} {xs : List α} {cap : Nat}

theorem VInv.takeAt (h : VInv keeps fits w m v xs cap) {i : Nat} (hi : i < xs.length) :
    v.takeAt i m = .ok xs[i] := by
  obtain ⟨b, blk, hB⟩ := h.own (by intro e; simp [e] at hi)
  have hpt := hB.ptrs
  have hcl := hB.cap_le
  have hll := hB.inv.len_le
  have hlv := hB.live_b
  have hx : blk.cells i = some xs[i] := by rw [hB.cells i hi]; simp [hi]
  have hbn : v.beginPtr ≠ .null := by rw [hpt]; simp
  unfold Vec.takeAt
  simp only [hbn, if_false, h.len, Exec.ok_bind, hi, if_true]
  subst hpt
  simp only [Mem.ptrAdd_loc hlv (show 0 + i ≤ blk.size by omega), Nat.zero_add, Exec.ok_bind]
  exact Mem.read_loc hlv (by omega) hx

theorem VInv.takeAt_panic (h : VInv keeps fits w m v xs cap) {i : Nat} (hi : ¬ i < xs.length) :
    v.takeAt i m = .error .panic := by
  unfold Vec.takeAt
  by_cases hb : v.beginPtr = .null
  · simp [hb]
  · simp only [hb, if_false, h.len, Exec.ok_bind, hi]

/-- What is written through the slice stays in the vector's own block. -/
theorem VInv.write (h : VInv keeps fits w m v xs cap) {i : Nat} (hi : i < xs.length) (x : α) :
    ∃ m', v.setAt false i x m = .ok m' ∧ VInv keeps fits w m' v (xs.set i x) cap ∧
      Eff m m' [] 0 0 := by
  obtain ⟨b, blk, hB⟩ := h.own (by intro e; simp [e] at hi)
  obtain ⟨m', he, hinv, hef⟩ := hB.setAt false x hi
  exact ⟨m', he, hinv.inv, hef⟩

theorem VInv.swapAt (h : VInv keeps fits w m v xs cap) (i j : Nat) :
    match exchange i j xs with
    | .error e => v.swapAt i j m = .error e
    | .ok ys => ∃ m', v.swapAt i j m = .ok m' ∧ VInv keeps fits w m' v ys cap ∧ Eff m m' [] 0 0 ∧
        ys.Perm xs := by
  by_cases hij : i < xs.length ∧ j < xs.length
  · obtain ⟨hi, hj⟩ := hij
    rw [exchange_ok hi hj]
    obtain ⟨m1, e1, h1, f1⟩ := h.write hi xs[j]
    obtain ⟨m2, e2, h2, f2⟩ := h1.write (i := j) (by simpa using hj) xs[i]
    refine ⟨m2, ?_, h2, by simpa using f1.trans f2, exchange_perm hi hj⟩
    simp [Vec.swapAt, h.takeAt hi, h.takeAt hj, e1, e2]
  · rw [exchange_panic hij]
    by_cases hi : i < xs.length
    · have hj : ¬ j < xs.length := fun e => hij ⟨hi, e⟩
      simp [Vec.swapAt, h.takeAt hi, h.takeAt_panic hj]
    · simp [Vec.swapAt, h.takeAt_panic hi]

theorem VInv.editStep (hA : Lawful A fits keeps init) (nd : Bool) (op : EditOp α)
    (hop : nd = true → op.isSlice = false) (h : VInv keeps fits w m v xs cap) :
    match op.step xs with
    | .error e => v.editStep A nd op m = .error e
    | .ok (o, ys) => ∃ v' m' ds cap', v.editStep A nd op m = .ok (o, v', m') ∧
        VInv keeps fits w m' v' ys cap' ∧ m'.dropped = m.dropped ++ ds ∧
        (nd = true → (op.movedIn ++ xs).Perm (o.movedOut ++ ds ++ ys)) := by
  cases op with
  | call op =>
    have h1 := h.step hA nd op hop
    simp only [EditOp.step]
    cases hs : op.step xs with
    | error e => rw [hs] at h1; exact h1
    | ok r =>
      obtain ⟨o, ys⟩ := r
      rw [hs] at h1
      obtain ⟨v', m', ds, na, nc, e1, e2, e3, e4⟩ := h1
      exact ⟨v', m', ds, _, e1, e2, e3.dropped, e4⟩
  | swap i j =>
    have h1 := h.swapAt i j
    simp only [EditOp.step]
    cases hs : exchange i j xs with
    | error e => rw [hs] at h1; simp only at h1; simp [Except.map, Vec.editStep, h1]
    | ok ys =>
      rw [hs] at h1
      obtain ⟨m', e1, e2, e3, e4⟩ := h1
      exact ⟨v, m', [], cap, by simp [Vec.editStep, e1], e2, e3.dropped,
        by simpa [EditOp.movedIn, Out.movedOut] using fun _ => e4.symm⟩
  | replace i x =>
    simp only [EditOp.step]
    by_cases hi : i < xs.length
    · obtain ⟨m', e1, e2, e3⟩ := h.write hi x
      simp only [List.getElem?_eq_getElem hi]
      refine ⟨v, m', [], cap, by simp [Vec.editStep, Vec.replaceAt, h.takeAt hi, e1], e2, e3.dropped,
        fun _ => ?_⟩
      simpa [EditOp.movedIn, Out.movedOut] using set_perm hi x
    · have hn : xs[i]? = none := by simpa using hi
      simp [hn, Vec.editStep, Vec.replaceAt, h.takeAt_panic hi]

theorem VInv.edit (hA : Lawful A fits keeps init) (nd : Bool) (ops : List (EditOp α)) :
    ∀ {m : Mem α} {v : Vec} {xs : List α} {cap : Nat},
    (nd = true → ∀ op ∈ ops, op.isSlice = false) → VInv keeps fits w m v xs cap →
    match EditOp.run ops xs with
    | .error e => Vec.edit A nd ops v m = .error e
    | .ok (os, ys) => ∃ v' m' ds cap', Vec.edit A nd ops v m = .ok (os, v', m') ∧
        VInv keeps fits w m' v' ys cap' ∧ m'.dropped = m.dropped ++ ds ∧
        (nd = true → (ops.flatMap EditOp.movedIn ++ xs).Perm
          (os.flatMap Out.movedOut ++ ds ++ ys)) := by
  induction ops with
  | nil =>
    intro m v xs cap _ h
    exact ⟨v, m, [], cap, rfl, h, by simp, by simp⟩
  | cons op ops ih =>
    intro m v xs cap hops h
    have h1 := h.editStep hA nd op (fun hn => hops hn op (by simp))
    cases hs : op.step xs with
    | error e =>
      rw [hs] at h1
      simp only at h1
      simp [EditOp.run, hs, Vec.edit, h1]
    | ok r =>
      obtain ⟨o, ys⟩ := r
      rw [hs] at h1
      obtain ⟨v1, m1, d1, c1, he1, hi1, hd1, hac1⟩ := h1
      have h2 := ih (fun hn op' hop' => hops hn op' (by simp [hop'])) hi1
      cases hr : EditOp.run ops ys with
      | error e =>
        rw [hr] at h2
        simp only at h2
        simp [EditOp.run, hs, hr, Vec.edit, he1, h2]
      | ok r =>
        obtain ⟨os, zs⟩ := r
        rw [hr] at h2
        obtain ⟨v2, m2, d2, cap2, he2, hi2, hd2, hac2⟩ := h2
        simp only [EditOp.run, hs, hr]
        refine ⟨v2, m2, d1 ++ d2, cap2, by simp [Vec.edit, he1, he2], hi2, ?_, ?_⟩
        · rw [hd2, hd1, List.append_assoc]
        · intro hn
          have a1 := hac1 hn
          have a2 := hac2 hn
          simp only [List.flatMap_cons]
          have s1 : (op.movedIn ++ ops.flatMap EditOp.movedIn ++ xs).Perm
              (ops.flatMap EditOp.movedIn ++ (op.movedIn ++ xs)) := by
            rw [List.append_assoc]; exact List.perm_append_comm_assoc _ _ _
          refine s1.trans ((List.Perm.append_left _ a1).trans ?_)
          refine (List.perm_append_comm_assoc _ _ _).trans ((List.Perm.append_left _ a2).trans ?_)
          simpa [List.append_assoc] using List.Perm.append_left o.movedOut
            (List.perm_append_comm_assoc d1 (os.flatMap Out.movedOut) (d2 ++ zs))

/-- Exchanges touch nothing but the elements. -/
theorem VInv.exchanges (A : Allocator α) (nd : Bool) : ∀ (sw : List (Nat × Nat))
    {m : Mem α} {xs ys : List α}, VInv keeps fits w m v xs cap → exchanges sw xs = .ok ys →
    ∃ m', Vec.edit A nd (sw.map fun p => .swap p.1 p.2) v m =
        .ok (sw.map (fun _ => .unit), v, m') ∧
      VInv keeps fits w m' v ys cap ∧ Eff m m' [] 0 0 := by
  intro sw
  induction sw with
  | nil => intro m xs ys h e; cases e; exact ⟨m, rfl, h, Eff.refl m⟩
  | cons p sw ih =>
    intro m xs ys h e
    obtain ⟨i, j⟩ := p
    simp only [Spec.exchanges] at e
    have h1 := h.swapAt i j
    cases hs : exchange i j xs with
    | error e' => rw [hs] at e; cases e
    | ok zs =>
      rw [hs] at e h1
      obtain ⟨m1, e1, e2, e3, _⟩ := h1
      obtain ⟨m2, g1, g2, g3⟩ := ih e2 e
      exact ⟨m2, by simp [Vec.edit, Vec.editStep, e1, g1], g2, by simpa using e3.trans g3⟩

/-! ## The owning iterator -/

variable {it : VIntoIter} {ys : List α}

theorem ItRep.swapAt (h : ItRep w m it ys) (i j : Nat) :
    match exchange i j ys with
    | .error e => it.swapAt i j m = .error e
    | .ok zs => ∃ m', it.swapAt i j m = .ok m' ∧ ItRep w m' it zs ∧ m'.dropped = m.dropped ∧
        zs.Perm ys := by
  have hl := h.len
  rcases h with ⟨_, hp, hn⟩ | ⟨b, blk, f, cap, hf, hlv, hr, hs, hle, hc, hp⟩
  · subst hn
    rw [exchange_panic (by simp)]
    simp [VIntoIter.swapAt, VIntoIter.placeAt, hp]
  · have hb : m.live b = some blk := by rw [hlv]; simp
    have hfn : it.front ≠ .null := by rw [hp]; simp
    have hpl : ∀ k, it.placeAt k m = if k < ys.length then .ok (.loc b (f + k)) else .error .panic := by
      intro k
      unfold VIntoIter.placeAt
      simp only [if_neg hfn, hl, Exec.ok_bind]
      split_ifs with hk
      · subst hp
        exact Mem.ptrAdd_loc hb (show f + k ≤ blk.size by omega)
      · rfl
    by_cases hij : i < ys.length ∧ j < ys.length
    · obtain ⟨hi, hj⟩ := hij
      rw [exchange_ok hi hj]
      have ri : m.read (.loc b (f + i)) = .ok ys[i] :=
        Mem.read_loc hb (by omega) (by rw [hc i hi]; simp [hi])
      have rj : m.read (.loc b (f + j)) = .ok ys[j] :=
        Mem.read_loc hb (by omega) (by rw [hc j hj]; simp [hj])
      have w1 := Mem.write_loc (m := m) ys[j] hb (show f + i < blk.size by omega)
      let blk1 : Block α := { blk with cells := Function.update blk.cells (f + i) (some ys[j]) }
      let m1 : Mem α := m.setBlock b (some blk1)
      have hb1 : m1.live b = some blk1 := by simp [m1]
      have w2 := Mem.write_loc (m := m1) ys[i] hb1 (show f + j < blk1.size by
        show f + j < blk.size; omega)
      refine ⟨m1.setBlock b (some
        { blk1 with cells := Function.update blk1.cells (f + j) (some ys[i]) }), ?_, .inr ⟨b, { blk1 with cells := Function.update blk1.cells (f + j) (some ys[i]) }, f,
        cap, hf, ?_, hr, hs, by simpa using hle, ?_, by simpa using hp⟩, ?_, exchange_perm hi hj⟩
      · simp only [VIntoIter.swapAt, hpl, hi, hj, if_true, Exec.ok_bind, ri, rj, w1]
        exact w2
      · simp [m1, hlv]
      · intro k hk
        simp only [List.length_set] at hk
        by_cases hkj : k = j
        · subst hkj; simp [hk]
        · by_cases hki : k = i
          · subst hki
            simp [blk1, hkj, Ne.symm hkj, hk]
          · have a1 : f + k ≠ f + j := by omega
            have a2 : f + k ≠ f + i := by omega
            simp [blk1, Function.update_of_ne a1, Function.update_of_ne a2, Ne.symm hkj, Ne.symm hki,
              hc k hk]
      · rfl
    · rw [exchange_panic hij]
      by_cases hi : i < ys.length
      · have hj : ¬ j < ys.length := fun e => hij ⟨hi, e⟩
        simp [VIntoIter.swapAt, hpl, hi, hj]
      · simp [VIntoIter.swapAt, hpl, hi]

theorem ItRep.runSliced (ops : List SlicedIterOp) : ∀ {m : Mem α} {it : VIntoIter} {ys : List α},
    ItRep w m it ys →
    match SlicedIterOp.run ops ys with
    | .error e => it.runSliced ops m = .error e
    | .ok (os, zs) => ∃ it' m', it.runSliced ops m = .ok (os, it', m') ∧ ItRep w m' it' zs ∧
        m'.dropped = m.dropped ∧ (os.flatMap Option.toList ++ zs).Perm ys := by
  induction ops with
  | nil => intro m it ys h; exact ⟨it, m, rfl, h, rfl, by simp⟩
  | cons op ops ih =>
    intro m it ys h
    cases op with
    | take op =>
      cases op with
      | next =>
        obtain ⟨it1, e1, h1⟩ := h.next
        have h2 := ih h1
        simp only [SlicedIterOp.run, IterOp.step]
        cases hr : SlicedIterOp.run ops ys.tail with
        | error e => rw [hr] at h2; simp only at h2; simp [VIntoIter.runSliced, e1, h2]
        | ok r =>
          obtain ⟨os, zs⟩ := r
          rw [hr] at h2
          obtain ⟨it2, m2, e2, h2, hd, hp⟩ := h2
          refine ⟨it2, m2, by simp [VIntoIter.runSliced, e1, e2], h2, hd, ?_⟩
          cases ys with
          | nil => simpa using hp
          | cons y ys => simpa using hp
      | nextBack =>
        obtain ⟨it1, e1, h1⟩ := h.nextBack
        have h2 := ih h1
        simp only [SlicedIterOp.run, IterOp.step]
        cases hr : SlicedIterOp.run ops ys.dropLast with
        | error e => rw [hr] at h2; simp only at h2; simp [VIntoIter.runSliced, e1, h2]
        | ok r =>
          obtain ⟨os, zs⟩ := r
          rw [hr] at h2
          obtain ⟨it2, m2, e2, h2, hd, hp⟩ := h2
          refine ⟨it2, m2, by simp [VIntoIter.runSliced, e1, e2], h2, hd, ?_⟩
          rcases List.eq_nil_or_concat ys with rfl | ⟨ys, y, rfl⟩
          · simpa using hp
          · simp only [List.concat_eq_append, List.dropLast_concat] at hp ⊢
            simpa using (hp.cons y).trans (List.perm_append_singleton y ys).symm
    | swap i j =>
      have h1 := h.swapAt i j
      simp only [SlicedIterOp.run]
      cases hs : exchange i j ys with
      | error e => rw [hs] at h1; simp only at h1; simp [VIntoIter.runSliced, h1]
      | ok zs =>
        rw [hs] at h1
        obtain ⟨m1, e1, h1, hd1, hp1⟩ := h1
        have h2 := ih h1
        simp only
        cases hr : SlicedIterOp.run ops zs with
        | error e => rw [hr] at h2; simp only at h2; simp [VIntoIter.runSliced, e1, h2]
        | ok r =>
          obtain ⟨os, us⟩ := r
          rw [hr] at h2
          obtain ⟨it2, m2, e2, h2, hd2, hp2⟩ := h2
          exact ⟨it2, m2, by simp [VIntoIter.runSliced, e1, e2], h2, hd2.trans hd1, hp2.trans hp1⟩

end Verif
