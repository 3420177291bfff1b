import Verif.Unwind.Model
import Verif.Vector.Iter
import Verif.FixedVector.Proofs

/-! Lemmas about vectors whose elements' destructors or clones panic. -/

set_option autoImplicit false

namespace Verif

variable {α : Type}

theorem Mem.dropRangeP_ok (bad : α → Bool) {b : Nat} {blk : Block α} :
    ∀ (xs : List α) (o : Nat) (m : Mem α) (p : Bool), m.live b = some blk →
      o + xs.length ≤ blk.size → (∀ i, i < xs.length → blk.cells (o + i) = xs[i]?) →
      m.dropRangeP bad (.loc b o) xs.length p = .ok (
        if 1 < xs.countP bad + p.toNat then .aborts
        else if xs.countP bad + p.toNat = 1 then .unwinds { m with dropped := m.dropped ++ xs }
        else .returns { m with dropped := m.dropped ++ xs }) := by
  intro xs
  induction xs with
  | nil => intro o m p _ _ _; cases p <;> simp [Mem.dropRangeP]
  | cons x xs ih =>
    intro o m p hl hsz hc
    have hr : m.read (.loc b o) = .ok x := by
      have := hc 0 (by simp)
      simp only [Nat.add_zero, List.getElem?_cons_zero] at this
      simp only [List.length_cons] at hsz
      simp [Mem.read, Mem.cell, hl, show o < blk.size by omega, this]
    have hc' : ∀ i, i < xs.length → blk.cells (o + 1 + i) = xs[i]? := by
      intro i hi
      have := hc (i + 1) (by simpa using hi)
      rw [show o + 1 + i = o + (i + 1) by omega, this, List.getElem?_cons_succ]
    have ih := fun m p hl => ih (o + 1) m p hl (by simp at hsz; omega) hc'
    simp only [List.length_cons, Mem.dropRangeP, hr, Exec.ok_bind, Ptr.next]
    cases hb : bad x with
    | false =>
      simp only [Bool.false_eq_true, if_false]
      rw [ih _ p (by exact hl), List.countP_cons_of_neg (by simp [hb])]
      simp
    | true =>
      rw [List.countP_cons_of_pos hb]
      cases p with
      | true => simp
      | false =>
        simp only [if_true, Bool.false_eq_true, if_false]
        rw [ih _ true (by exact hl)]
        simp

theorem Mem.cloneFromP_boom {boom : α → Bool} {b : Nat} : ∀ (pre : List α) (x : α) (post : List α)
    (o : Nat) (m : Mem α) (blk : Block α), m.live b = some blk →
      o + (pre ++ x :: post).length ≤ blk.size → (∀ y ∈ pre, boom y = false) → boom x = true →
      ∃ m', m.cloneFromP boom (.loc b o) (pre ++ x :: post) = .ok (.unwinds m') ∧
        m'.live = Function.update m.live b (some { blk with
          cells := fun j => if o ≤ j ∧ j < o + pre.length then pre[j - o]? else blk.cells j }) ∧
        m'.dropped = m.dropped := by
  intro pre
  induction pre with
  | nil =>
    intro x post o m blk hl _ _ hx
    refine ⟨m, by simp [Mem.cloneFromP, hx], ?_, rfl⟩
    have : (fun j => if o ≤ j ∧ j < o + ([] : List α).length then ([] : List α)[j - o]? else blk.cells j)
        = blk.cells := by
      funext j
      have : ¬ (o ≤ j ∧ j < o + ([] : List α).length) := by simp
      rw [if_neg this]
    rw [this, ← hl, Function.update_eq_self]
  | cons y pre ih =>
    intro x post o m blk hl hsz hpre hx
    simp only [List.cons_append, List.length_cons] at hsz
    have hw : m.write (.loc b o) y = .ok (m.setBlock b (some { blk with
        cells := Function.update blk.cells o (some y) })) := by
      simp [Mem.write, hl, show o < blk.size by omega]
    obtain ⟨m', e1, e2, e3⟩ := ih x post (o + 1)
      (m.setBlock b (some { blk with cells := Function.update blk.cells o (some y) }))
      { blk with cells := Function.update blk.cells o (some y) } (by simp [Mem.setBlock])
      (by show o + 1 + _ ≤ blk.size; omega) (fun z hz => hpre z (by simp [hz])) hx
    refine ⟨m', ?_, ?_, e3⟩
    · simp only [List.cons_append, Mem.cloneFromP, hpre y (by simp), Bool.false_eq_true, if_false, hw,
        Exec.ok_bind, Ptr.next, e1]
    · rw [e2]
      simp only [Mem.setBlock, Function.update_idem]
      congr 3
      funext j
      by_cases hj : j = o
      · subst hj
        simp
        omega
      · by_cases h1 : o + 1 ≤ j ∧ j < o + 1 + pre.length
        · have h2 : o ≤ j ∧ j < o + (y :: pre).length := by simp; omega
          obtain ⟨k, hk⟩ : ∃ k, j - o = k + 1 := ⟨j - o - 1, by omega⟩
          simp only [h1, and_self, if_true, h2, hk, List.getElem?_cons_succ]
          rw [show j - (o + 1) = k by omega]
        · have h2 : ¬ (o ≤ j ∧ j < o + (y :: pre).length) := by simp; omega
          rw [if_neg h1, if_neg h2, Function.update_of_ne hj]

theorem Mem.cloneFromP_ok {boom : α → Bool} : ∀ (xs : List α) (p : Ptr) (m : Mem α),
      (∀ y ∈ xs, boom y = false) →
      m.cloneFromP boom p xs = (do let m' ← m.cloneFrom false p xs; .ok (.returns m')) := by
  intro xs
  induction xs with
  | nil => intro p m _; rfl
  | cons x xs ih =>
    intro p m h
    simp only [Mem.cloneFromP, Mem.cloneFrom, Mem.dropCell, h x (by simp), Bool.false_eq_true,
      if_false, Exec.ok_bind]
    cases m.write p x with
    | error e => rfl
    | ok m' => simp only [Exec.ok_bind]; exact ih p.next m' fun y hy => h y (by simp [hy])

variable {fits : Nat → Nat → Region → Nat → Prop} {keeps : Nat → Prop}
  {init : Block α → Nat → Prop} {A : Allocator α}
  {w : World α} {m : Mem α} {v : Vec} {xs : List α} {cap : Nat}

/-- The invariant does not depend on the log of destructor calls. -/
theorem VInv.log (h : VInv keeps fits w m v xs cap) {m' : Mem α} (hl : m'.live = m.live) :
    VInv keeps fits w m' v xs cap := by
  obtain ⟨h1, w', hw, h | ⟨b, blk, h⟩⟩ := h
  · exact ⟨by rw [hl]; exact h1, w', hw, .inl ⟨by rw [hl]; exact h.live, h.ptrs, h.nil, h.cap0⟩⟩
  · exact ⟨by rw [hl]; exact h1, w', hw, .inr ⟨b, blk, h.fresh, by rw [hl]; exact h.live, h.fit,
      h.cap_le, h.len_le, h.cells, h.ptrs⟩⟩

theorem readRange_uninit {b : Nat} {blk : Block α} (h : m.live b = some blk) :
    ∀ (n o i : Nat), o ≤ i → i < o + n → blk.cells i = none →
      m.readRange (.loc b o) n = .error .ub := by
  intro n
  induction n with
  | zero => intro o i h1 h2; omega
  | succ n ih =>
    intro o i h1 h2 hc
    simp only [Mem.readRange, Ptr.next]
    have hbad : m.read (.loc b o) = .error .ub ∨ ∃ x, m.read (.loc b o) = .ok x := by
      cases hr : m.read (.loc b o) with
      | ok x => exact .inr ⟨x, rfl⟩
      | error e =>
        left
        simp only [Mem.read, Mem.cell, h] at hr
        split at hr
        · next he => split at he
                     · cases he
                     · cases he; cases hr; rfl
        · cases hr; rfl
        · cases hr
    rcases hbad with hb | ⟨x, hb⟩
    · rw [hb]; rfl
    · rw [hb]
      by_cases hi : i = o
      · subst hi
        simp only [Mem.read, Mem.cell, h] at hb
        split at hb
        · cases hb
        · cases hb
        · next he =>
          split at he
          · rw [hc] at he; cases he
          · cases he
      · rw [Exec.ok_bind, ih (o + 1) i (by omega) (by omega) hc]; rfl

theorem VInv.clearP_unwinds (bad : α → Bool) (h : VInv keeps fits w m v xs cap)
    (h1 : xs.countP bad = 1) :
    v.clearP A bad m = .ok (.unwinds (v, { m with dropped := m.dropped ++ xs })) := by
  obtain ⟨_, w', _, h | ⟨b, blk, h⟩⟩ := h
  · rw [h.nil] at h1; cases h1
  · have hd := Mem.dropRangeP_ok bad xs 0 m false h.live_b
      (by have := h.len_le; have := h.cap_le; omega) (by simpa using h.cells)
    have hpt := h.ptrs
    unfold Vec.clearP
    rw [if_neg h.begin_ne, h.rep.len]
    subst hpt
    simp only [Exec.ok_bind, hd, h1, Bool.toNat_false, Nat.add_zero, Nat.lt_irrefl, if_false, if_true]

theorem VInv.clearP_aborts (bad : α → Bool) (h : VInv keeps fits w m v xs cap)
    (h1 : 1 < xs.countP bad) : v.clearP A bad m = .ok .aborts := by
  obtain ⟨_, w', _, h | ⟨b, blk, h⟩⟩ := h
  · rw [h.nil] at h1; simp at h1
  · have hd := Mem.dropRangeP_ok bad xs 0 m false h.live_b
      (by have := h.len_le; have := h.cap_le; omega) (by simpa using h.cells)
    have hpt := h.ptrs
    unfold Vec.clearP
    rw [if_neg h.begin_ne, h.rep.len]
    subst hpt
    simp only [Exec.ok_bind, hd, h1, Bool.toNat_false, Nat.add_zero, if_true]

/-- Without a panic `clearP` is `clear`. -/
theorem VInv.clearP_returns (bad : α → Bool) (h : VInv keeps fits w m v xs cap)
    (h0 : ∀ x ∈ xs, bad x = false) {v' : Vec} {m' : Mem α} (hc : v.clear A true m = .ok (v', m')) :
    v.clearP A bad m = .ok (.returns (v', m')) := by
  have hcount : xs.countP bad = 0 := by
    rw [List.countP_eq_zero]; intro x hx; simp [h0 x hx]
  obtain ⟨_, w', _, h | ⟨b, blk, h⟩⟩ := h
  · have hpt := h.ptrs
    subst hpt
    simp [Vec.clear] at hc
    simp [Vec.clearP, hc]
  · have hsz : 0 + xs.length ≤ blk.size := by have := h.len_le; have := h.cap_le; omega
    have hd := Mem.dropRangeP_ok bad xs 0 m false h.live_b hsz (by simpa using h.cells)
    have hd' := Mem.dropRange_ok true xs 0 m h.live_b hsz (by simpa using h.cells)
    have hpt := h.ptrs
    unfold Vec.clearP
    unfold Vec.clear at hc
    rw [if_neg h.begin_ne, h.rep.len] at hc ⊢
    subst hpt
    simp only [Exec.ok_bind, hd', if_true] at hc
    simp only [Exec.ok_bind, hd, hcount, Bool.toNat_false, Nat.add_zero, Nat.not_lt_zero, if_false,
      Nat.zero_ne_one]
    obtain ⟨m2, hm2, hc⟩ := Exec.bind_ok hc
    obtain ⟨c, hcp, hm2⟩ := Exec.bind_ok hm2
    simp only [hcp, Exec.ok_bind, hm2]
    cases hc
    rfl

/-- `if need > self.capacity() { self.reserve(need - self.capacity()) }`, then the buffer is owned;
if it had to grow the cells behind the elements are those of a new block. -/
theorem VInv.reserveOwn (hA : Lawful A fits keeps init) {need : Nat} (hneed : 0 < need)
    (h : VInv keeps fits w m v xs cap) :
    ∃ v' m' b blk, (if cap < need then v.reserve A (need - cap) m else .ok (v, m)) = .ok (v', m') ∧
      VInvB keeps fits w m' v' b blk xs (max cap need) ∧ m'.dropped = m.dropped ∧
      (cap < need → ∃ fr, init fr need ∧ ∀ j, xs.length ≤ j → blk.cells j = fr.cells j) := by
  by_cases hc : cap < need
  · obtain ⟨v1, m1, b, blk, fr, hr, hB, _, hi, hcl, _, ef⟩ := h.reserve hA
      (add := need - cap) (by omega)
    rw [show cap + (need - cap) = max cap need by omega] at hB
    rw [show cap + (need - cap) = need by omega] at hi
    exact ⟨v1, m1, b, blk, by simp only [hc, if_true]; exact hr, hB,
      by rw [ef.dropped, List.append_nil], fun _ => ⟨fr, hi, hcl⟩⟩
  · have h1 : max cap need = cap := by omega
    obtain ⟨hk, w', hw, h' | ⟨b, blk, h'⟩⟩ := h
    · have := h'.cap0
      omega
    · exact ⟨v, m, b, blk, by simp [hc], by rw [h1]; exact ⟨hk, w', hw, h'⟩, rfl,
        fun h => absurd h hc⟩

/-- `append` that meets a panicking `clone`. -/
theorem VInv.appendP_boom (hA : Lawful A fits keeps init)
    (hinit : ∀ blk n, init blk n → ∀ j, blk.cells j = none)
    {boom : α → Bool} {pre : List α} {x : α} {post : List α}
    (hpre : ∀ y ∈ pre, boom y = false) (hx : boom x = true) (h : VInv keeps fits w m v xs cap) :
    ∃ v' m', v.appendP A boom (pre ++ x :: post) m = .ok (.unwinds (v', m')) ∧
      v'.len = .ok (xs.length + (pre ++ x :: post).length) ∧ m'.dropped = m.dropped ∧
      m'.readRange v'.beginPtr (xs.length + pre.length) = .ok (xs ++ pre) ∧
      (cap < xs.length + (pre ++ x :: post).length → v'.asSlice m' = .error .ub) := by
  obtain ⟨v1, m1, b, blk, hr, hB, hd, hc⟩ := h.reserveOwn hA
    (need := xs.length + (pre ++ x :: post).length) (by simp only [List.length_append, List.length_cons]; omega)
  have hlv := hB.live_b
  have hpt := hB.ptrs
  have hcl := hB.cap_le
  obtain ⟨m2, e1, e2, e3⟩ := Mem.cloneFromP_boom pre x post xs.length m1 blk hlv (by omega) hpre hx
  have hl2 : m2.live b = some { blk with cells := fun j =>
      if xs.length ≤ j ∧ j < xs.length + pre.length then pre[j - xs.length]? else blk.cells j } := by
    rw [e2]; simp
  refine ⟨⟨.loc b 0, .loc b (xs.length + (pre ++ x :: post).length),
    .loc b (max cap (xs.length + (pre ++ x :: post).length))⟩, m2, ?_, ?_, ?_, ?_, fun hgrow => ?_⟩
  · unfold Vec.appendP
    rw [h.len, h.capacity]
    subst hpt
    simp only [Exec.ok_bind, hr,
      Mem.ptrAdd_loc hlv (show xs.length + (pre ++ x :: post).length ≤ blk.size by omega),
      reduceCtorEq, if_false, Mem.ptrAdd_loc hlv (show 0 + xs.length ≤ blk.size by omega),
      Nat.zero_add, e1]
  · simp [Vec.len, Ptr.offsetFrom]
  · rw [e3, hd]
  · have := Mem.readRange_loc hl2 (xs ++ pre) 0
      (by simp only [List.length_append, List.length_cons] at hcl ⊢
          show 0 + (xs.length + pre.length) ≤ blk.size; omega) (fun i hin => ?_)
    · rw [List.length_append] at this; exact this
    · rw [List.length_append] at hin
      rw [Nat.zero_add]
      by_cases h3 : i < xs.length
      · have h4 : ¬ (xs.length ≤ i ∧ i < xs.length + pre.length) := by omega
        simp only [h4, if_false]
        rw [hB.cells i h3, List.getElem?_append_left h3]
      · have h4 : xs.length ≤ i ∧ i < xs.length + pre.length := by omega
        simp only [h4, and_self, if_true]
        rw [List.getElem?_append_right (by omega)]
  · obtain ⟨fr, hi, hcf⟩ := hc hgrow
    have hu : Mem.readRange m2 (.loc b 0) (xs.length + (pre ++ x :: post).length) = .error .ub := by
      refine readRange_uninit hl2 _ 0 (xs.length + pre.length) (by omega)
        (by simp) ?_
      simp only [Nat.lt_irrefl, and_false, if_false]
      rw [hcf _ (by omega)]
      exact hinit fr _ hi _
    simp only [Vec.asSlice, reduceCtorEq, if_false, Vec.len, Ptr.offsetFrom, Nat.zero_le, and_self,
      if_true, Nat.sub_zero, Exec.ok_bind, hu]

/-- `assign` that meets a panicking `clone`. -/
theorem VInv.assignP_boom (hA : Lawful A fits keeps init)
    (hinit : ∀ blk n, init blk n → ∀ j, blk.cells j = none)
    {boom : α → Bool} {pre : List α} {x : α} {post : List α}
    (hpre : ∀ y ∈ pre, boom y = false) (hx : boom x = true) (h : VInv keeps fits w m v xs cap) :
    ∃ v' m', v.assignP A boom (pre ++ x :: post) m = .ok (.unwinds (v', m')) ∧
      v'.len = .ok (pre ++ x :: post).length ∧ m'.dropped = m.dropped ∧
      (let zs := (pre ++ xs.drop pre.length).take (pre ++ x :: post).length
       m'.readRange v'.beginPtr zs.length = .ok zs) ∧
      ((pre ++ x :: post).length ≤ xs.length → v'.asSlice m' =
        .ok (pre ++ (xs.take (pre ++ x :: post).length).drop pre.length)) ∧
      (cap < (pre ++ x :: post).length → v'.asSlice m' = .error .ub) := by
  obtain ⟨v1, m1, b, blk, hr, hB, hd, hc⟩ := h.reserveOwn hA
    (need := (pre ++ x :: post).length) (by simp only [List.length_append, List.length_cons]; omega)
  have hlv := hB.live_b
  have hpt := hB.ptrs
  have hcl := hB.cap_le
  have hlc := h.len_le
  obtain ⟨m2, e1, e2, e3⟩ := Mem.cloneFromP_boom pre x post 0 m1 blk hlv (by omega) hpre hx
  have hl2 : m2.live b = some { blk with cells := fun j =>
      if 0 ≤ j ∧ j < 0 + pre.length then pre[j - 0]? else blk.cells j } := by
    rw [e2]; simp
  have hread : m2.readRange (.loc b 0)
      ((pre ++ xs.drop pre.length).take (pre ++ x :: post).length).length =
      .ok ((pre ++ xs.drop pre.length).take (pre ++ x :: post).length) := by
    refine Mem.readRange_loc hl2 _ 0 ?_ (fun i hin => ?_)
    · show 0 + _ ≤ blk.size
      rw [List.length_take]
      omega
    · rw [List.length_take] at hin
      rw [List.getElem?_take, if_pos (by omega), Nat.zero_add]
      by_cases h3 : i < pre.length
      · simp only [Nat.zero_le, Nat.zero_add, h3, and_self, if_true, Nat.sub_zero]
        rw [List.getElem?_append_left h3]
      · simp only [Nat.zero_le, Nat.zero_add, h3, and_false, if_false]
        simp only [List.length_append, List.length_drop] at hin
        rw [List.getElem?_append_right (by omega), List.getElem?_drop, hB.cells i (by omega)]
        congr 1
        omega
  refine ⟨⟨.loc b 0, .loc b (pre ++ x :: post).length,
    .loc b (max cap (pre ++ x :: post).length)⟩, m2, ?_, ?_, ?_, hread, fun hle => ?_,
    fun hgrow => ?_⟩
  · unfold Vec.assignP
    rw [h.capacity]
    subst hpt
    simp only [Exec.ok_bind, hr,
      Mem.ptrAdd_loc hlv (show 0 + (pre ++ x :: post).length ≤ blk.size by omega), Nat.zero_add,
      reduceCtorEq, if_false, e1]
  · simp [Vec.len, Ptr.offsetFrom]
  · rw [e3, hd]
  · have hzs : (pre ++ xs.drop pre.length).take (pre ++ x :: post).length =
        pre ++ (xs.take (pre ++ x :: post).length).drop pre.length := by
      rw [List.take_append, List.drop_take, List.take_of_length_le (by simp)]
    have hzl : ((pre ++ xs.drop pre.length).take (pre ++ x :: post).length).length =
        (pre ++ x :: post).length := by
      simp only [List.length_append, List.length_drop, List.length_take, List.length_cons] at hle ⊢
      omega
    rw [hzl, hzs] at hread
    simp only [Vec.asSlice, reduceCtorEq, if_false, Vec.len, Ptr.offsetFrom, Nat.zero_le, and_self,
      if_true, Nat.sub_zero, Exec.ok_bind, hread]
  · obtain ⟨fr, hi, hcf⟩ := hc hgrow
    have hu : Mem.readRange m2 (.loc b 0) (pre ++ x :: post).length = .error .ub := by
      refine readRange_uninit hl2 _ 0 (max pre.length xs.length) (by omega) ?_ ?_
      · simp only [List.length_append, List.length_cons] at hgrow ⊢
        omega
      · have : ¬ max pre.length xs.length < 0 + pre.length := by omega
        simp only [this, and_false, if_false]
        rw [hcf _ (by omega)]
        exact hinit fr _ hi _
    simp only [Vec.asSlice, reduceCtorEq, if_false, Vec.len, Ptr.offsetFrom, Nat.zero_le, and_self,
      if_true, Nat.sub_zero, Exec.ok_bind, hu]

end Verif
