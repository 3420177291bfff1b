import Verif.FixedVector.Model
import Verif.Vector.Iter

/-! Lemmas about `FixedVector`. -/

set_option autoImplicit false

namespace Verif
open Spec

variable {α : Type}

/-- Layout rule for the inline buffer `d` and for overflow blocks. -/
def fixedFits (d : Nat) : Nat → Nat → Region → Nat → Prop :=
  fun b size region n => size = n ∧ (b = d ∧ region = .inline ∨ b ≠ d ∧ region = .heap)

theorem fixedAllocator_lawful (R : RawAlloc α) (d : Nat) :
    Lawful (fixedAllocator R (.loc d 0)) (fixedFits d) (fun b => b = d)
      (fun blk _ => blk.cells = fun _ => none) where
  alloc_ok := by
    intro n m hn hk
    have hne : R.pick m n ≠ d := fun e => hk d rfl (e ▸ R.fresh m n)
    refine ⟨R.pick m n, ⟨n, .heap, fun _ => none⟩, (R.alloc n m).2, ?_, R.fresh m n, ?_,
      ⟨rfl, .inr ⟨hne, rfl⟩⟩, Nat.le_refl _, hne, rfl, rfl, rfl, rfl⟩
    · have : n ≠ 0 := by omega
      simp [fixedAllocator, defaultAllocator, this, RawAlloc.alloc]
    · rfl
  dealloc_free := by
    intro b n m blk h hf hk
    refine ⟨m.setBlock b none, ?_, rfl, rfl, rfl, rfl⟩
    obtain ⟨hs, ⟨e, _⟩ | ⟨_, hr⟩⟩ := hf
    · exact absurd e hk
    · simp [fixedAllocator, defaultAllocator, rawDealloc, h, hs, hr, hk]
  dealloc_keep := by
    intro b n m blk _ _ h
    simp [fixedAllocator, h]

/-- Layout rule once the buffer `s` is no longer this object's. -/
def staleFits (s : Nat) : Nat → Nat → Region → Nat → Prop :=
  fun b size region n => size = n ∧ b ≠ s ∧ region = .heap

theorem staleAllocator_lawful (R : RawAlloc α) (s : Nat) (hR : ∀ m n, R.pick m n ≠ s) :
    Lawful (fixedAllocator R (.loc s 0)) (staleFits s) (fun _ => False)
      (fun blk _ => blk.cells = fun _ => none) where
  alloc_ok := by
    intro n m hn _
    refine ⟨R.pick m n, ⟨n, .heap, fun _ => none⟩, (R.alloc n m).2, ?_, R.fresh m n, ?_,
      ⟨rfl, hR m n, rfl⟩, Nat.le_refl _, not_false, rfl, rfl, rfl, rfl⟩
    · have : n ≠ 0 := by omega
      simp [fixedAllocator, defaultAllocator, this, RawAlloc.alloc]
    · rfl
  dealloc_free := by
    intro b n m blk h hf _
    refine ⟨m.setBlock b none, ?_, rfl, rfl, rfl, rfl⟩
    obtain ⟨hs, hb, hr⟩ := hf
    simp [fixedAllocator, defaultAllocator, rawDealloc, h, hs, hr, hb]
  dealloc_keep := by
    intro b n m blk _ _ h
    exact h.elim

section
variable {fits : Nat → Nat → Region → Nat → Prop} {keeps : Nat → Prop}
  {init : Block α → Nat → Prop} {A : Allocator α}
  {w : World α} {m : Mem α} {v : Vec} {b : Nat} {blk : Block α} {xs : List α} {cap : Nat}

theorem VInv.ownAt (h : VInv keeps fits w m v xs cap) {b : Nat} (hb : v.beginPtr = .loc b 0) :
    ∃ blk, VInvB keeps fits w m v b blk xs cap := by
  obtain ⟨hk, w', hw, h' | ⟨b', blk, h'⟩⟩ := h
  · rw [h'.ptrs] at hb; cases hb
  · have := h'.ptrs
    rw [this] at hb
    cases hb
    exact ⟨blk, hk, w', hw, h'⟩

theorem VInvB.append_room (buf : List α) (h : VInvB keeps fits w m v b blk xs cap)
    (hA : Lawful A fits keeps init) (hroom : xs.length + buf.length ≤ cap) :
    ∃ v' m' blk', v.append A false buf m = .ok (v', m') ∧
      VInvB keeps fits w m' v' b blk' (xs ++ buf) cap ∧ Eff m m' [] 0 0 := by
  obtain ⟨v', m', he, hi, hef⟩ := h.inv.append hA buf
  have hb : v'.beginPtr = .loc b 0 := by
    unfold Vec.append at he
    rw [h.inv.len, h.inv.capacity] at he
    have hn : ¬ cap < xs.length + buf.length := by omega
    have hpt := h.ptrs
    have hcl := h.cap_le
    have hlv := h.live_b
    subst hpt
    simp only [Exec.ok_bind, hn, if_false,
      Mem.ptrAdd_loc hlv (show xs.length + buf.length ≤ blk.size by omega),
      Mem.ptrAdd_loc hlv (show 0 + xs.length ≤ blk.size by omega), reduceCtorEq] at he
    cases hc : m.cloneFrom false (.loc b (0 + xs.length)) buf with
    | error e => rw [hc] at he; cases he
    | ok m2 => rw [hc] at he; cases he; rfl
  have hmax : max cap (xs.length + buf.length) = cap := by omega
  have hn : ¬ cap < xs.length + buf.length := by omega
  rw [hmax] at hi
  obtain ⟨blk', hB⟩ := hi.ownAt hb
  exact ⟨v', m', blk', he, hB, by simpa [hn] using hef⟩

theorem VInvB.assign_room (buf : List α) (h : VInvB keeps fits w m v b blk xs cap)
    (hA : Lawful A fits keeps init) (hroom : buf.length ≤ cap) :
    ∃ v' m' blk', v.assign A false buf m = .ok (v', m') ∧
      VInvB keeps fits w m' v' b blk' buf cap ∧ Eff m m' [] 0 0 := by
  obtain ⟨v', m', he, hi, hef⟩ := h.inv.assign hA false buf (by simp)
  have hb : v'.beginPtr = .loc b 0 := by
    unfold Vec.assign at he
    rw [h.inv.capacity] at he
    have hn : ¬ cap < buf.length := by omega
    have hpt := h.ptrs
    have hcl := h.cap_le
    have hlv := h.live_b
    subst hpt
    simp only [Exec.ok_bind, hn, if_false,
      Mem.ptrAdd_loc hlv (show 0 + buf.length ≤ blk.size by omega), reduceCtorEq] at he
    cases hc : m.cloneFrom false (.loc b 0) buf with
    | error e => rw [hc] at he; cases he
    | ok m2 => rw [hc] at he; cases he; rfl
  have hmax : max cap buf.length = cap := by omega
  have hn : ¬ cap < buf.length := by omega
  rw [hmax] at hi
  obtain ⟨blk', hB⟩ := hi.ownAt hb
  exact ⟨v', m', blk', he, hB, by simpa [hn] using hef⟩

/-- Calls other than `clear` that fit in the capacity stay in the same block and do not call
the allocator. -/
theorem VInvB.step_room (hA : Lawful A fits keeps init) (nd : Bool) (op : SeqOp α)
    (hop : nd = true → op.isSlice = false) (hcl : op ≠ .clear)
    (hcap : op.capAfter xs.length cap = cap) (h : VInvB keeps fits w m v b blk xs cap) :
    match op.step xs with
    | .error e => v.step A nd op m = .error e
    | .ok (o, ys) => ∃ v' m' blk' ds nc, v.step A nd op m = .ok (o, v', m') ∧
        VInvB keeps fits w m' v' b blk' ys cap ∧ Eff m m' ds 0 nc := by
  cases op with
  | push x =>
    have hlt : xs.length < cap := by
      simp only [SeqOp.capAfter] at hcap; split_ifs at hcap <;> omega
    obtain ⟨v', m', he, hi, hef⟩ := h.push_room (A := A) x hlt
    exact ⟨v', m', _, _, _, by simp [Vec.step, he], hi, hef⟩
  | pop =>
    rcases List.eq_nil_or_concat xs with hx | ⟨ys, x, hx⟩
    · subst hx
      exact ⟨v, m, blk, [], 0, by simp [Vec.step, h.inv.pop_nil], by simpa using h, Eff.refl m⟩
    · rw [List.concat_eq_append] at hx
      subst hx
      obtain ⟨v', he, hi⟩ := h.pop
      exact ⟨v', m, blk, [], 0, by simp [Vec.step, he], by simpa using hi, Eff.refl m⟩
  | insert i x =>
    have hlt : xs.length < cap := by
      simp only [SeqOp.capAfter] at hcap; split_ifs at hcap <;> omega
    simp only [SeqOp.step]
    by_cases hi : i ≤ xs.length
    · rw [if_pos hi]
      obtain ⟨v', m', blk', he, hinv, _, hef⟩ := h.insert_room (A := A) x hi hlt
      rw [insertIdx_eq_take_drop x xs i hi] at hinv
      exact ⟨v', m', blk', _, _, by simp [Vec.step, he], hinv, hef⟩
    · rw [if_neg hi]
      simp [Vec.step, h.inv.insert_panic x hi]
  | remove i =>
    by_cases hi : i < xs.length
    · obtain ⟨v', m', blk', he, hinv, _, hef⟩ := h.remove hi
      rw [eraseIdx_eq_take_drop] at hinv
      exact ⟨v', m', blk', _, _, by simp [Vec.step, he], hinv, hef⟩
    · have hle : xs.length ≤ i := by omega
      have hn : xs[i]? = none := by simp [hle]
      have ht : xs.take i ++ xs.drop (i + 1) = xs := by
        rw [List.take_of_length_le hle, List.drop_eq_nil_of_le (by omega)]; simp
      refine ⟨v, m, blk, [], 0, by simp [Vec.step, h.inv.remove_none hle, hn], ?_, Eff.refl m⟩
      rw [ht]; exact h
  | set i x =>
    simp only [SeqOp.step]
    by_cases hi : i < xs.length
    · rw [if_pos hi]
      obtain ⟨m', he, hinv, hef⟩ := h.setAt nd x hi
      rw [set_eq_take_drop x xs i hi] at hinv
      exact ⟨v, m', _, _, _, by simp [Vec.step, he], hinv, hef⟩
    · rw [if_neg hi]
      simp [Vec.step, h.inv.setAt_panic nd x hi]
  | reserve n =>
    have : n = 0 := by simpa [SeqOp.capAfter] using hcap
    subst this
    exact ⟨v, m, blk, [], 0, by simp [Vec.step, Vec.reserve], h, Eff.refl m⟩
  | append buf =>
    have hnd : nd = false := by
      cases nd
      · rfl
      · simpa [SeqOp.isSlice] using hop rfl
    subst hnd
    have hr : xs.length + buf.length ≤ cap := by simp only [SeqOp.capAfter] at hcap; omega
    obtain ⟨v', m', blk', he, hinv, hef⟩ := h.append_room buf hA hr
    exact ⟨v', m', blk', _, _, by simp [Vec.step, he], hinv, hef⟩
  | assign buf =>
    have hnd : nd = false := by
      cases nd
      · rfl
      · simpa [SeqOp.isSlice] using hop rfl
    subst hnd
    have hr : buf.length ≤ cap := by simp only [SeqOp.capAfter] at hcap; omega
    obtain ⟨v', m', blk', he, hinv, hef⟩ := h.assign_room buf hA hr
    exact ⟨v', m', blk', _, _, by simp [Vec.step, he], hinv, hef⟩
  | clear => exact absurd rfl hcl
  | len => exact ⟨v, m, blk, [], 0, by simp [Vec.step, h.inv.len], h, Eff.refl m⟩
  | isEmpty =>
    refine ⟨v, m, blk, [], 0, ?_, h, Eff.refl m⟩
    simp only [Vec.step, h.inv.isEmpty, Exec.ok_bind]
    cases xs <;> simp
  | slice => exact ⟨v, m, blk, [], 0, by simp [Vec.step, h.inv.slice], h, Eff.refl m⟩

end

/-- `FVec.run` is `Vec.run` on the base vector; the other fields never change. -/
theorem FVec.run_eq (R : RawAlloc α) (nd : Bool) (ops : List (SeqOp α)) :
    ∀ (f : FVec) (m : Mem α), f.run R nd ops m =
      (f.vec.run (fixedAllocator R f.pool) nd ops m).map
        (fun r => (r.1, { f with vec := r.2.1 }, r.2.2)) := by
  induction ops with
  | nil => intro f m; rfl
  | cons op ops ih =>
    intro f m
    simp only [FVec.run, FVec.step, Vec.run]
    cases h : f.vec.step (fixedAllocator R f.pool) nd op m with
    | error e => rfl
    | ok r =>
      obtain ⟨o, v, m1⟩ := r
      simp only [Exec.ok_bind, ih]
      cases h2 : v.run (fixedAllocator R f.pool) nd ops m1 with
      | error e => rfl
      | ok r => rfl

section
variable {fits : Nat → Nat → Region → Nat → Prop} {keeps : Nat → Prop}
  {init : Block α → Nat → Prop} {A : Allocator α}
  {w : World α} {m : Mem α} {v : Vec} {xs : List α} {cap : Nat}

theorem Exec.bind_ok {β γ : Type} {e : Exec β} {f : β → Exec γ} {c : γ} (h : (e >>= f) = .ok c) :
    ∃ b, e = .ok b ∧ f b = .ok c := by
  cases e with
  | error e => cases h
  | ok b => exact ⟨b, rfl, h⟩

/-- A call that needs more room leaves the vector outside the inline blocks. -/
theorem VInv.step_grown (hA : Lawful A fits keeps init) (nd : Bool) (op : SeqOp α)
    (hcap : op = .clear ∨ op.capAfter xs.length cap ≠ cap) (h : VInv keeps fits w m v xs cap)
    {o : Out α} {v' : Vec} {m' : Mem α} (hs : v.step A nd op m = .ok (o, v', m'))
    {b : Nat} (hb : keeps b) : v'.beginPtr ≠ .loc b 0 := by
  have hres : ∀ {add : Nat} {v1 : Vec} {m1 : Mem α}, 0 < add → v.reserve A add m = .ok (v1, m1) →
      v1.beginPtr ≠ .loc b 0 := by
    intro add v1 m1 ha hr
    obtain ⟨v2, m2, b', blk', fr, he, hB, hk, _⟩ := h.reserve hA ha
    rw [he] at hr
    cases hr
    rw [hB.ptrs]
    rintro ⟨⟩
    exact hk hb
  have hgrow : ∀ {v1 : Vec} {m1 : Mem α}, v.grow A m = .ok (v1, m1) → v1.beginPtr ≠ .loc b 0 := by
    intro v1 m1 hg
    unfold Vec.grow at hg
    rw [h.capacity] at hg
    simp only [Exec.ok_bind] at hg
    have := (calc_grow cap).2
    exact hres (by omega) hg
  cases op with
  | push x =>
    have hf : xs.length = cap := by
      have := h.len_le
      simp only [SeqOp.capAfter, reduceCtorEq, false_or] at hcap
      split_ifs at hcap <;> omega
    obtain ⟨⟨v1, m1⟩, h1, h2⟩ := Exec.bind_ok hs
    cases h2
    unfold Vec.push at h1
    rw [h.isFull] at h1
    simp only [Exec.ok_bind, hf, beq_self_eq_true, if_true] at h1
    obtain ⟨⟨v2, m2⟩, hg, h3⟩ := Exec.bind_ok h1
    obtain ⟨m3, _, h4⟩ := Exec.bind_ok h3
    obtain ⟨v4, h5, h6⟩ := Exec.bind_ok h4
    obtain ⟨e, _, h7⟩ := Exec.bind_ok h5
    cases h6; cases h7
    exact (hgrow hg :)
  | insert i x =>
    have hf : xs.length = cap := by
      have := h.len_le
      simp only [SeqOp.capAfter, reduceCtorEq, false_or] at hcap
      split_ifs at hcap <;> omega
    obtain ⟨⟨v1, m1⟩, h1, h2⟩ := Exec.bind_ok hs
    cases h2
    unfold Vec.insert at h1
    rw [h.len] at h1
    simp only [Exec.ok_bind] at h1
    split_ifs at h1 with hi
    rw [h.isFull] at h1
    simp only [Exec.ok_bind, hf, beq_self_eq_true, if_true] at h1
    obtain ⟨⟨v2, m2⟩, hg, h3⟩ := Exec.bind_ok h1
    obtain ⟨_, _, h3⟩ := Exec.bind_ok h3
    obtain ⟨_, _, h3⟩ := Exec.bind_ok h3
    obtain ⟨_, _, h3⟩ := Exec.bind_ok h3
    obtain ⟨_, _, h3⟩ := Exec.bind_ok h3
    obtain ⟨_, _, h3⟩ := Exec.bind_ok h3
    obtain ⟨_, _, h3⟩ := Exec.bind_ok h3
    obtain ⟨v4, h5, h6⟩ := Exec.bind_ok h3
    obtain ⟨e, _, h7⟩ := Exec.bind_ok h5
    cases h6; cases h7
    exact (hgrow hg :)
  | reserve n =>
    have hn : 0 < n := by
      simp only [SeqOp.capAfter, reduceCtorEq, false_or] at hcap; omega
    obtain ⟨⟨v1, m1⟩, h1, h2⟩ := Exec.bind_ok hs
    cases h2
    exact hres hn h1
  | append buf =>
    have hn : cap < xs.length + buf.length := by
      simp only [SeqOp.capAfter, reduceCtorEq, false_or] at hcap; omega
    obtain ⟨⟨v1, m1⟩, h1, h2⟩ := Exec.bind_ok hs
    cases h2
    unfold Vec.append at h1
    rw [h.len, h.capacity] at h1
    simp only [Exec.ok_bind, hn, if_true] at h1
    obtain ⟨⟨v2, m2⟩, hg, h3⟩ := Exec.bind_ok h1
    obtain ⟨e, _, h3⟩ := Exec.bind_ok h3
    simp only at h3
    split_ifs at h3 with hnull
    · cases h3
      rw [hnull]; simp
    · obtain ⟨_, _, h3⟩ := Exec.bind_ok h3
      obtain ⟨_, _, h3⟩ := Exec.bind_ok h3
      cases h3
      exact (hres (by omega) hg :)
  | assign buf =>
    have hn : cap < buf.length := by
      simp only [SeqOp.capAfter, reduceCtorEq, false_or] at hcap; omega
    obtain ⟨⟨v1, m1⟩, h1, h2⟩ := Exec.bind_ok hs
    cases h2
    unfold Vec.assign at h1
    rw [h.capacity] at h1
    simp only [Exec.ok_bind, hn, if_true] at h1
    obtain ⟨⟨v2, m2⟩, hg, h3⟩ := Exec.bind_ok h1
    obtain ⟨e, _, h3⟩ := Exec.bind_ok h3
    simp only at h3
    split_ifs at h3 with hnull
    · cases h3
      rw [hnull]; simp
    · obtain ⟨_, _, h3⟩ := Exec.bind_ok h3
      cases h3
      exact (hres (by omega) hg :)
  | clear =>
    obtain ⟨⟨v1, m1⟩, h1, h2⟩ := Exec.bind_ok hs
    cases h2
    obtain ⟨_, _, h3⟩ := Exec.bind_ok h1
    cases h3
    simp
  | pop | remove | set | len | isEmpty | slice => simp [SeqOp.capAfter] at hcap

/-- If a call leaves the vector in an inline block, it was there before and its capacity is
unchanged. -/
theorem VInv.step_inline (hA : Lawful A fits keeps init) (nd : Bool) (op : SeqOp α)
    (hop : nd = true → op.isSlice = false) (h : VInv keeps fits w m v xs cap)
    {o : Out α} {v' : Vec} {m' : Mem α} (hs : v.step A nd op m = .ok (o, v', m'))
    {b : Nat} (hb : keeps b) (hv : v'.beginPtr = .loc b 0) :
    v.beginPtr = .loc b 0 ∧ op ≠ .clear ∧ op.capAfter xs.length cap = cap := by
  have hcap : ¬ (op = .clear ∨ op.capAfter xs.length cap ≠ cap) :=
    fun hc => h.step_grown hA nd op hc hs hb hv
  have hc1 : op ≠ .clear := fun e => hcap (.inl e)
  have hc2 : op.capAfter xs.length cap = cap := Classical.byContradiction fun e => hcap (.inr e)
  refine ⟨?_, hc1, hc2⟩
  obtain ⟨hk, w', hw, hn | ⟨b0, blk, ho⟩⟩ := h
  · -- a null vector stays null when its capacity does not change
    exfalso
    have h : VInv keeps fits w m v xs cap := ⟨hk, w', hw, .inl hn⟩
    have hst := h.step hA nd op hop
    cases hso : op.step xs with
    | error e => rw [hso] at hst; simp only at hst; rw [hst] at hs; cases hs
    | ok r =>
      obtain ⟨o', ys⟩ := r
      rw [hso] at hst
      obtain ⟨v1, m1, _, _, _, he, hi, _, _⟩ := hst
      rw [he] at hs
      cases hs
      obtain ⟨blk, hB⟩ := hi.ownAt hv
      -- the inline block would have capacity 0, yet it was never allocated to the vector
      cases op with
      | clear => exact hc1 rfl
      | push x => simp [SeqOp.capAfter, hn.nil, hn.cap0] at hc2
      | insert i x => simp [SeqOp.capAfter, hn.nil, hn.cap0] at hc2
      | pop =>
        have : v.pop m = .ok (none, v) := by
          have := hn.nil; subst this; exact h.pop_nil
        simp [Vec.step, this] at he
        rw [← he.2.1, hn.ptrs] at hv; cases hv
      | remove i =>
        have : v.remove i m = .ok (none, v, m) := h.remove_none (by simp [hn.nil])
        simp [Vec.step, this] at he
        rw [← he.2.1, hn.ptrs] at hv; cases hv
      | set i x =>
        have : v.setAt nd i x m = .error .panic := h.setAt_panic nd x (by simp [hn.nil])
        simp [Vec.step, this] at he
      | reserve n =>
        have : n = 0 := by simpa [SeqOp.capAfter] using hc2
        subst this
        simp [Vec.step, Vec.reserve] at he
        rw [← he.2.1, hn.ptrs] at hv; cases hv
      | append buf =>
        have : buf = [] := by
          simp [SeqOp.capAfter, hn.nil, hn.cap0] at hc2; exact hc2
        subst this
        simp [Vec.step, Vec.append, Vec.len, Vec.capacity, Ptr.offsetFrom, hn.ptrs] at he
        rw [← he.2.1] at hv; cases hv
      | assign buf =>
        have : buf = [] := by
          simp [SeqOp.capAfter, hn.cap0] at hc2; exact hc2
        subst this
        simp [Vec.step, Vec.assign, Vec.capacity, Ptr.offsetFrom, hn.ptrs] at he
        rw [← he.2.1] at hv; cases hv
      | len | isEmpty | slice =>
        obtain ⟨_, _, he⟩ := Exec.bind_ok he
        cases he
        rw [hn.ptrs] at hv; cases hv
  · have hB : VInvB keeps fits w m v b0 blk xs cap := ⟨hk, w', hw, ho⟩
    have hst := hB.step_room hA nd op hop hc1 hc2
    cases hso : op.step xs with
    | error e => rw [hso] at hst; simp only at hst; rw [hst] at hs; cases hs
    | ok r =>
      obtain ⟨o', ys⟩ := r
      rw [hso] at hst
      obtain ⟨v1, m1, _, _, _, he, hi, _⟩ := hst
      rw [he] at hs
      cases hs
      rw [hi.ptrs] at hv
      rw [hB.ptrs]
      exact hv

/-- A vector outside an inline block stays outside. -/
theorem VInv.run_out (hA : Lawful A fits keeps init) (nd : Bool) : ∀ (ops : List (SeqOp α))
    (_ : nd = true → ∀ op ∈ ops, op.isSlice = false)
    {v v' : Vec} {m m' : Mem α} {xs : List α} {cap : Nat} {outs : List (Out α)}
    (_ : VInv keeps fits w m v xs cap) {b : Nat} (_ : keeps b)
    (_ : v.run A nd ops m = .ok (outs, v', m')) (_ : v.beginPtr ≠ .loc b 0),
    v'.beginPtr ≠ .loc b 0 := by
  intro ops
  induction ops with
  | nil =>
    intro _ v v' m m' xs cap outs _ b _ hr hne
    cases hr
    exact hne
  | cons op ops ih =>
    intro hops v v' m m' xs cap outs hi b hb hr hne
    obtain ⟨⟨o, v1, m1⟩, h1, h2⟩ := Exec.bind_ok hr
    obtain ⟨⟨os, v2, m2⟩, h3, h4⟩ := Exec.bind_ok h2
    cases h4
    have hst := hi.step hA nd op (fun hn => hops hn op (by simp))
    cases hs : op.step xs with
    | error e => rw [hs] at hst; simp only at hst; rw [hst] at h1; cases h1
    | ok r =>
      obtain ⟨o', ys⟩ := r
      rw [hs] at hst
      obtain ⟨v3, m3, _, _, _, he3, hi3, _, _⟩ := hst
      rw [h1] at he3
      cases he3
      exact ih (fun hn op' h => hops hn op' (by simp [h])) hi3 hb h3
        fun hv => hne (hi.step_inline hA nd op (fun hn => hops hn op (by simp)) h1 hb hv).1

end

end Verif
