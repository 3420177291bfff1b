import Verif.Vector.Model
import Verif.MemLemmas

/-! Representation relation for `Vector` and per-operation lemmas. -/

set_option autoImplicit false

namespace Verif

/-- The rest of memory. -/
abbrev World (α : Type) := Nat → Option (Block α)

section
variable {α : Type}

/-- Ghost effects of an operation: values dropped, allocator calls, elements copied. -/
structure Eff (m m' : Mem α) (drops : List α) (na nc : Nat) : Prop where
  dropped : m'.dropped = m.dropped ++ drops
  allocs : m'.allocs = m.allocs + na
  copied : m'.copied = m.copied + nc

theorem Eff.refl (m : Mem α) : Eff m m [] 0 0 := ⟨by simp, rfl, rfl⟩

theorem Eff.trans {m1 m2 m3 : Mem α} {d1 d2 : List α} {a1 a2 c1 c2 : Nat}
    (h1 : Eff m1 m2 d1 a1 c1) (h2 : Eff m2 m3 d2 a2 c2) :
    Eff m1 m3 (d1 ++ d2) (a1 + a2) (c1 + c2) :=
  ⟨by rw [h2.dropped, h1.dropped, List.append_assoc],
   by rw [h2.allocs, h1.allocs, Nat.add_assoc],
   by rw [h2.copied, h1.copied, Nat.add_assoc]⟩

/-- The vector owns block `b`: memory is the rest `w` plus that block, whose first cells hold
`xs`. -/
structure VOwn (fits : Nat → Nat → Region → Nat → Prop) (w : World α) (m : Mem α) (v : Vec)
    (b : Nat) (blk : Block α) (xs : List α) (cap : Nat) : Prop where
  fresh : w b = none
  live : m.live = Function.update w b (some blk)
  fit : fits b blk.size blk.region cap
  cap_le : cap ≤ blk.size
  len_le : xs.length ≤ cap
  cells : ∀ i, i < xs.length → blk.cells i = xs[i]?
  ptrs : v = ⟨.loc b 0, .loc b xs.length, .loc b cap⟩

/-- The vector owns nothing. -/
structure VNull (w : World α) (m : Mem α) (v : Vec) (xs : List α) (cap : Nat) : Prop where
  live : m.live = w
  ptrs : v = ⟨.null, .null, .null⟩
  nil : xs = []
  cap0 : cap = 0

/-- The vector represents `xs` with capacity `cap`, the rest of memory being `w`. -/
def VRep (fits : Nat → Nat → Region → Nat → Prop) (w : World α) (m : Mem α) (v : Vec)
    (xs : List α) (cap : Nat) : Prop :=
  VNull w m v xs cap ∨ ∃ b blk, VOwn fits w m v b blk xs cap

variable {fits : Nat → Nat → Region → Nat → Prop} {keeps : Nat → Prop}
  {init : Block α → Nat → Prop} {A : Allocator α}
  {w : World α} {m : Mem α} {v : Vec} {b : Nat} {blk : Block α} {xs : List α} {cap : Nat}

theorem VOwn.live_b (h : VOwn fits w m v b blk xs cap) : m.live b = some blk := by
  rw [h.live]; simp

theorem VRep.len (h : VRep fits w m v xs cap) : v.len = .ok xs.length := by
  rcases h with h | ⟨b, blk, h⟩
  · simp [Vec.len, h.ptrs, h.nil, Ptr.offsetFrom]
  · simp [Vec.len, h.ptrs, Ptr.offsetFrom]

theorem VRep.capacity (h : VRep fits w m v xs cap) : v.capacity = .ok cap := by
  rcases h with h | ⟨b, blk, h⟩
  · simp [Vec.capacity, h.ptrs, h.cap0, Ptr.offsetFrom]
  · simp [Vec.capacity, h.ptrs, Ptr.offsetFrom]

theorem VRep.len_le (h : VRep fits w m v xs cap) : xs.length ≤ cap := by
  rcases h with h | ⟨b, blk, h⟩
  · simp [h.nil]
  · exact h.len_le

theorem VRep.isEmpty (h : VRep fits w m v xs cap) : v.isEmpty = .ok (xs.length == 0) := by
  simp [Vec.isEmpty, h.len]

theorem VRep.isFull (h : VRep fits w m v xs cap) : v.isFull = .ok (xs.length == cap) := by
  simp [Vec.isFull, h.len, h.capacity]

theorem VOwn.rep (h : VOwn fits w m v b blk xs cap) : VRep fits w m v xs cap :=
  .inr ⟨b, blk, h⟩

theorem VOwn.begin_ne (h : VOwn fits w m v b blk xs cap) : v.beginPtr ≠ .null := by
  simp [h.ptrs]

theorem VOwn.slice (h : VOwn fits w m v b blk xs cap) : v.asSlice m = .ok xs := by
  have hr := Mem.readRange_loc h.live_b xs 0 (by have := h.len_le; have := h.cap_le; omega)
    (by simpa using h.cells)
  have hl := h.rep.len
  unfold Vec.asSlice
  rw [if_neg h.begin_ne, hl]
  simpa [h.ptrs] using hr

theorem VRep.slice (h : VRep fits w m v xs cap) : v.asSlice m = .ok xs := by
  rcases h with h | ⟨b, blk, h⟩
  · simp [Vec.asSlice, h.ptrs, h.nil]
  · exact h.slice

/-- `reserve` on a null vector. -/
theorem VNull.reserve (hA : Lawful A fits keeps init) {add : Nat} (hadd : 0 < add)
    (hk : ∀ b, keeps b → m.live b ≠ none) (h : VNull w m v xs cap) :
    ∃ v' m' b' blk', v.reserve A add m = .ok (v', m') ∧
      VOwn fits w m' v' b' blk' xs (cap + add) ∧ ¬ keeps b' ∧ init blk' (cap + add) ∧
      Eff m m' [] 1 0 := by
  obtain ⟨b', blk', m', ha, hfr, hl, hfit, hsz, hnk, hi, hd, hal, hc⟩ :=
    hA.alloc_ok (cap + add) m (by omega) hk
  have hlive : m'.live b' = some blk' := by rw [hl]; simp
  refine ⟨⟨.loc b' 0, .loc b' 0, .loc b' (cap + add)⟩, m', b', blk', ?_, ?_, hnk, hi,
    ⟨by simp [hd], hal, hc⟩⟩
  · have h0 : add ≠ 0 := by omega
    have hrep : VRep fits w m v xs cap := .inl h
    unfold Vec.reserve
    rw [if_neg h0, hrep.len, hrep.capacity]
    simp [ha, h.ptrs, h.nil, Mem.ptrAdd_loc hlive (show 0 + 0 ≤ blk'.size by omega),
      Mem.ptrAdd_loc hlive (show 0 + (cap + add) ≤ blk'.size by omega)]
  · exact ⟨by rw [← h.live]; exact hfr, by rw [hl, h.live], hfit, hsz, by simp [h.nil],
      by simp [h.nil], by simp [h.nil]⟩

/-- `reserve` on a vector that owns a block. -/
theorem VOwn.reserve (hA : Lawful A fits keeps init) {add : Nat} (hadd : 0 < add)
    (hk : ∀ b, keeps b → m.live b ≠ none) (h : VOwn fits w m v b blk xs cap) :
    ∃ v' m' w' b' blk' fr, v.reserve A add m = .ok (v', m') ∧
      (keeps b → w' = Function.update w b (some blk)) ∧ (¬ keeps b → w' = w) ∧
      VOwn fits w' m' v' b' blk' xs (cap + add) ∧ ¬ keeps b' ∧ b' ≠ b ∧
      init fr (cap + add) ∧ (∀ j, xs.length ≤ j → blk'.cells j = fr.cells j) ∧
      blk'.size = fr.size ∧ blk'.region = fr.region ∧
      Eff m m' [] 1 xs.length := by
  obtain ⟨b', fr, m1, ha, hfr, hl, hfit, hsz, hnk, hi, hd, hal, hc⟩ :=
    hA.alloc_ok (cap + add) m (by omega) hk
  have hb := h.live_b
  have hne : b' ≠ b := by
    intro e; rw [e, hb] at hfr; cases hfr
  have hlen := h.len_le
  have hcap := h.cap_le
  have hl1b : m1.live b = some blk := by rw [hl]; simp [Ne.symm hne, hb]
  have hl1b' : m1.live b' = some fr := by rw [hl]; simp
  obtain ⟨m2, hcp, hl2, hd2, hal2, hc2⟩ := Mem.copy_loc (n := xs.length) hl1b hl1b'
    (show 0 + xs.length ≤ blk.size by omega) (show 0 + xs.length ≤ fr.size by omega)
  have hl2b : m2.live b = some blk := by rw [hl2]; simp [Ne.symm hne, hl1b]
  have hw' : w b' = none := by
    have := hfr; rw [h.live] at this; simpa [hne] using this
  -- the new block
  have hown : ∀ (w' : World α) (m3 : Mem α),
      w' b' = none → m3.live = Function.update w' b' (some { fr with
          cells := fun j => if 0 ≤ j ∧ j < 0 + xs.length then blk.cells (0 + (j - 0))
            else fr.cells j }) →
      VOwn fits w' m3 ⟨.loc b' 0, .loc b' xs.length, .loc b' (cap + add)⟩ b' { fr with
          cells := fun j => if 0 ≤ j ∧ j < 0 + xs.length then blk.cells (0 + (j - 0))
            else fr.cells j } xs (cap + add) := by
    intro w' m3 h1 h2
    refine ⟨h1, h2, hfit, hsz, by omega, ?_, rfl⟩
    intro i hi
    simpa [hi] using h.cells i hi
  have h0 : add ≠ 0 := by omega
  by_cases hkb : keeps b
  · have hde := hA.dealloc_keep b cap m2 blk hl2b h.fit hkb
    have hl3 : m2.live b' = some { fr with
          cells := fun j => if 0 ≤ j ∧ j < 0 + xs.length then blk.cells (0 + (j - 0))
            else fr.cells j } := by rw [hl2]; simp
    refine ⟨_, m2, Function.update w b (some blk), b', _, fr, ?_, fun _ => rfl,
      fun hn => absurd hkb hn, hown _ m2 ?_ ?_, hnk, hne, hi, ?_, rfl, rfl, ?_⟩
    · unfold Vec.reserve
      rw [if_neg h0, h.rep.len, h.rep.capacity]
      simp only [Exec.ok_bind, ha, h.ptrs]
      simp only [reduceCtorEq, if_false, Exec.ok_bind, hcp, hde]
      rw [Mem.ptrAdd_loc hl3 (show 0 + xs.length ≤ fr.size by omega),
        Mem.ptrAdd_loc hl3 (show 0 + (cap + add) ≤ fr.size by omega)]
      simp
    · simp [hne, hw']
    · rw [hl2, hl, Function.update_idem, h.live]
    · intro j hj
      have : ¬ (j < xs.length) := by omega
      simp [this]
    · exact ⟨by simp [hd2, hd], by rw [hal2, hal], by rw [hc2, hc]⟩
  · obtain ⟨m3, hde, hl3, hd3, hal3, hc3⟩ := hA.dealloc_free b cap m2 blk hl2b h.fit hkb
    have hl3' : m3.live b' = some { fr with
          cells := fun j => if 0 ≤ j ∧ j < 0 + xs.length then blk.cells (0 + (j - 0))
            else fr.cells j } := by rw [hl3, hl2]; simp [hne]
    refine ⟨_, m3, w, b', _, fr, ?_, fun hn => absurd hn hkb,
      fun _ => rfl, hown _ m3 hw' ?_, hnk, hne, hi, ?_, rfl, rfl, ?_⟩
    · unfold Vec.reserve
      rw [if_neg h0, h.rep.len, h.rep.capacity]
      simp only [Exec.ok_bind, ha, h.ptrs]
      simp only [reduceCtorEq, if_false, Exec.ok_bind, hcp, hde]
      rw [Mem.ptrAdd_loc hl3' (show 0 + xs.length ≤ fr.size by omega),
        Mem.ptrAdd_loc hl3' (show 0 + (cap + add) ≤ fr.size by omega)]
      simp
    · rw [hl3, hl2, hl, Function.update_idem, h.live]
      rw [Function.update_comm hne.symm, Function.update_idem, Function.update_comm hne]
      congr 1
      funext j
      by_cases hj : j = b
      · subst hj; simp [h.fresh]
      · simp [hj]
    · intro j hj
      have : ¬ (j < xs.length) := by omega
      simp [this]
    · exact ⟨by simp [hd3, hd2, hd], by rw [hal3, hal2, hal], by rw [hc3, hc2, hc]⟩

/-- Inline blocks are live, and the vector represents `xs` in a rest of memory that differs
from `w` at most on inline blocks. -/
def VInv (keeps : Nat → Prop) (fits : Nat → Nat → Region → Nat → Prop) (w : World α) (m : Mem α)
    (v : Vec) (xs : List α) (cap : Nat) : Prop :=
  (∀ p, keeps p → m.live p ≠ none) ∧
    ∃ w' : World α, (∀ b, ¬ keeps b → w' b = w b) ∧ VRep fits w' m v xs cap

/-- As `VInv`, exposing the block. -/
def VInvB (keeps : Nat → Prop) (fits : Nat → Nat → Region → Nat → Prop) (w : World α) (m : Mem α)
    (v : Vec) (b : Nat) (blk : Block α) (xs : List α) (cap : Nat) : Prop :=
  (∀ p, keeps p → m.live p ≠ none) ∧
    ∃ w' : World α, (∀ b, ¬ keeps b → w' b = w b) ∧ VOwn fits w' m v b blk xs cap

theorem VInvB.inv (h : VInvB keeps fits w m v b blk xs cap) : VInv keeps fits w m v xs cap :=
  ⟨h.1, h.2.choose, h.2.choose_spec.1, h.2.choose_spec.2.rep⟩

theorem VInv.exists_rep (h : VInv keeps fits w m v xs cap) : ∃ w', VRep fits w' m v xs cap :=
  ⟨_, h.2.choose_spec.2⟩

theorem VInv.len (h : VInv keeps fits w m v xs cap) : v.len = .ok xs.length :=
  h.exists_rep.choose_spec.len
theorem VInv.capacity (h : VInv keeps fits w m v xs cap) : v.capacity = .ok cap :=
  h.exists_rep.choose_spec.capacity
theorem VInv.len_le (h : VInv keeps fits w m v xs cap) : xs.length ≤ cap :=
  h.exists_rep.choose_spec.len_le
theorem VInv.isEmpty (h : VInv keeps fits w m v xs cap) : v.isEmpty = .ok (xs.length == 0) :=
  h.exists_rep.choose_spec.isEmpty
theorem VInv.isFull (h : VInv keeps fits w m v xs cap) : v.isFull = .ok (xs.length == cap) :=
  h.exists_rep.choose_spec.isFull
theorem VInv.slice (h : VInv keeps fits w m v xs cap) : v.asSlice m = .ok xs :=
  h.exists_rep.choose_spec.slice

/-- A change confined to the owned block preserves the invariant. -/
theorem VInvB.update (h : VInvB keeps fits w m v b blk xs cap) {m' : Mem α} {v' : Vec}
    {blk' : Block α} {ys : List α}
    (hl : m'.live = Function.update m.live b (some blk')) (hs : blk'.size = blk.size)
    (hr : blk'.region = blk.region) (hlen : ys.length ≤ cap)
    (hc : ∀ i, i < ys.length → blk'.cells i = ys[i]?)
    (hv : v' = ⟨.loc b 0, .loc b ys.length, .loc b cap⟩) :
    VInvB keeps fits w m' v' b blk' ys cap := by
  obtain ⟨hk, w', hw, ho⟩ := h
  refine ⟨?_, w', hw, ?_⟩
  · intro p hp
    rw [hl]
    by_cases hpb : p = b
    · subst hpb; simp
    · simpa [hpb] using hk p hp
  · exact ⟨ho.fresh, by rw [hl, ho.live, Function.update_idem], by rw [hs, hr]; exact ho.fit,
      by rw [hs]; exact ho.cap_le, hlen, hc, hv⟩

theorem VInvB.live_b (h : VInvB keeps fits w m v b blk xs cap) : m.live b = some blk :=
  h.2.choose_spec.2.live_b
theorem VInvB.ptrs (h : VInvB keeps fits w m v b blk xs cap) :
    v = ⟨.loc b 0, .loc b xs.length, .loc b cap⟩ := h.2.choose_spec.2.ptrs
theorem VInvB.cap_le (h : VInvB keeps fits w m v b blk xs cap) : cap ≤ blk.size :=
  h.2.choose_spec.2.cap_le
theorem VInvB.cells (h : VInvB keeps fits w m v b blk xs cap) :
    ∀ i, i < xs.length → blk.cells i = xs[i]? := h.2.choose_spec.2.cells

/-- `reserve(add)`, `add > 0`. -/
theorem VInv.reserve (hA : Lawful A fits keeps init) {add : Nat} (hadd : 0 < add)
    (h : VInv keeps fits w m v xs cap) :
    ∃ v' m' b' blk' fr, v.reserve A add m = .ok (v', m') ∧
      VInvB keeps fits w m' v' b' blk' xs (cap + add) ∧ ¬ keeps b' ∧
      init fr (cap + add) ∧ (∀ j, xs.length ≤ j → blk'.cells j = fr.cells j) ∧
      m.live b' = none ∧ Eff m m' [] 1 xs.length := by
  obtain ⟨hk, w1, hw, h | ⟨b, blk, h⟩⟩ := h
  · obtain ⟨v', m', b', blk', hr, ho, hnk, hi, he⟩ := VNull.reserve hA hadd hk h
    refine ⟨v', m', b', blk', blk', hr, ⟨?_, w1, hw, ho⟩, hnk, hi, fun _ _ => rfl, ?_, ?_⟩
    · intro p hp
      have : p ≠ b' := fun e => hnk (e ▸ hp)
      rw [ho.live]
      simpa [this, ← h.live] using hk p hp
    · rw [h.live]; exact ho.fresh
    · simpa [h.nil] using he
  · obtain ⟨v', m', w2, b', blk', fr, hr, hw1, hw2, ho, hnk, hne, hi, hc, hsz, hrg, he⟩ :=
      VOwn.reserve hA hadd hk h
    have hwd : ∀ p, p ≠ b → w2 p = w1 p := by
      intro p hp
      by_cases hkb : keeps b
      · rw [hw1 hkb]; simp [hp]
      · rw [hw2 hkb]
    refine ⟨v', m', b', blk', fr, hr, ⟨?_, w2, ?_, ho⟩, hnk, hi, hc, ?_, he⟩
    · intro p hp
      have hpb' : p ≠ b' := fun e => hnk (e ▸ hp)
      rw [ho.live]
      by_cases hkb : keeps b
      · rw [hw1 hkb, ← h.live]
        simpa [hpb'] using hk p hp
      · have hpb : p ≠ b := fun e => hkb (e ▸ hp)
        have := hk p hp
        rw [h.live] at this
        rw [hw2 hkb]
        simpa [hpb', hpb] using this
    · intro p hp
      rw [← hw p hp]
      by_cases hkb : keeps b
      · have hpb : p ≠ b := fun e => hp (e ▸ hkb)
        exact hwd p hpb
      · rw [hw2 hkb]
    · rw [h.live]
      have := ho.fresh
      rw [hwd b' hne] at this
      simpa [hne] using this

/-- Capacity after a `grow`. -/
theorem calc_grow (c : Nat) : c + (Vec.calculateGrowCapacity c - c) = Vec.calculateGrowCapacity c
    ∧ c < Vec.calculateGrowCapacity c := by
  unfold Vec.calculateGrowCapacity
  split <;> omega

/-- Capacity after making room for one more element. -/
def growCap (len cap : Nat) : Nat := if len = cap then Vec.calculateGrowCapacity cap else cap

/-- `if self.is_full() { self.grow() }`. -/
theorem VInv.growIf (hA : Lawful A fits keeps init) (h : VInv keeps fits w m v xs cap) :
    ∃ v' m' b' blk', (if (xs.length == cap) = true then v.grow A m else .ok (v, m)) = .ok (v', m') ∧
      VInvB keeps fits w m' v' b' blk' xs (growCap xs.length cap) ∧
      xs.length < growCap xs.length cap ∧
      Eff m m' [] (if xs.length = cap then 1 else 0) (if xs.length = cap then xs.length else 0) := by
  by_cases hf : xs.length = cap
  · have hg := calc_grow cap
    obtain ⟨v', m', b', blk', fr, hr, ho, _, _, _, _, he⟩ :=
      h.reserve hA (add := Vec.calculateGrowCapacity cap - cap) (by omega)
    refine ⟨v', m', b', blk', ?_, ?_, ?_, ?_⟩
    · simp [hf, Vec.grow, h.capacity, hr]
    · simpa [growCap, hf, hg.1] using ho
    · simp [growCap, hf, hg.2]
    · simpa [hf] using he
  · have hlt : xs.length < cap := by have := h.len_le; omega
    obtain ⟨hk, w', hw, h' | ⟨b, blk, h'⟩⟩ := h
    · have := h'.cap0; omega
    · refine ⟨v, m, b, blk, by simp [hf], ⟨hk, w', hw, ?_⟩, by simp [growCap, hf, hlt], ?_⟩
      · simpa [growCap, hf] using h'
      · simpa [hf] using Eff.refl m

/-- `end_ptr.write(x); increment_size()` when there is room. -/
theorem VInvB.pushCore (x : α) (h : VInvB keeps fits w m v b blk xs cap) (hlt : xs.length < cap) :
    ∃ v' m', (do let m1 ← m.write v.endPtr x
                 let v1 ← v.incrementSize m1
                 .ok (v1, m1)) = Except.ok (v', m') ∧
      VInvB keeps fits w m' v' b
        { blk with cells := Function.update blk.cells xs.length (some x) } (xs ++ [x]) cap ∧
      Eff m m' [] 0 0 := by
  have hp := h.ptrs
  have hcl := h.cap_le
  have hw := Mem.write_loc x h.live_b (show xs.length < blk.size by omega)
  refine ⟨⟨.loc b 0, .loc b (xs.length + 1), .loc b cap⟩, m.setBlock b (some { blk with
    cells := Function.update blk.cells xs.length (some x) }), ?_, ?_, ?_⟩
  rotate_left
  · refine h.update (by simp) rfl rfl (by simp; omega) ?_ (by simp)
    intro i hi
    simp only [List.length_append, List.length_cons, List.length_nil] at hi
    by_cases hi' : i = xs.length
    · subst hi'; simp
    · have hi2 : i < xs.length := by omega
      simp only [Function.update, hi', dite_false, h.cells i hi2]
      rw [List.getElem?_append_left hi2]
  · exact ⟨by simp, rfl, rfl⟩
  · subst hp
    simp only [hw, Exec.ok_bind, Vec.incrementSize]
    rw [Mem.ptrAdd_loc (blk := { blk with cells := Function.update blk.cells xs.length (some x) })
      (by simp) (show xs.length + 1 ≤ blk.size by omega)]
    rfl

theorem VInv.push (hA : Lawful A fits keeps init) (x : α) (h : VInv keeps fits w m v xs cap) :
    ∃ v' m' b' blk', v.push A x m = .ok (v', m') ∧
      VInvB keeps fits w m' v' b' blk' (xs ++ [x]) (growCap xs.length cap) ∧
      Eff m m' [] (if xs.length = cap then 1 else 0) (if xs.length = cap then xs.length else 0) := by
  obtain ⟨v1, m1, b1, blk1, hg, h1, hlt, e1⟩ := h.growIf hA
  obtain ⟨v2, m2, hp, h2, e2⟩ := h1.pushCore x hlt
  refine ⟨v2, m2, b1, _, ?_, h2, by simpa using e1.trans e2⟩
  unfold Vec.push
  rw [h.isFull]
  simp only [Exec.ok_bind]
  rw [hg]
  exact hp

theorem VInv.own (h : VInv keeps fits w m v xs cap) (hne : xs ≠ []) :
    ∃ b blk, VInvB keeps fits w m v b blk xs cap := by
  obtain ⟨hk, w', hw, h' | ⟨b, blk, h'⟩⟩ := h
  · exact absurd h'.nil hne
  · exact ⟨b, blk, hk, w', hw, h'⟩

theorem VInv.pop_nil (h : VInv keeps fits w m v [] cap) : v.pop m = .ok (none, v) := by
  simp [Vec.pop, h.isEmpty]

theorem VInvB.pop {x : α} (h : VInvB keeps fits w m v b blk (xs ++ [x]) cap) :
    ∃ v', v.pop m = .ok (some x, v') ∧ VInvB keeps fits w m v' b blk xs cap := by
  have hp := h.ptrs
  have hcl := h.cap_le
  have hll := h.inv.len_le
  simp only [List.length_append, List.length_cons, List.length_nil] at hll
  have hx : blk.cells xs.length = some x := by
    have := h.cells xs.length (by simp); simpa using this
  refine ⟨⟨.loc b 0, .loc b xs.length, .loc b cap⟩, ?_, ?_⟩
  · unfold Vec.pop
    rw [h.inv.isEmpty]
    subst hp
    simp [Vec.decrementSize, Mem.ptrSub_loc h.live_b,
      Mem.read_loc h.live_b (show xs.length < blk.size by omega) hx]
  · refine h.update ?_ rfl rfl (by omega) ?_ rfl
    · simp [← h.live_b]
    · intro i hi
      rw [h.cells i (by simp; omega), List.getElem?_append_left hi]

theorem getElem?_insertIdx' {xs : List α} {i j : Nat} {x : α} (hi : i ≤ xs.length) :
    (xs.insertIdx i x)[j]? = if j < i then xs[j]? else if j = i then some x else xs[j - 1]? := by
  rw [List.getElem?_insertIdx]
  by_cases h1 : j < i
  · simp [h1]
  · by_cases h2 : j = i
    · subst h2; simp [hi]
    · simp [h1, h2]

/-- The shifting and writing part of `insert`. -/
theorem VInvB.insertCore (x : α) {i : Nat} (hi : i ≤ xs.length)
    (h : VInvB keeps fits w m v b blk xs cap) (hlt : xs.length < cap) :
    ∃ v' m' blk', (do let src ← m.ptrAdd v.beginPtr i
                      let dst ← m.ptrAdd v.beginPtr (i + 1)
                      let n ← v.len
                      let m1 ← m.copy src dst (n - i)
                      let p ← m1.ptrAdd v.beginPtr i
                      let m1 ← m1.write p x
                      let v1 ← v.incrementSize m1
                      .ok (v1, m1)) = Except.ok (v', m') ∧
      VInvB keeps fits w m' v' b blk' (xs.insertIdx i x) cap ∧
      (∀ j, xs.length < j → blk'.cells j = blk.cells j) ∧
      blk'.size = blk.size ∧ blk'.region = blk.region ∧
      Eff m m' [] 0 (xs.length - i) := by
  have hp := h.ptrs
  have hcl := h.cap_le
  have hb := h.live_b
  obtain ⟨m1, hcp, hl1, hd1, ha1, hc1⟩ := Mem.copy_loc (n := xs.length - i) hb hb
    (show i + (xs.length - i) ≤ blk.size by omega)
    (show (i + 1) + (xs.length - i) ≤ blk.size by omega)
  have hb1 := congrFun hl1 b
  simp only [Function.update_self] at hb1
  have hw := Mem.write_loc x hb1 (show i < blk.size by omega)
  have hil : (xs.insertIdx i x).length = xs.length + 1 := List.length_insertIdx_of_le_length hi x
  refine ⟨⟨.loc b 0, .loc b (xs.length + 1), .loc b cap⟩, m1.setBlock b (some { blk with
      cells := Function.update (fun j => if i + 1 ≤ j ∧ j < i + 1 + (xs.length - i) then
        blk.cells (i + (j - (i + 1))) else blk.cells j) i (some x) }), { blk with
      cells := Function.update (fun j => if i + 1 ≤ j ∧ j < i + 1 + (xs.length - i) then
        blk.cells (i + (j - (i + 1))) else blk.cells j) i (some x) }, ?_, ?_, ?_, ?_, ?_, ?_⟩
  rotate_left
  · refine h.update (by simp only [Mem.setBlock_live, hl1, Function.update_idem])
      (by rfl) (by rfl) (by omega) ?_ (by rw [hil])
    intro j hj
    rw [hil] at hj
    rw [getElem?_insertIdx' hi]
    by_cases h1 : j < i
    · have h2 : j ≠ i := by omega
      have h3 : ¬ (i + 1 ≤ j) := by omega
      simp [Function.update, h1, h2, h3, h.cells j (by omega)]
    · by_cases h2 : j = i
      · subst h2; simp
      · have h3 : i + 1 ≤ j ∧ j < i + 1 + (xs.length - i) := by omega
        have h4 : i + (j - (i + 1)) = j - 1 := by omega
        simp [Function.update, h1, h2, h3, h4, h.cells (j - 1) (by omega)]
  · intro j hj
    have h2 : j ≠ i := by omega
    have h3 : ¬ (i + 1 ≤ j ∧ j < i + 1 + (xs.length - i)) := by omega
    simp only [Function.update, h2, dite_false, h3, if_false]
  · rfl
  · rfl
  · exact ⟨by simp [hd1], by simp [ha1], by simp [hc1]⟩
  · have hlen := h.inv.len
    have hpa := Mem.ptrAdd_loc (o := 0) (n := i) hb1 (show 0 + i ≤ blk.size by omega)
    subst hp
    simp only [Vec.len, Ptr.offsetFrom] at hlen ⊢
    rw [Mem.ptrAdd_loc hb (show 0 + i ≤ blk.size by omega),
      Mem.ptrAdd_loc hb (show 0 + (i + 1) ≤ blk.size by omega)]
    simp only [Exec.ok_bind, Nat.zero_add, Nat.zero_le, and_self, if_true, Nat.sub_zero, hcp]
    simp only [Exec.ok_bind, hpa, Nat.zero_add, hw, Vec.incrementSize]
    rw [Mem.ptrAdd_loc (b := b) (o := xs.length) (n := 1) (blk := { blk with
      cells := Function.update (fun j => if i + 1 ≤ j ∧ j < i + 1 + (xs.length - i) then
        blk.cells (i + (j - (i + 1))) else blk.cells j) i (some x) }) (by simp)
      (show xs.length + 1 ≤ blk.size by omega)]
    rfl

theorem VInv.insert (hA : Lawful A fits keeps init) (x : α) {i : Nat} (hi : i ≤ xs.length)
    (h : VInv keeps fits w m v xs cap) :
    ∃ v' m' b' blk', v.insert A i x m = .ok (v', m') ∧
      VInvB keeps fits w m' v' b' blk' (xs.insertIdx i x) (growCap xs.length cap) ∧
      Eff m m' [] (if xs.length = cap then 1 else 0)
        ((if xs.length = cap then xs.length else 0) + (xs.length - i)) := by
  obtain ⟨v1, m1, b1, blk1, hg, h1, hlt, e1⟩ := h.growIf hA
  obtain ⟨v2, m2, blk2, hp, h2, _, _, _, e2⟩ := h1.insertCore x hi hlt
  refine ⟨v2, m2, b1, blk2, ?_, h2, by simpa using e1.trans e2⟩
  unfold Vec.insert
  rw [h.len]
  simp only [Exec.ok_bind, hi, if_true]
  rw [h.isFull]
  simp only [Exec.ok_bind]
  rw [hg]
  exact hp

/-- `insert` in place, when there is room. -/
theorem VInvB.insert_room (x : α) {i : Nat} (hi : i ≤ xs.length)
    (h : VInvB keeps fits w m v b blk xs cap) (hlt : xs.length < cap) :
    ∃ v' m' blk', v.insert A i x m = .ok (v', m') ∧
      VInvB keeps fits w m' v' b blk' (xs.insertIdx i x) cap ∧
      (∀ j, xs.length < j → blk'.cells j = blk.cells j) ∧
      Eff m m' [] 0 (xs.length - i) := by
  obtain ⟨v2, m2, blk2, hp, h2, hc, _, _, e2⟩ := h.insertCore x hi hlt
  refine ⟨v2, m2, blk2, ?_, h2, hc, e2⟩
  have hne : xs.length ≠ cap := by omega
  unfold Vec.insert
  rw [h.inv.len]
  simp only [Exec.ok_bind, hi, if_true]
  rw [h.inv.isFull]
  simp only [Exec.ok_bind, beq_iff_eq, hne, if_false]
  exact hp

/-- `push` in place, when there is room. -/
theorem VInvB.push_room (x : α) (h : VInvB keeps fits w m v b blk xs cap)
    (hlt : xs.length < cap) :
    ∃ v' m', v.push A x m = .ok (v', m') ∧
      VInvB keeps fits w m' v' b
        { blk with cells := Function.update blk.cells xs.length (some x) } (xs ++ [x]) cap ∧
      Eff m m' [] 0 0 := by
  obtain ⟨v2, m2, hp, h2, e2⟩ := h.pushCore x hlt
  refine ⟨v2, m2, ?_, h2, e2⟩
  have hne : xs.length ≠ cap := by omega
  unfold Vec.push
  rw [h.inv.isFull]
  simp only [Exec.ok_bind, beq_iff_eq, hne, if_false]
  exact hp

theorem VInv.insert_panic (x : α) {i : Nat} (hi : ¬ i ≤ xs.length)
    (h : VInv keeps fits w m v xs cap) : v.insert A i x m = .error .panic := by
  unfold Vec.insert
  rw [h.len]
  simp only [Exec.ok_bind, hi, if_false]

theorem VInv.remove_none {i : Nat} (hi : xs.length ≤ i) (h : VInv keeps fits w m v xs cap) :
    v.remove i m = .ok (none, v, m) := by
  unfold Vec.remove
  rw [h.len]
  simp only [Exec.ok_bind, hi, if_true]

theorem VInvB.remove {i : Nat} (hi : i < xs.length) (h : VInvB keeps fits w m v b blk xs cap) :
    ∃ v' m' blk', v.remove i m = .ok (xs[i]?, v', m') ∧
      VInvB keeps fits w m' v' b blk' (xs.eraseIdx i) cap ∧
      (∀ j, xs.length - 1 ≤ j → blk'.cells j = blk.cells j) ∧
      Eff m m' [] 0 (xs.length - 1 - i) := by
  have hp := h.ptrs
  have hcl := h.cap_le
  have hll := h.inv.len_le
  have hb := h.live_b
  have hx : blk.cells i = some xs[i] := by rw [h.cells i hi]; simp [hi]
  obtain ⟨m1, hcp, hl1, hd1, ha1, hc1⟩ := Mem.copy_loc (n := xs.length - 1 - i) hb hb
    (show (i + 1) + (xs.length - 1 - i) ≤ blk.size by omega)
    (show i + (xs.length - 1 - i) ≤ blk.size by omega)
  have hel : (xs.eraseIdx i).length = xs.length - 1 := List.length_eraseIdx_of_lt hi
  refine ⟨⟨.loc b 0, .loc b (xs.length - 1), .loc b cap⟩, m1, _, ?_,
    h.update hl1 rfl rfl (by omega) ?_ (by rw [hel]), ?_, ⟨by simp [hd1], by simp [ha1], hc1⟩⟩
  · unfold Vec.remove
    rw [h.inv.len]
    have hn : ¬ xs.length ≤ i := by omega
    subst hp
    simp only [Exec.ok_bind, hn, if_false, Vec.decrementSize,
      Mem.ptrAdd_loc hb (show 0 + i ≤ blk.size by omega),
      Mem.ptrAdd_loc hb (show 0 + (i + 1) ≤ blk.size by omega), Nat.zero_add,
      Mem.read_loc hb (show i < blk.size by omega) hx,
      Mem.ptrSub_loc hb (show 1 ≤ xs.length by omega), Vec.len, Ptr.offsetFrom,
      Nat.zero_le, and_self, if_true, Nat.sub_zero, hcp]
    simp [hi]
  · intro j hj
    rw [hel] at hj
    rw [List.getElem?_eraseIdx]
    by_cases h1 : j < i
    · have h3 : ¬ (i ≤ j) := by omega
      simp [h1, h3, h.cells j (by omega)]
    · have h3 : i ≤ j ∧ j < i + (xs.length - 1 - i) := by omega
      have h4 : i + 1 + (j - i) = j + 1 := by omega
      simp only [h1, if_false, h3, and_self, if_true, h4]
      exact h.cells (j + 1) (by omega)
  · intro j hj
    have h3 : ¬ (i ≤ j ∧ j < i + (xs.length - 1 - i)) := by omega
    simp only [h3, if_false]

theorem VInv.clear (hA : Lawful A fits keeps init) (nd : Bool)
    (h : VInv keeps fits w m v xs cap) :
    ∃ m', v.clear A nd m = .ok (⟨.null, .null, .null⟩, m') ∧
      (∀ p, keeps p → m'.live p ≠ none) ∧ (∀ p, ¬ keeps p → m'.live p = w p) ∧
      (∀ p, keeps p → m'.live p = m.live p) ∧
      VInv keeps fits w m' ⟨.null, .null, .null⟩ [] 0 ∧
      Eff m m' (if nd then xs else []) 0 0 := by
  obtain ⟨hk, w1, hw, h | ⟨b, blk, h⟩⟩ := h
  · refine ⟨m, ?_, hk, ?_, fun _ _ => rfl, ⟨hk, w1, hw, .inl ⟨h.live, rfl, rfl, rfl⟩⟩, ?_⟩
    · simp [Vec.clear, h.ptrs]
    · intro p hp; rw [h.live]; exact hw p hp
    · cases nd <;> simpa [h.nil] using Eff.refl m
  · have hlen := h.len_le
    have hcap := h.cap_le
    have hdr := Mem.dropRange_ok nd xs 0 m h.live_b (by omega) (by simpa using h.cells)
    have hpt := h.ptrs
    by_cases hkb : keeps b
    · have hde := hA.dealloc_keep b cap { m with dropped := m.dropped ++ if nd then xs else [] }
        blk h.live_b h.fit hkb
      refine ⟨{ m with dropped := m.dropped ++ if nd then xs else [] }, ?_, hk, ?_,
        fun _ _ => rfl, ⟨hk, m.live, ?_, .inl ⟨rfl, rfl, rfl, rfl⟩⟩, ⟨rfl, rfl, rfl⟩⟩
      · unfold Vec.clear
        rw [if_neg h.begin_ne, h.rep.len, h.rep.capacity]
        subst hpt
        simp only [Exec.ok_bind, hdr, hde]
      · intro p hp
        have : p ≠ b := fun e => hp (e ▸ hkb)
        show m.live p = w p
        rw [h.live, ← hw p hp]; simp [this]
      · intro p hp
        have : p ≠ b := fun e => hp (e ▸ hkb)
        rw [h.live, ← hw p hp]; simp [this]
    · obtain ⟨m2, hde, hl2, hd2, ha2, hc2⟩ := hA.dealloc_free b cap
        { m with dropped := m.dropped ++ if nd then xs else [] } blk h.live_b h.fit hkb
      have hl2' : m2.live = w1 := by
        rw [hl2]
        show Function.update m.live b none = w1
        rw [h.live, Function.update_idem]
        funext p
        by_cases hp : p = b
        · subst hp; simp [h.fresh]
        · simp [hp]
      have hkp : ∀ p, keeps p → m2.live p = m.live p := by
        intro p hp
        have : p ≠ b := fun e => hkb (e ▸ hp)
        rw [hl2', h.live]; simp [this]
      refine ⟨m2, ?_, fun p hp => hkp p hp ▸ hk p hp, ?_, hkp,
        ⟨fun p hp => hkp p hp ▸ hk p hp, w1, hw, .inl ⟨hl2', rfl, rfl, rfl⟩⟩,
        ⟨hd2, ha2, hc2⟩⟩
      · unfold Vec.clear
        rw [if_neg h.begin_ne, h.rep.len, h.rep.capacity]
        subst hpt
        simp only [Exec.ok_bind, hdr, hde]
      · intro p hp; rw [hl2']; exact hw p hp

theorem VInv.reserve_any (hA : Lawful A fits keeps init) (add : Nat)
    (h : VInv keeps fits w m v xs cap) :
    ∃ v' m', v.reserve A add m = .ok (v', m') ∧ VInv keeps fits w m' v' xs (cap + add) ∧
      Eff m m' [] (if add = 0 then 0 else 1) (if add = 0 then 0 else xs.length) := by
  by_cases h0 : add = 0
  · exact ⟨v, m, by simp [Vec.reserve, h0], by simpa [h0] using h, by
      simpa [h0] using Eff.refl m⟩
  · obtain ⟨v', m', b', blk', fr, hr, ho, _, _, _, _, he⟩ := h.reserve hA (add := add) (by omega)
    exact ⟨v', m', hr, ho.inv, by simpa [h0] using he⟩

/-- `if need > self.capacity() { self.reserve(need - self.capacity()) }`. -/
theorem VInv.reserveTo (hA : Lawful A fits keeps init) (need : Nat)
    (h : VInv keeps fits w m v xs cap) :
    ∃ v' m', (if cap < need then v.reserve A (need - cap) m else .ok (v, m)) = .ok (v', m') ∧
      VInv keeps fits w m' v' xs (max cap need) ∧
      Eff m m' [] (if cap < need then 1 else 0) (if cap < need then xs.length else 0) := by
  by_cases hc : cap < need
  · obtain ⟨v', m', hr, ho, he⟩ := h.reserve_any hA (need - cap)
    have h0 : need - cap ≠ 0 := by omega
    have h1 : cap + (need - cap) = max cap need := by omega
    refine ⟨v', m', by simp only [hc, if_true]; exact hr, by rw [← h1]; exact ho, ?_⟩
    simpa [h0, hc] using he
  · have h1 : max cap need = cap := by omega
    exact ⟨v, m, by simp [hc], by rw [h1]; exact h, by simpa [hc] using Eff.refl m⟩

theorem VInv.append (hA : Lawful A fits keeps init) (buf : List α)
    (h : VInv keeps fits w m v xs cap) :
    ∃ v' m', v.append A false buf m = .ok (v', m') ∧
      VInv keeps fits w m' v' (xs ++ buf) (max cap (xs.length + buf.length)) ∧
      Eff m m' [] (if cap < xs.length + buf.length then 1 else 0)
        (if cap < xs.length + buf.length then xs.length else 0) := by
  obtain ⟨v1, m1, hr, h1, e1⟩ := h.reserveTo hA (xs.length + buf.length)
  have hstart : v.append A false buf m = (do
      let e ← m1.ptrAdd v1.endPtr buf.length
      let v : Vec := { v1 with endPtr := e }
      if v.beginPtr = .null then .ok (v, m1) else do
        let p ← m1.ptrAdd v.beginPtr xs.length
        let m ← m1.cloneFrom false p buf
        .ok (v, m)) := by
    unfold Vec.append
    rw [h.len, h.capacity]
    simp only [Exec.ok_bind]
    rw [hr]
    rfl
  rw [hstart]
  obtain ⟨hk, w', hw, h1 | ⟨b, blk, h1⟩⟩ := h1
  · have hx := h1.nil
    have hc := h1.cap0
    have hb : buf = [] := List.length_eq_zero_iff.1 (by omega)
    refine ⟨v1, m1, ?_, ⟨hk, w', hw, .inl ⟨h1.live, h1.ptrs, by simp [hx, hb], by
      simpa using hc⟩⟩, e1⟩
    simp [h1.ptrs, hb]
  · have hB : VInvB keeps fits w m1 v1 b blk xs (max cap (xs.length + buf.length)) :=
      ⟨hk, w', hw, h1⟩
    have hpt := h1.ptrs
    have hcl := h1.cap_le
    obtain ⟨m2, hcf, hl2, hd2, ha2, hc2⟩ := Mem.cloneFrom_false buf xs.length m1 blk h1.live_b
      (by omega)
    refine ⟨⟨.loc b 0, .loc b (xs.length + buf.length), .loc b (max cap (xs.length + buf.length))⟩,
      m2, ?_, (hB.update hl2 rfl rfl (by rw [List.length_append]; omega) ?_ (by simp)).inv, ?_⟩
    · have hlv := h1.live_b
      subst hpt
      simp only [Mem.ptrAdd_loc hlv (show xs.length + buf.length ≤ blk.size by omega),
        Exec.ok_bind, reduceCtorEq, if_false,
        Mem.ptrAdd_loc hlv (show 0 + xs.length ≤ blk.size by omega), Nat.zero_add, hcf]
    · intro i hi
      simp only [List.length_append] at hi
      by_cases h3 : i < xs.length
      · have h4 : ¬ (xs.length ≤ i ∧ i < xs.length + buf.length) := by omega
        simp only [h4, if_false, h1.cells i h3]
        rw [List.getElem?_append_left h3]
      · have h4 : xs.length ≤ i ∧ i < xs.length + buf.length := by omega
        simp only [h4, and_self, if_true]
        rw [List.getElem?_append_right (by omega)]
    · exact ⟨by rw [hd2, e1.dropped], by rw [ha2, e1.allocs], by rw [hc2, e1.copied]⟩

/-- `assign` for plain data, and for values with destructors when the new contents are not
longer than the old ones (then the tail is forgotten, not dropped). -/
theorem VInv.assign (hA : Lawful A fits keeps init) (nd : Bool) (buf : List α)
    (hnd : nd = true → buf.length ≤ xs.length)
    (h : VInv keeps fits w m v xs cap) :
    ∃ v' m', v.assign A nd buf m = .ok (v', m') ∧
      VInv keeps fits w m' v' buf (max cap buf.length) ∧
      Eff m m' (if nd then xs.take buf.length else []) (if cap < buf.length then 1 else 0)
        (if cap < buf.length then xs.length else 0) := by
  obtain ⟨v1, m1, hr, h1, e1⟩ := h.reserveTo hA buf.length
  have hstart : v.assign A nd buf m = (do
      let e ← m1.ptrAdd v1.beginPtr buf.length
      let v : Vec := { v1 with endPtr := e }
      if v.beginPtr = .null then .ok (v, m1) else do
        let m ← m1.cloneFrom nd v.beginPtr buf
        .ok (v, m)) := by
    unfold Vec.assign
    rw [h.capacity]
    simp only [Exec.ok_bind]
    rw [hr]
    rfl
  rw [hstart]
  obtain ⟨hk, w', hw, h1 | ⟨b, blk, h1⟩⟩ := h1
  · have hx := h1.nil
    have hc := h1.cap0
    have hb : buf = [] := List.length_eq_zero_iff.1 (by omega)
    refine ⟨v1, m1, ?_, ⟨hk, w', hw, .inl ⟨h1.live, h1.ptrs, hb, by
      simpa using hc⟩⟩, ?_⟩
    · simp [h1.ptrs, hb]
    · have : (if nd = true then List.take buf.length xs else []) = [] := by simp [hx]
      rw [this]; exact e1
  · have hB : VInvB keeps fits w m1 v1 b blk xs (max cap buf.length) :=
      ⟨hk, w', hw, h1⟩
    have hpt := h1.ptrs
    have hcl := h1.cap_le
    have hcf : ∃ m2, m1.cloneFrom nd (.loc b 0) buf = .ok m2 ∧
        m2.live = Function.update m1.live b (some { blk with
          cells := fun j => if 0 ≤ j ∧ j < 0 + buf.length then buf[j - 0]? else blk.cells j }) ∧
        m2.dropped = m1.dropped ++ (if nd then xs.take buf.length else []) ∧
        m2.allocs = m1.allocs ∧ m2.copied = m1.copied := by
      cases nd with
      | false => simpa using Mem.cloneFrom_false buf 0 m1 blk h1.live_b (by omega)
      | true =>
        have hlb := hnd rfl
        refine Mem.cloneFrom_true buf (xs.take buf.length) 0 m1 blk h1.live_b
          (by rw [List.length_take]; omega) (by omega) ?_
        intro i hi
        simp only [List.length_take] at hi
        have h5 : i < buf.length := by omega
        rw [Nat.zero_add, h1.cells i (by omega), List.getElem?_take, if_pos h5]
    obtain ⟨m2, hcf, hl2, hd2, ha2, hc2⟩ := hcf
    refine ⟨⟨.loc b 0, .loc b buf.length, .loc b (max cap buf.length)⟩,
      m2, ?_, (hB.update hl2 rfl rfl (by omega) ?_ rfl).inv, ?_⟩
    · have hlv := h1.live_b
      subst hpt
      simp only [Mem.ptrAdd_loc hlv (show 0 + buf.length ≤ blk.size by omega),
        Exec.ok_bind, reduceCtorEq, if_false, Nat.zero_add, hcf]
    · intro i hi
      simp [hi]
    · exact ⟨by rw [hd2, e1.dropped]; simp, by rw [ha2, e1.allocs], by rw [hc2, e1.copied]⟩

theorem VInv.setAt_panic (nd : Bool) (x : α) {i : Nat} (hi : ¬ i < xs.length)
    (h : VInv keeps fits w m v xs cap) : v.setAt nd i x m = .error .panic := by
  unfold Vec.setAt
  by_cases hb : v.beginPtr = .null
  · simp [hb]
  · simp only [hb, if_false, h.len, Exec.ok_bind, hi]

theorem VInvB.setAt (nd : Bool) (x : α) {i : Nat} (hi : i < xs.length)
    (h : VInvB keeps fits w m v b blk xs cap) :
    ∃ m', v.setAt nd i x m = .ok m' ∧
      VInvB keeps fits w m' v b { blk with cells := Function.update blk.cells i (some x) }
        (xs.set i x) cap ∧
      Eff m m' (if nd then [xs[i]] else []) 0 0 := by
  have hpt := h.ptrs
  have hcl := h.cap_le
  have hll := h.inv.len_le
  have hlv := h.live_b
  have hx : blk.cells i = some xs[i] := by rw [h.cells i hi]; simp [hi]
  have hrd : m.read (.loc b i) = .ok xs[i] := Mem.read_loc hlv (by omega) hx
  have hdc : m.dropCell nd (.loc b i) =
      .ok { m with dropped := m.dropped ++ if nd then [xs[i]] else [] } := by
    cases nd
    · simp
    · simpa using Mem.dropCell_true hrd
  have hw := Mem.write_loc (m := { m with dropped := m.dropped ++ if nd then [xs[i]] else [] }) x
    (b := b) (o := i) (blk := blk) hlv (by omega)
  refine ⟨_, ?_, h.update (m' := ({ m with dropped := m.dropped ++ if nd then [xs[i]] else [] } :
    Mem α).setBlock b (some { blk with cells := Function.update blk.cells i (some x) }))
      (by rfl) rfl rfl (by simpa using hll) ?_ (by simpa using hpt), ⟨rfl, rfl, rfl⟩⟩
  · have hbn : v.beginPtr ≠ .null := by rw [hpt]; simp
    unfold Vec.setAt
    simp only [hbn, if_false, h.inv.len, Exec.ok_bind, hi, if_true]
    subst hpt
    simp only [Mem.ptrAdd_loc hlv (show 0 + i ≤ blk.size by omega), Nat.zero_add, Exec.ok_bind,
      hdc, hw]
  · intro j hj
    simp only [List.length_set] at hj
    by_cases hji : j = i
    · subst hji; simp [hi]
    · simp only [Function.update, hji, dite_false, h.cells j hj]
      rw [List.getElem?_set_ne (Ne.symm hji)]

end

end Verif
