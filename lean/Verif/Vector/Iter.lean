import Verif.Vector.Refine

/-! Lemmas about `IntoIter`, constructors and pairs of vectors. -/

set_option autoImplicit false

namespace Verif
open Spec

variable {α : Type}

/-- With the default allocator there are no inline blocks, so `VInv` is `VRep`. -/
theorem VInv.default_rep {w : World α} {m : Mem α} {v : Vec} {xs : List α} {cap : Nat}
    (h : VInv (fun _ => False) defaultFits w m v xs cap) : VRep defaultFits w m v xs cap := by
  obtain ⟨_, w', hw, hr⟩ := h
  have : w' = w := by funext b; exact hw b not_false
  rw [this] at hr
  exact hr

theorem VRep.default_inv {w : World α} {m : Mem α} {v : Vec} {xs : List α} {cap : Nat}
    (h : VRep defaultFits w m v xs cap) : VInv (fun _ => False) defaultFits w m v xs cap :=
  ⟨fun _ h => h.elim, w, fun _ _ => rfl, h⟩

theorem VInv.new (fits : Nat → Nat → Region → Nat → Prop) (m : Mem α) :
    VInv (fun _ => False) fits m.live m Vec.new [] 0 :=
  ⟨fun _ h => h.elim, m.live, fun _ _ => rfl, .inl ⟨rfl, rfl, rfl, rfl⟩⟩

/-- The iterator still owns `ys`. -/
def ItRep (w : World α) (m : Mem α) (it : VIntoIter) (ys : List α) : Prop :=
  (m.live = w ∧ it = ⟨.null, .null, .null, .null⟩ ∧ ys = []) ∨
  ∃ b blk f cap, w b = none ∧ m.live = Function.update w b (some blk) ∧
    blk.region = .heap ∧ blk.size = cap ∧ f + ys.length ≤ cap ∧
    (∀ i, i < ys.length → blk.cells (f + i) = ys[i]?) ∧
    it = ⟨.loc b 0, .loc b cap, .loc b f, .loc b (f + ys.length)⟩

theorem VRep.intoIter {w : World α} {m : Mem α} {v : Vec} {xs : List α} {cap : Nat}
    (h : VRep defaultFits w m v xs cap) : ItRep w m v.intoIter xs := by
  rcases h with h | ⟨b, blk, h⟩
  · left
    exact ⟨h.live, by simp [Vec.intoIter, h.ptrs], h.nil⟩
  · right
    refine ⟨b, blk, 0, cap, h.fresh, h.live, h.fit.1, h.fit.2, by simpa using h.len_le,
      by simpa using h.cells, by simp [Vec.intoIter, h.ptrs]⟩

variable {w : World α} {m : Mem α} {it : VIntoIter} {ys : List α}

theorem ItRep.len (h : ItRep w m it ys) : it.len = .ok ys.length := by
  rcases h with ⟨_, hp, hn⟩ | ⟨b, blk, f, cap, _, _, _, _, _, _, hp⟩
  · simp [VIntoIter.len, hp, hn, Ptr.offsetFrom]
  · simp [VIntoIter.len, hp, Ptr.offsetFrom]

theorem ItRep.slice (h : ItRep w m it ys) : it.asSlice m = .ok ys := by
  have hl := h.len
  rcases h with ⟨_, hp, hn⟩ | ⟨b, blk, f, cap, hf, hlv, hr, hs, hle, hc, hp⟩
  · simp [VIntoIter.asSlice, hp, hn]
  · have hb : m.live b = some blk := by rw [hlv]; simp
    unfold VIntoIter.asSlice
    rw [if_neg (by simp [hp]), hl]
    simpa [hp] using Mem.readRange_loc hb ys f (by omega) hc

theorem ItRep.next (h : ItRep w m it ys) :
    ∃ it', it.next m = .ok (ys.head?, it') ∧ ItRep w m it' ys.tail := by
  have hl := h.len
  cases ys with
  | nil => exact ⟨it, by simp [VIntoIter.next, hl], by simpa using h⟩
  | cons y ys =>
    rcases h with ⟨_, hp, hn⟩ | ⟨b, blk, f, cap, hf, hlv, hr, hs, hle, hc, hp⟩
    · cases hn
    · have hb : m.live b = some blk := by rw [hlv]; simp
      simp only [List.length_cons] at hle hp
      have h0 : blk.cells f = some y := by simpa using hc 0 (by simp)
      refine ⟨⟨.loc b 0, .loc b cap, .loc b (f + 1), .loc b (f + (ys.length + 1))⟩, ?_, .inr
        ⟨b, blk, f + 1, cap, hf, hlv, hr, hs, by simp; omega, ?_, ?_⟩⟩
      · unfold VIntoIter.next
        rw [hl]
        subst hp
        simp [Mem.read_loc hb (show f < blk.size by omega) h0,
          Mem.ptrAdd_loc hb (show f + 1 ≤ blk.size by omega)]
      · intro i hi
        have := hc (i + 1) (by simpa using hi)
        simpa [Nat.add_assoc, Nat.add_comm 1 i] using this
      · simp; omega

theorem ItRep.nextBack (h : ItRep w m it ys) :
    ∃ it', it.nextBack m = .ok (ys.getLast?, it') ∧ ItRep w m it' ys.dropLast := by
  have hl := h.len
  rcases List.eq_nil_or_concat ys with hx | ⟨zs, y, hx⟩
  · subst hx
    exact ⟨it, by simp [VIntoIter.nextBack, hl], by simpa using h⟩
  · rw [List.concat_eq_append] at hx
    subst hx
    rcases h with ⟨_, hp, hn⟩ | ⟨b, blk, f, cap, hf, hlv, hr, hs, hle, hc, hp⟩
    · simp at hn
    · have hb : m.live b = some blk := by rw [hlv]; simp
      simp only [List.length_append, List.length_cons, List.length_nil, Nat.zero_add] at hle hp hc
      have h0 : blk.cells (f + zs.length) = some y := by simpa using hc zs.length (by omega)
      refine ⟨⟨.loc b 0, .loc b cap, .loc b f, .loc b (f + zs.length)⟩, ?_, .inr
        ⟨b, blk, f, cap, hf, hlv, hr, hs, by simp; omega, ?_, by simp⟩⟩
      · unfold VIntoIter.nextBack
        rw [hl]
        subst hp
        have h1 : f + (zs.length + 1) - 1 = f + zs.length := by omega
        simp [Mem.ptrSub_loc hb (show 1 ≤ f + (zs.length + 1) by omega), h1,
          Mem.read_loc hb (show f + zs.length < blk.size by omega) h0]
      · intro i hi
        simp only [List.dropLast_concat] at hi
        rw [hc i (by omega), List.dropLast_concat, List.getElem?_append_left hi]

theorem ItRep.run (ops : List IterOp) : ∀ {it : VIntoIter} {ys : List α}, ItRep w m it ys →
    ∃ it', VIntoIter.run ops it m = .ok ((IterOp.run ops ys).1, it') ∧
      ItRep w m it' (IterOp.run ops ys).2 := by
  induction ops with
  | nil => intro it ys h; exact ⟨it, rfl, h⟩
  | cons op ops ih =>
    intro it ys h
    cases op with
    | next =>
      obtain ⟨it1, h1, r1⟩ := h.next
      obtain ⟨it2, h2, r2⟩ := ih r1
      exact ⟨it2, by simp [VIntoIter.run, h1, h2, IterOp.run, IterOp.step], r2⟩
    | nextBack =>
      obtain ⟨it1, h1, r1⟩ := h.nextBack
      obtain ⟨it2, h2, r2⟩ := ih r1
      exact ⟨it2, by simp [VIntoIter.run, h1, h2, IterOp.run, IterOp.step], r2⟩

theorem ItRep.drop (R : RawAlloc α) (nd : Bool) (h : ItRep w m it ys) :
    ∃ m', it.drop (defaultAllocator R) nd m = .ok m' ∧ m'.live = w ∧
      m'.dropped = m.dropped ++ if nd then ys else [] := by
  have hl := h.len
  rcases h with ⟨hw, hp, hn⟩ | ⟨b, blk, f, cap, hf, hlv, hr, hs, hle, hc, hp⟩
  · exact ⟨m, by simp [VIntoIter.drop, hp], hw, by simp [hn]⟩
  · have hb : m.live b = some blk := by rw [hlv]; simp
    have hdr := Mem.dropRange_ok nd ys f m hb (by omega) hc
    obtain ⟨m2, hde, hl2, hd2, _, _⟩ := (defaultAllocator_lawful R).dealloc_free b cap
        { m with dropped := m.dropped ++ if nd then ys else [] } blk hb ⟨hr, hs⟩ not_false
    refine ⟨m2, ?_, ?_, hd2⟩
    · unfold VIntoIter.drop
      rw [hl]
      subst hp
      simp only [reduceCtorEq, if_false, Exec.ok_bind, hdr, VIntoIter.capacity, Ptr.offsetFrom,
        Nat.zero_le, and_self, if_true, Nat.sub_zero, hde]
    · rw [hl2]
      show Function.update m.live b none = w
      rw [hlv, Function.update_idem]
      funext p
      by_cases hpb : p = b
      · subst hpb; simp [hf]
      · simp [hpb]

/-- The loop of pushes. -/
theorem VInv.pushAll {fits : Nat → Nat → Region → Nat → Prop} {keeps : Nat → Prop}
    {init : Block α → Nat → Prop} {A : Allocator α} (hA : Lawful A fits keeps init)
    (items : List α) :
    ∀ {m : Mem α} {v : Vec} {xs : List α} {cap : Nat}, VInv keeps fits w m v xs cap →
    ∃ v' m' cap', v.pushAll A m items = .ok (v', m') ∧
      VInv keeps fits w m' v' (xs ++ items) cap' ∧ m'.dropped = m.dropped ∧ cap ≤ cap' ∧
      (xs.length + items.length ≤ cap → cap' = cap) := by
  induction items with
  | nil => intro m v xs cap h; exact ⟨v, m, cap, rfl, by simpa using h, rfl, Nat.le_refl _,
      fun _ => rfl⟩
  | cons x items ih =>
    intro m v xs cap h
    obtain ⟨v1, m1, b1, blk1, he, h1, ef⟩ := h.push hA x
    obtain ⟨v2, m2, cap2, he2, h2, hd2, hle2, hc2⟩ := ih h1.inv
    have hg : cap ≤ growCap xs.length cap := by
      unfold growCap; split
      · exact Nat.le_of_lt (calc_grow cap).2
      · exact Nat.le_refl _
    refine ⟨v2, m2, cap2, by simp [Vec.pushAll, he, he2], by simpa using h2, ?_, by omega, ?_⟩
    · rw [hd2, ef.dropped]; simp
    · intro hlen
      simp only [List.length_cons] at hlen
      have hne : xs.length ≠ cap := by omega
      have : growCap xs.length cap = cap := by simp [growCap, hne]
      rw [hc2 (by simp [this]; omega), this]

/-- `VRep` in terms of the live map only. -/
def PRep (live w : World α) (v : Vec) (xs : List α) : Prop :=
  (live = w ∧ v = ⟨.null, .null, .null⟩ ∧ xs = []) ∨
  ∃ b blk cap, w b = none ∧ live = Function.update w b (some blk) ∧
    blk.region = .heap ∧ blk.size = cap ∧ xs.length ≤ cap ∧
    (∀ i, i < xs.length → blk.cells i = xs[i]?) ∧
    v = ⟨.loc b 0, .loc b xs.length, .loc b cap⟩

theorem VRep.toP {v : Vec} {xs : List α} {cap : Nat} (h : VRep defaultFits w m v xs cap) :
    PRep m.live w v xs := by
  rcases h with h | ⟨b, blk, h⟩
  · exact .inl ⟨h.live, h.ptrs, h.nil⟩
  · exact .inr ⟨b, blk, cap, h.fresh, h.live, h.fit.1, h.fit.2, h.len_le, h.cells, h.ptrs⟩

theorem PRep.toV {v : Vec} {xs : List α} (h : PRep m.live w v xs) :
    ∃ cap, VRep defaultFits w m v xs cap := by
  rcases h with ⟨h1, h2, h3⟩ | ⟨b, blk, cap, h1, h2, h3, h4, h5, h6, h7⟩
  · exact ⟨0, .inl ⟨h1, h2, h3, rfl⟩⟩
  · exact ⟨cap, .inr ⟨b, blk, ⟨h1, h2, ⟨h3, h4⟩, by omega, h5, h6, h7⟩⟩⟩

/-- Two vectors owning separate parts of memory: the order of the parts is irrelevant. -/
theorem PRep.swap {live wa w : World α} {v1 v2 : Vec} {xs ys : List α}
    (h1 : PRep live wa v1 xs) (h2 : PRep wa w v2 ys) :
    ∃ wb, PRep live wb v2 ys ∧ PRep wb w v1 xs := by
  rcases h1 with ⟨a1, a2, a3⟩ | ⟨b, blk, cap, a1, a2, a3, a4, a5, a6, a7⟩
  · exact ⟨w, by rw [a1]; exact h2, .inl ⟨rfl, a2, a3⟩⟩
  · rcases h2 with ⟨c1, c2, c3⟩ | ⟨b', blk', cap', c1, c2, c3, c4, c5, c6, c7⟩
    · exact ⟨live, .inl ⟨rfl, c2, c3⟩, .inr ⟨b, blk, cap, by rw [← c1]; exact a1,
        by rw [a2, c1], a3, a4, a5, a6, a7⟩⟩
    · have hne : b ≠ b' := by
        intro e
        rw [c2, e] at a1
        simp at a1
      have hwb : w b = none := by rw [c2] at a1; simpa [hne] using a1
      refine ⟨Function.update w b (some blk), .inr ⟨b', blk', cap', by simp [hne.symm, c1], ?_,
        c3, c4, c5, c6, c7⟩, .inr ⟨b, blk, cap, hwb, rfl, a3, a4, a5, a6, a7⟩⟩
      rw [a2, c2, Function.update_comm hne]

end Verif
