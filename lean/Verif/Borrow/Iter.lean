import Verif.Borrow.Refine
import Verif.Borrow.Proofs

/-! Vectors turned into iterators, with and without permissions. -/

set_option autoImplicit false

namespace Verif
open Spec

variable {α P : Type} {K : Rules P} {fine : Nat → Bool} {L : K.Law fine} {w : World α} {m : Mem α} {v : Vec} {xs ys : List α} {cap t : Nat} {S : P}
  {it : VIntoIter} {b f : Nat}

theorem Owned.intoIter (h : VRep defaultFits w m v xs cap) (H : Owned L S m v t) :
    (v.intoIter = ⟨.null, .null, .null, .null⟩ ∧ xs = [] ∧ m.live = w ∧ cap = 0) ∨
      ∃ b : Nat, 0 < cap ∧ ItAt L w m S v.intoIter t b 0 cap xs := by
  rcases h with h | ⟨b, blk, h⟩
  · exact .inl ⟨by simp [Vec.intoIter, h.ptrs], h.nil, h.live, h.cap0⟩
  · right
    have hb : m.live b = some blk := by rw [h.live]; simp
    rcases H.2 with ⟨c1, c2⟩ | ⟨b', n, e, c1, c2, c3, c4, _, c5⟩
    · rw [h.ptrs] at c1
      cases c1
    · rw [h.ptrs] at c1
      simp only [Ptr.loc.injEq] at c1
      obtain ⟨rfl, _⟩ := c1
      have : n = cap := by
        simp only [sz, hb, Option.map_some, Option.some.injEq] at c3
        rw [← c3, h.fit.2]
      subst this
      exact ⟨b, c4, c5, ⟨blk, h.fresh, h.live, h.fit.1, h.fit.2, by simpa using h.len_le,
        by simpa using h.cells⟩, by simp [Vec.intoIter, h.ptrs]⟩

/-- The iterator without permissions: the front cursor is at `f`, `ys` is left. -/
structure ItPos (w : World α) (m : Mem α) (it : VIntoIter) (b f cap : Nat) (ys : List α) : Prop where
  ex : ∃ blk : Block α, w b = none ∧ m.live = Function.update w b (some blk) ∧ blk.region = .heap ∧
    blk.size = cap ∧ f + ys.length ≤ cap ∧ (∀ i, i < ys.length → blk.cells (f + i) = ys[i]?)
  ptrs : it = ⟨.loc b 0, .loc b cap, .loc b f, .loc b (f + ys.length)⟩

theorem ItPos.rep (h : ItPos w m it b f cap ys) : ItRep w m it ys := by
  obtain ⟨blk, h1, h2, h3, h4, h5, h6⟩ := h.ex
  exact .inr ⟨b, blk, f, cap, h1, h2, h3, h4, h5, h6, h.ptrs⟩

theorem VRep.itPos (h : VRep defaultFits w m v xs cap) (hc : 0 < cap) :
    ∃ b : Nat, ItPos w m v.intoIter b 0 cap xs := by
  rcases h with h | ⟨b, blk, h⟩
  · have := h.cap0
    omega
  · exact ⟨b, ⟨blk, h.fresh, h.live, h.fit.1, h.fit.2, by simpa using h.len_le,
      by simpa using h.cells⟩, by simp [Vec.intoIter, h.ptrs]⟩

/-- Permissions under which the iterator's calls are those of the model with permissions. -/
theorem ItPos.at (h : ItPos w m it b f cap ys) :
    ∃ (t : Nat) (S : Borrows), ItAt stackedLaw w m S it t b f cap ys := by
  refine ⟨0, ⟨fun b' o => if b' = b ∧ o < cap then [⟨.unique, 0⟩] else [], 1⟩, ⟨?_, ?_, ?_⟩, h.ex,
    h.ptrs⟩
  · intro b' o i hi
    dsimp only at hi ⊢
    by_cases hc : b' = b ∧ o < cap
    · rw [if_pos hc] at hi
      simp only [List.mem_singleton] at hi
      subst hi
      exact Nat.one_pos
    · rw [if_neg hc] at hi
      cases hi
  · intro o ho
    dsimp only
    rw [if_pos ⟨rfl, ho⟩]
    exact ⟨[], rfl, by simp⟩
  · intro o ho
    dsimp only
    rw [if_neg (by omega)]

/-- A call that is fine with permissions is fine without. -/
theorem TIntoIter.run_plain (ops : List IterOp) : ∀ {it it' : TIntoIter} {M M' : BMem α P}
    {os : List (Option α)}, TIntoIter.run K ops it M = .ok (os, it', M') →
    VIntoIter.run ops it.it M.mem = .ok (os, it'.it) ∧ M'.mem = M.mem := by
  induction ops with
  | nil =>
    intro it it' M M' os h
    cases h
    exact ⟨rfl, rfl⟩
  | cons op ops ih =>
    intro it it' M M' os h
    simp only [TIntoIter.run] at h
    obtain ⟨⟨o, it1, M1⟩, h1, h⟩ := bind_inv h
    obtain ⟨⟨os1, it2, M2⟩, h2, h⟩ := bind_inv h
    cases h
    obtain ⟨e1, e2⟩ := ih h2
    have key : (match op with
        | .next => it.it.next M.mem
        | .nextBack => it.it.nextBack M.mem) = .ok (o, it1.it) ∧ M1.mem = M.mem := by
      cases op with
      | next =>
        simp only [TIntoIter.next] at h1
        obtain ⟨n, a1, h1⟩ := bind_inv h1
        simp only [VIntoIter.next, a1, Exec.ok_bind]
        by_cases hn : n = 0
        · rw [if_pos hn] at h1
          cases h1
          simp [hn]
        · rw [if_neg hn] at h1
          obtain ⟨S, a2, h1⟩ := bind_inv h1
          obtain ⟨x, a3, h1⟩ := bind_inv h1
          obtain ⟨g, a4, h1⟩ := bind_inv h1
          cases h1
          simp [hn, a3, a4]
      | nextBack =>
        simp only [TIntoIter.nextBack] at h1
        obtain ⟨n, a1, h1⟩ := bind_inv h1
        simp only [VIntoIter.nextBack, a1, Exec.ok_bind]
        by_cases hn : n = 0
        · rw [if_pos hn] at h1
          cases h1
          simp [hn]
        · rw [if_neg hn] at h1
          obtain ⟨g, a4, h1⟩ := bind_inv h1
          obtain ⟨S, a2, h1⟩ := bind_inv h1
          obtain ⟨x, a3, h1⟩ := bind_inv h1
          cases h1
          simp [hn, a3, a4]
    simp only [VIntoIter.run]
    rw [← key.2]
    refine ⟨?_, e2⟩
    rw [key.2] at e1 ⊢
    cases op <;> simp only [key.1, Exec.ok_bind, e1]

theorem ItPos.run (ops : List IterOp) (h : ItPos w m it b f cap ys) :
    ∃ it' : VIntoIter, VIntoIter.run ops it m = .ok ((IterOp.run ops ys).1, it') ∧
      ItPos w m it' b (f + IterOp.taken ops ys) cap (IterOp.run ops ys).2 := by
  obtain ⟨t, S, H⟩ := h.at
  obtain ⟨it', S', e, H'⟩ := H.run ops
  exact ⟨it', (TIntoIter.run_plain ops e).1, H'.ex, H'.ptrs⟩

theorem ItPos.reference (h : ItPos w m it b f cap ys) :
    m.reference it.front = if f < cap then .ok () else .error .ub := by
  obtain ⟨blk, h1, h2, h3, h4, h5, h6⟩ := h.ex
  have hb : m.live b = some blk := by rw [h2]; simp
  simp only [Mem.reference, h.ptrs, Mem.cell, hb, h4]
  by_cases hf : f < cap
  · simp [hf]
  · simp [hf]

theorem ItPos.dropChecked (h : ItPos w m it b f cap ys) (A : Allocator α) (nd : Bool) :
    it.dropChecked A nd m = if f < cap then it.drop A nd m else .error .ub := by
  have hr := h.reference
  have hp := h.ptrs
  unfold VIntoIter.dropChecked
  rw [if_neg (by rw [hp]; simp), if_neg (by rw [hp]; simp), hr]
  by_cases hf : f < cap
  · simp [hf]
  · simp [hf]

theorem ItPos.asSliceChecked (h : ItPos w m it b f cap ys) :
    it.asSliceChecked m = if f < cap then .ok ys else .error .ub := by
  have hr := h.reference
  have hp := h.ptrs
  have hs := h.rep.slice
  unfold VIntoIter.asSliceChecked
  rw [if_neg (by rw [hp]; simp), hr]
  by_cases hf : f < cap
  · simp [hf, hs]
  · simp [hf]

end Verif
