import Verif.Node.Mem
import Mathlib.Data.List.Nodup
import Mathlib.Tactic.ByContra
import Mathlib.Tactic.SplitIfs

/-!
# What a node-based container needs of its allocator, and that `DefaultAllocator` provides it
-/

set_option autoImplicit false

namespace Verif

variable {N D σ : Type}

/-- `Inv a m ps`: with allocator state `a` and memory `m`, the nodes handed out and not yet
returned are `ps`.  Nodes are requested with `bytes`, `align` and returned with `dbytes`,
`dalign`. -/
structure NLaw (A : NAlloc N D σ) (u : N) (bytes align dbytes dalign : Nat)
    (Inv : σ → NMem N D → List Nat → Prop) : Prop where
  alloc : ∀ {a m ps}, Inv a m ps → ∃ p a' m', A.alloc bytes align a m = .ok (p, a', m') ∧
    p ≠ 0 ∧ m.node p = none ∧ m'.node = Function.update m.node p (some u) ∧
    m'.dropped = m.dropped ∧ Inv a' m' (p :: ps)
  dealloc : ∀ {a m ps p}, Inv a m ps → p ∈ ps →
    ∃ a' m', A.dealloc p dbytes dalign a m = .ok (a', m') ∧
      m'.node = Function.update m.node p none ∧ m'.dropped = m.dropped ∧ Inv a' m' (ps.erase p)
  frame : ∀ {a m m' ps}, Inv a m ps → (∀ q, m'.node q = none ↔ m.node q = none) →
    m'.link = m.link → m'.reg = m.reg → Inv a m' ps
  perm : ∀ {a m ps qs}, Inv a m ps → ps.Perm qs → Inv a m qs

/-- The law with the nodes of another container set aside. -/
theorem NLaw.aside {N D σ : Type} {A : NAlloc N D σ} {u : N} {b al db da : Nat}
    {Inv : σ → NMem N D → List Nat → Prop} (L : NLaw A u b al db da Inv) (qs : List Nat) :
    NLaw A u b al db da (fun a m ps => Inv a m (ps ++ qs)) where
  alloc h := L.alloc h
  dealloc := by
    intro a m ps p h hp
    obtain ⟨a', m', h1, h2, h3, h4⟩ := L.dealloc h (p := p) (by simp [hp])
    exact ⟨a', m', h1, h2, h3, by rwa [List.erase_append_left _ hp] at h4⟩
  frame h := L.frame h
  perm h hp := L.perm h (hp.append_right qs)

/-- State of the default allocator since memory `m0`: exactly the blocks `ps` are new. -/
structure DefInv (m0 : NMem N D) (bytes align : Nat) (_ : Unit) (m : NMem N D) (ps : List Nat) :
    Prop where
  wf : m.WF
  nodup : ps.Nodup
  out : ∀ a, a ∉ ps → m.reg a = m0.reg a
  ins : ∀ p ∈ ps, m0.reg p = none ∧ m.reg p = some ⟨bytes, align, true⟩
  node : ∀ q, q ∉ ps → (m.node q = none ↔ m0.node q = none)
  live : ∀ p ∈ ps, m0.node p = none ∧ m.node p ≠ none
  solid : ∀ p ∈ ps, ∀ q, p < q → q < p + bytes → m.node q = none
  aligned : ∀ p ∈ ps, 0 < align → align ∣ p

theorem DefInv.init {m0 : NMem N D} (h : m0.WF) (bytes align : Nat) :
    DefInv m0 bytes align () m0 [] :=
  ⟨h, by simp, fun _ _ => rfl, by simp, fun _ _ => Iff.rfl, by simp, by simp, by simp⟩

/-- Once everything was returned, the ranges in use are those from before. -/
theorem DefInv.done {m0 m : NMem N D} {bytes align : Nat} (h : DefInv m0 bytes align () m []) :
    m.reg = m0.reg := funext fun a => h.out a (by simp)

/-- Blocks handed out do not overlap each other or anything in use before. -/
theorem DefInv.disjoint {m0 m : NMem N D} {bytes align : Nat} {ps : List Nat}
    (h : DefInv m0 bytes align () m ps) {p q : Nat} (hp : p ∈ ps) (hq : q ∈ ps) (hne : p ≠ q) :
    p + bytes ≤ q ∨ q + bytes ≤ p := by
  have := h.wf.disj p q _ _ (h.ins p hp).2 (h.ins q hq).2 hne
  simpa using this

theorem defaultNAlloc_law (P : Placer N D) (u : N) (strict : Bool) {bytes align dbytes dalign : Nat}
    (hb : 0 < bytes) (hs : strict = true → bytes = dbytes ∧ align = dalign) (m0 : NMem N D) :
    NLaw (defaultNAlloc P u strict) u bytes align dbytes dalign (DefInv m0 bytes align) where
  alloc := by
    intro a m ps h
    have hnone : ∀ q, P.pick m bytes align ≤ q → q < P.pick m bytes align + bytes →
        m.node q = none := by
      intro q h1 h2
      by_contra hq
      obtain ⟨x, r, hx, hx1, hx2⟩ := h.wf.cover q hq
      have := P.disj m bytes align x r hx
      omega
    have hp : P.pick m bytes align ∉ ps := by
      intro hm
      have := (h.ins _ hm).2
      rw [P.fresh] at this
      simp at this
    refine ⟨P.pick m bytes align, (), (m.setReg (P.pick m bytes align)
      (some ⟨bytes, align, true⟩)).setNode (P.pick m bytes align) (some u), ?_, P.pos _ _ _, hnone _ (Nat.le_refl _) (by omega), ?_⟩
    · simp only [defaultNAlloc, if_neg (show bytes ≠ 0 by omega)]
    · refine ⟨rfl, rfl, ?_⟩
      have hreg : ∀ x, ((m.setReg (P.pick m bytes align) (some ⟨bytes, align, true⟩)).setNode
          (P.pick m bytes align) (some u)).reg x =
          Function.update m.reg (P.pick m bytes align) (some ⟨bytes, align, true⟩) x :=
        fun _ => rfl
      have hnode : ∀ x, ((m.setReg (P.pick m bytes align) (some ⟨bytes, align, true⟩)).setNode
          (P.pick m bytes align) (some u)).node x =
          Function.update m.node (P.pick m bytes align) (some u) x := fun _ => rfl
      have hfresh := P.fresh m bytes align
      have hdisj := P.disj m bytes align
      have hpos := P.pos m bytes align
      have hal := P.aligned m bytes align
      generalize P.pick m bytes align = p at *
      refine ⟨⟨?_, ?_, ?_⟩, by simp [hp, h.nodup], ?_, ?_, ?_, ?_, ?_, ?_⟩
      · intro x y r r' h1 h2 hne
        rw [hreg] at h1 h2
        by_cases hx : x = p
        · subst hx
          rw [Function.update_self] at h1
          rw [Function.update_of_ne (Ne.symm hne)] at h2
          simp only [Option.some.injEq] at h1
          subst h1
          exact (hdisj y r' h2).symm
        · rw [Function.update_of_ne hx] at h1
          by_cases hy : y = p
          · subst hy
            rw [Function.update_self] at h2
            simp only [Option.some.injEq] at h2
            subst h2
            exact hdisj x r h1
          · rw [Function.update_of_ne hy] at h2
            exact h.wf.disj x y r r' h1 h2 hne
      · intro q hq
        rw [hnode] at hq
        by_cases hqp : q = p
        · subst hqp
          exact ⟨q, _, by rw [hreg, Function.update_self], Nat.le_refl _, by simp; omega⟩
        · rw [Function.update_of_ne hqp] at hq
          obtain ⟨x, r, hx, hx1⟩ := h.wf.cover q hq
          refine ⟨x, r, ?_, hx1⟩
          rw [hreg, Function.update_of_ne, hx]
          rintro rfl; rw [hfresh] at hx; simp at hx
      · intro x r hx
        rw [hreg] at hx
        by_cases hxp : x = p
        · subst hxp; exact hpos
        · rw [Function.update_of_ne hxp] at hx; exact h.wf.null x r hx
      · intro x hx
        simp only [List.mem_cons, not_or] at hx
        rw [hreg, Function.update_of_ne hx.1, h.out x hx.2]
      · intro x hx
        rcases List.mem_cons.1 hx with rfl | hx'
        · exact ⟨by rw [← h.out _ hp, hfresh], by rw [hreg, Function.update_self]⟩
        · refine ⟨(h.ins x hx').1, ?_⟩
          rw [hreg, Function.update_of_ne, (h.ins x hx').2]
          rintro rfl; exact hp hx'
      · intro q hq
        simp only [List.mem_cons, not_or] at hq
        rw [hnode, Function.update_of_ne hq.1]
        exact h.node q hq.2
      · intro q hq
        rw [hnode]
        rcases List.mem_cons.1 hq with rfl | hq'
        · exact ⟨(h.node q hp).1 (hnone q (Nat.le_refl _) (by omega)), by simp⟩
        · by_cases hqp : q = p
          · subst hqp; exact absurd hq' hp
          · rw [Function.update_of_ne hqp]; exact h.live q hq'
      · intro x hx q h1 h2
        rw [hnode]
        rcases List.mem_cons.1 hx with rfl | hx
        · rw [Function.update_of_ne (by omega)]; exact hnone q (by omega) (by omega)
        · have hx1 := (h.ins x hx).2
          have := hdisj x _ hx1
          simp only at this
          rw [Function.update_of_ne (by omega)]
          exact h.solid x hx q h1 h2
      · intro x hx
        rcases List.mem_cons.1 hx with rfl | hx
        · exact hal
        · exact h.aligned x hx
  dealloc := by
    intro a m ps p h hp
    have hr := (h.ins p hp).2
    refine ⟨(), (m.setReg p none).setNode p none, ?_, rfl, rfl, ?_⟩
    · simp only [defaultNAlloc, hr]
      rw [if_pos ⟨trivial, hs⟩]
    · have hreg : ∀ x, ((m.setReg p none).setNode p none).reg x =
          Function.update m.reg p none x := fun _ => rfl
      have hnode : ∀ x, ((m.setReg p none).setNode p none).node x =
          Function.update m.node p none x := fun _ => rfl
      have hsub : ∀ x, x ∈ ps.erase p ↔ x ≠ p ∧ x ∈ ps := fun x => h.nodup.mem_erase_iff
      have hold : ∀ x r, Function.update m.reg p none x = some r → x ≠ p ∧ m.reg x = some r := by
        intro x r hx
        by_cases hxp : x = p
        · subst hxp; simp at hx
        · exact ⟨hxp, by rwa [Function.update_of_ne hxp] at hx⟩
      refine ⟨⟨?_, ?_, ?_⟩, h.nodup.erase p, ?_, ?_, ?_, ?_, ?_, ?_⟩
      · intro x y r r' h1 h2 hne
        exact h.wf.disj x y r r' (hold x r h1).2 (hold y r' h2).2 hne
      · intro q hq
        rw [hnode] at hq
        by_cases hqp : q = p
        · subst hqp; simp at hq
        · rw [Function.update_of_ne hqp] at hq
          obtain ⟨x, r, hx, hx1, hx2⟩ := h.wf.cover q hq
          refine ⟨x, r, ?_, hx1, hx2⟩
          rw [hreg, Function.update_of_ne, hx]
          rintro rfl
          rw [hr] at hx
          simp only [Option.some.injEq] at hx
          subst hx
          exact hq (h.solid x hp q (by omega) hx2)
      · intro x r hx; exact h.wf.null x r (hold x r hx).2
      · intro x hx
        rw [hsub] at hx
        rw [hreg]
        by_cases hxp : x = p
        · subst hxp; rw [Function.update_self]; exact (h.ins x hp).1.symm
        · rw [Function.update_of_ne hxp]; exact h.out x (fun hm => hx ⟨hxp, hm⟩)
      · intro x hx
        rw [hsub] at hx
        exact ⟨(h.ins x hx.2).1, by rw [hreg, Function.update_of_ne hx.1]; exact (h.ins x hx.2).2⟩
      · intro q hq
        rw [hsub] at hq
        rw [hnode]
        by_cases hqp : q = p
        · subst hqp
          rw [Function.update_self]
          simp only [true_iff]
          exact (h.live q hp).1
        · rw [Function.update_of_ne hqp]; exact h.node q (fun hm => hq ⟨hqp, hm⟩)
      · intro x hx
        rw [hsub] at hx
        rw [hnode, Function.update_of_ne hx.1]; exact h.live x hx.2
      · intro x hx q h1 h2
        rw [hsub] at hx
        rw [hnode]
        by_cases hqp : q = p
        · subst hqp; simp
        · rw [Function.update_of_ne hqp]; exact h.solid x hx.2 q h1 h2
      · intro x hx
        rw [hsub] at hx
        exact h.aligned x hx.2
  frame := by
    intro a m m' ps h h1 _ h3
    refine ⟨⟨by rw [h3]; exact h.wf.disj, ?_, by rw [h3]; exact h.wf.null⟩, h.nodup,
      by rw [h3]; exact h.out, by rw [h3]; exact h.ins, ?_, ?_, ?_, h.aligned⟩
    · intro q hq; rw [h3]; exact h.wf.cover q (by rwa [Ne, h1] at hq)
    · intro q hq; rw [h1]; exact h.node q hq
    · intro q hq; rw [Ne, h1]; exact h.live q hq
    · intro p hp q hq hq'; rw [h1]; exact h.solid p hp q hq hq'
  perm := by
    intro a m ps qs h hp
    have hm : ∀ x, x ∈ qs ↔ x ∈ ps := fun x => hp.mem_iff.symm
    exact ⟨h.wf, hp.nodup_iff.1 h.nodup, fun a ha => h.out a (by rwa [← hm]),
      fun p hq => h.ins p ((hm p).1 hq), fun q hq => h.node q (by rwa [← hm]),
      fun p hq => h.live p ((hm p).1 hq), fun p hq => h.solid p ((hm p).1 hq),
      fun p hq => h.aligned p ((hm p).1 hq)⟩

end Verif
