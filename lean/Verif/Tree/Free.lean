import Verif.Tree.Rep
import Verif.Pool.Overflow

/-!
# Freeing a tree
-/

set_option autoImplicit false

namespace Verif
open Spec

variable {K V σ : Type}

/-- Return the nodes at the given addresses one after the other. -/
def deallocAll {N D σ : Type} (A : NAlloc N D σ) (bytes align : Nat) :
    List Nat → σ → NMem N D → Exec (σ × NMem N D)
  | [], a, m => .ok (a, m)
  | p :: ps, a, m => do
    let (a, m) ← A.dealloc p bytes align a m
    deallocAll A bytes align ps a m

theorem deallocAll_append {N D σ : Type} {A : NAlloc N D σ} {b al : Nat} {ps qs : List Nat}
    {a a' : σ} {m m' : NMem N D} (h : deallocAll A b al ps a m = .ok (a', m')) :
    deallocAll A b al (ps ++ qs) a m = deallocAll A b al qs a' m' := by
  induction ps generalizing a m with
  | nil =>
    simp only [deallocAll, Except.ok.injEq, Prod.mk.injEq] at h
    obtain ⟨rfl, rfl⟩ := h
    rfl
  | cons p ps ih =>
    simp only [deallocAll, List.cons_append] at h ⊢
    cases hd : A.dealloc p b al a m with
    | error e => rw [hd] at h; cases h
    | ok x =>
      rw [hd] at h
      simp only [Exec.ok_bind] at h ⊢
      exact ih h

/-- What freeing needs of an allocator: a node in use can be given back, and only that node
changes. -/
structure NFree {N D σ : Type} (A : NAlloc N D σ) (dbytes dalign : Nat)
    (Inv : σ → NMem N D → List Nat → Prop) : Prop where
  dealloc : ∀ {a m ps p}, Inv a m ps → p ∈ ps →
    ∃ a' m', A.dealloc p dbytes dalign a m = .ok (a', m') ∧
      m'.node = Function.update m.node p none ∧ m'.dropped = m.dropped ∧ Inv a' m' (ps.erase p)
  perm : ∀ {a m ps qs}, Inv a m ps → ps.Perm qs → Inv a m qs

theorem NLaw.free {N D σ : Type} {A : NAlloc N D σ} {u : N} {b al db da : Nat}
    {Inv : σ → NMem N D → List Nat → Prop} (L : NLaw A u b al db da Inv) : NFree A db da Inv :=
  ⟨L.dealloc, L.perm⟩

/-- A pool, however many of its nodes are in use. -/
theorem poolNAlloc_free {N D : Type} (u : N) (start size align c b al : Nat) :
    NFree (D := D) (poolNAlloc u size align) b al
      (fun s m ps => ∃ fs k, PoolInv start size c s m ps fs k) where
  dealloc := by
    rintro s m ps p ⟨fs, k, h⟩ hp
    obtain ⟨s', m', e1, e2, _, e4, e5, _⟩ := h.free u align b al hp
    exact ⟨s', m', e1, e2, e4, _, _, e5⟩
  perm := by
    rintro s m ps qs ⟨fs, k, h⟩ hp
    exact ⟨fs, k, h.permute hp⟩

theorem freeTree_ok {E : TEnv K V σ}
    {Inv : σ → TMem K V → List Nat → Prop} (L : NFree E.A E.size E.align Inv)
    {par p : Nat} {t : Tree (Nat × K × V)} {a : σ} {m : TMem K V} {qs : List Nat}
    (h : TreeAt m par t p) (hp : p ≠ 0) (hnd : (nodeAddrs t).Nodup) (hi : Inv a m (nodeAddrs t ++ qs))
    {f : Nat} (hf : t.count ≤ f) :
    ∃ (order : List Nat) (a' : σ) (m' : TMem K V), order.Perm (nodeAddrs t) ∧
      RBTree.freeTree E f p a m = .ok (a', m') ∧
      deallocAll E.A E.size E.align order a m = .ok (a', m') ∧
      (∀ q, m'.node q = if q ∈ nodeAddrs t then none else m.node q) ∧
      m'.dropped = m.dropped ∧ Inv a' m' qs := by
  induction t generalizing par p a m qs f with
  | nil => exact absurd h hp
  | node l x r ih1 ih2 =>
    obtain ⟨b, e⟩ := x
    obtain ⟨rfl, _, n, hn, h1, h2, hl, hr⟩ := h
    simp only [Tree.count] at hf
    obtain ⟨f, rfl⟩ : ∃ g, f = g + 1 := ⟨f - 1, by omega⟩
    rw [nodeAddrs_node] at hnd hi ⊢
    simp only at hnd hi ⊢
    obtain ⟨nd1, nd2, nd3⟩ := List.nodup_append.1 hnd
    obtain ⟨nd4, nd5⟩ := List.nodup_cons.1 nd2
    have hpl : p ∉ nodeAddrs l := fun h => nd3 p h p (by simp) rfl
    -- the left subtree
    obtain ⟨o1, a1, m1, p1, f1, d1, n1, dr1, i1⟩ : ∃ (o : List Nat) (a1 : σ) (m1 : TMem K V),
        o.Perm (nodeAddrs l) ∧
        (if n.left ≠ 0 then RBTree.freeTree E f n.left a m else .ok (a, m)) = .ok (a1, m1) ∧
        deallocAll E.A E.size E.align o a m = .ok (a1, m1) ∧
        (∀ q, m1.node q = if q ∈ nodeAddrs l then none else m.node q) ∧
        m1.dropped = m.dropped ∧ Inv a1 m1 (nodeAddrs r ++ (p :: qs)) := by
      have hi' : Inv a m (nodeAddrs l ++ (nodeAddrs r ++ (p :: qs))) := by
        refine L.perm hi ?_
        rw [List.append_assoc]
        refine List.Perm.append_left _ ?_
        rw [List.cons_append]
        exact List.perm_middle.symm
      by_cases hz : n.left = 0
      · have hnil := hl.nil_iff.1 hz
        subst hnil
        exact ⟨[], a, m, .refl _, by simp [hz], rfl, by simp, rfl, by simpa using hi'⟩
      · obtain ⟨o, a1, m1, g1, g2, g3, g4, g5, g6⟩ := ih1 hl hz nd1 hi' (f := f) (by omega)
        exact ⟨o, a1, m1, g1, by simp [hz, g2], g3, g4, g5, g6⟩
    have hn1 : m1.node p = some n := by rw [n1, if_neg hpl, hn]
    have hr1 : TreeAt m1 p r n.right := by
      refine hr.frame fun q hq => ?_
      rw [n1, if_neg]
      intro hql
      exact nd3 q hql q (by simp [hq]) rfl
    -- the right subtree
    obtain ⟨o2, a2, m2, p2, f2, d2, n2, dr2, i2⟩ : ∃ (o : List Nat) (a2 : σ) (m2 : TMem K V),
        o.Perm (nodeAddrs r) ∧
        (if n.right ≠ 0 then RBTree.freeTree E f n.right a1 m1 else .ok (a1, m1)) =
          .ok (a2, m2) ∧
        deallocAll E.A E.size E.align o a1 m1 = .ok (a2, m2) ∧
        (∀ q, m2.node q = if q ∈ nodeAddrs r then none else m1.node q) ∧
        m2.dropped = m1.dropped ∧ Inv a2 m2 (p :: qs) := by
      by_cases hz : n.right = 0
      · have hnil := hr.nil_iff.1 hz
        subst hnil
        exact ⟨[], a1, m1, .refl _, by simp [hz], rfl, by simp, rfl, by simpa using i1⟩
      · obtain ⟨o, a2, m2, g1, g2, g3, g4, g5, g6⟩ := ih2 hr1 hz nd5 i1 (f := f) (by omega)
        exact ⟨o, a2, m2, g1, by simp [hz, g2], g3, g4, g5, g6⟩
    -- the node itself
    obtain ⟨a3, m3, e1, e2, e3, e4⟩ := L.dealloc i2 (p := p) (by simp)
    refine ⟨o1 ++ (o2 ++ [p]), a3, m3, ?_, ?_, ?_, ?_, ?_, ?_⟩
    · refine p1.append ?_
      exact (p2.append_right [p]).trans (List.perm_append_comm)
    · simp only [RBTree.freeTree, NMem.get_some hn, Exec.ok_bind, f1, NMem.get_some hn1, f2, e1]
    · rw [deallocAll_append d1, deallocAll_append d2]
      simp [deallocAll, e1]
    · intro q
      rw [e2]
      by_cases hq : q = p
      · subst hq; simp
      · rw [Function.update_of_ne hq, n2, n1]
        by_cases hql : q ∈ nodeAddrs l <;> by_cases hqr : q ∈ nodeAddrs r <;> simp [hq, hql, hqr]
    · rw [e3, dr2, dr1]
    · simpa using e4

/-- Memory from which the blocks starting at `ps` were taken out. -/
def NMem.without {N D : Type} (m : NMem N D) (ps : List Nat) : NMem N D :=
  { m with
    node := fun q => if q ∈ ps then none else m.node q
    reg := fun q => if q ∈ ps then none else m.reg q
    top_ok := by
      intro a r h
      by_cases ha : a ∈ ps
      · simp [ha] at h
      · simp only [ha, if_false] at h; exact m.top_ok a r h }

/-- Blocks of the default allocator are given back exactly once each by any code that keeps to
the law. -/
theorem DefInv.of_blocks {N D : Type} {m : NMem N D} {ps : List Nat} {size align : Nat}
    (hwf : m.WF) (hnd : ps.Nodup)
    (hreg : ∀ p ∈ ps, m.reg p = some ⟨size, align, true⟩) (hlive : ∀ p ∈ ps, m.node p ≠ none)
    (hsolid : ∀ p ∈ ps, ∀ q, p < q → q < p + size → m.node q = none)
    (hal : ∀ p ∈ ps, 0 < align → align ∣ p) :
    DefInv (m.without ps) size align () m ps where
  wf := hwf
  nodup := hnd
  out a ha := by simp [NMem.without, ha]
  ins p hp := ⟨by simp [NMem.without, hp], hreg p hp⟩
  node q hq := by simp [NMem.without, hq]
  live p hp := ⟨by simp [NMem.without, hp], hlive p hp⟩
  solid := hsolid
  aligned := hal

theorem TreeRep.freeNodes {T : RBTree σ} {E : TEnv K V σ}
    {Inv : σ → TMem K V → List Nat → Prop} (L : NFree E.A E.size E.align Inv)
    {m : TMem K V} {t : Tree (Nat × K × V)} {qs : List Nat} (h : TreeRep T m t)
    (hi : Inv T.al m (nodeAddrs t ++ qs)) {f : Nat} (hf : t.count ≤ f) :
    ∃ (order : List Nat) (a' : σ) (m' : TMem K V), order.Perm (nodeAddrs t) ∧
      T.freeNodes E f m = .ok ({ T with al := a' }, m') ∧
      deallocAll E.A E.size E.align order T.al m = .ok (a', m') ∧
      (∀ q, m'.node q = if q ∈ nodeAddrs t then none else m.node q) ∧
      m'.dropped = m.dropped ∧ Inv a' m' qs := by
  obtain ⟨n, r, hn, h1, _, h3, _⟩ := h.anchor
  by_cases hr : r = 0
  · have hnil := h3.nil_iff.1 hr
    subst hnil
    refine ⟨[], T.al, m, .refl _, ?_, rfl, by simp, rfl, by simpa using hi⟩
    simp [RBTree.freeNodes, RBTree.root, NMem.get_some hn, h1, hr]
  · obtain ⟨o, a', m', g1, g2, g3, g4, g5, g6⟩ := freeTree_ok L h3 hr h.nodup hi hf
    refine ⟨o, a', m', g1, ?_, g3, g4, g5, g6⟩
    simp [RBTree.freeNodes, RBTree.root, NMem.get_some hn, h1, hr, g2]

end Verif
