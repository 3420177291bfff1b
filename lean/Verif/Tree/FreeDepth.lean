import Verif.Tree.Free
import Verif.Tree.Cost

/-!
# How deep freeing a tree recurses

`free_tree` of `Tree/Model.lean` again, returning also how many of its calls were active at the
same time and how many there were; `RBTree.freeTreeT_fst` says that it is the same otherwise.
-/

set_option autoImplicit false

namespace Verif
open Spec

variable {K V σ : Type}

/-- `free_tree` (src/internal/rb_tree/mod.rs:255-264): also the most calls active at a time, this one
included, and all calls made. -/
def RBTree.freeTreeT (E : TEnv K V σ) : Nat → Nat → σ → TMem K V →
    Exec ((σ × TMem K V) × Nat × Nat)
  | 0, _, _, _ => .error .ub
  | fuel + 1, root, a, m => do
    let n ← m.get root
    let ((a, m), d1, c1) ←
      (if n.left ≠ 0 then freeTreeT E fuel n.left a m else .ok ((a, m), 0, 0))
    let n ← m.get root
    let ((a, m), d2, c2) ←
      (if n.right ≠ 0 then freeTreeT E fuel n.right a m else .ok ((a, m), 0, 0))
    let r ← E.A.dealloc root E.size E.align a m
    .ok (r, max d1 d2 + 1, c1 + c2 + 1)

/-- `Drop` (src/internal/rb_tree/mod.rs:52-54, 267-271), likewise. -/
def RBTree.dropT (E : TEnv K V σ) (fuel : Nat) (t : RBTree σ) (m : TMem K V) :
    Exec ((σ × TMem K V) × Nat × Nat) := do
  let r ← t.root m
  if r ≠ 0 then RBTree.freeTreeT E fuel r t.al m else .ok ((t.al, m), 0, 0)

theorem RBTree.freeTreeT_fst (E : TEnv K V σ) : ∀ (f p : Nat) (a : σ) (m : TMem K V),
    (RBTree.freeTreeT E f p a m).map Prod.fst = RBTree.freeTree E f p a m := by
  intro f
  induction f with
  | zero => intro p a m; rfl
  | succ f ih =>
    have side : ∀ (q : Nat) (a : σ) (m : TMem K V),
        (if q ≠ 0 then RBTree.freeTree E f q a m else .ok (a, m)) =
        (if q ≠ 0 then RBTree.freeTreeT E f q a m else .ok ((a, m), 0, 0)).map Prod.fst := by
      intro q a m
      by_cases hq : q = 0
      · simp [hq, Except.map]
      · simp [hq, ih]
    intro p a m
    simp only [RBTree.freeTreeT, RBTree.freeTree, side]
    cases m.get p with
    | error e => rfl
    | ok n =>
      simp only [Exec.ok_bind]
      cases (if n.left ≠ 0 then RBTree.freeTreeT E f n.left a m else .ok ((a, m), 0, 0)) with
      | error e => rfl
      | ok r =>
        obtain ⟨⟨a1, m1⟩, d1, c1⟩ := r
        simp only [Exec.ok_bind, Except.map]
        cases m1.get p with
        | error e => rfl
        | ok n =>
          simp only [Exec.ok_bind]
          cases (if n.right ≠ 0 then RBTree.freeTreeT E f n.right a1 m1
            else .ok ((a1, m1), 0, 0)) with
          | error e => rfl
          | ok r =>
            obtain ⟨⟨a2, m2⟩, d2, c2⟩ := r
            simp only [Exec.ok_bind]
            cases E.A.dealloc p E.size E.align a2 m2 <;> rfl

theorem RBTree.dropT_fst (E : TEnv K V σ) (f : Nat) (t : RBTree σ) (m : TMem K V) :
    (t.dropT E f m).map Prod.fst = t.drop E f m := by
  simp only [RBTree.dropT, RBTree.drop, RBTree.freeNodes]
  cases t.root m with
  | error e => rfl
  | ok r =>
    simp only [Exec.ok_bind]
    by_cases hr : r = 0
    · simp [hr, Except.map]
    · simp only [hr, ne_eq, not_false_eq_true, if_true, ← RBTree.freeTreeT_fst]
      cases RBTree.freeTreeT E f r t.al m <;> rfl

theorem freeTreeT_ok {E : TEnv K V σ}
    {Inv : σ → TMem K V → List Nat → Prop} (L : NFree E.A E.size E.align Inv)
    {par p : Nat} {t : Tree (Nat × K × V)} {a : σ} {m : TMem K V} {qs : List Nat}
    (h : TreeAt m par t p) (hp : p ≠ 0) (hnd : (nodeAddrs t).Nodup) (hi : Inv a m (nodeAddrs t ++ qs))
    {f : Nat} (hf : t.height ≤ f) :
    ∃ (a' : σ) (m' : TMem K V),
      RBTree.freeTreeT E f p a m = .ok ((a', m'), t.height, t.count) ∧
      (∀ q, m'.node q = if q ∈ nodeAddrs t then none else m.node q) ∧ Inv a' m' qs := by
  induction t generalizing par p a m qs f with
  | nil => exact absurd h hp
  | node l x r ih1 ih2 =>
    obtain ⟨b, e⟩ := x
    obtain ⟨rfl, _, n, hn, h1, h2, hl, hr⟩ := h
    simp only [Tree.height] at hf
    obtain ⟨f, rfl⟩ : ∃ g, f = g + 1 := ⟨f - 1, by omega⟩
    rw [nodeAddrs_node] at hnd hi ⊢
    simp only at hnd hi ⊢
    obtain ⟨nd1, nd2, nd3⟩ := List.nodup_append.1 hnd
    obtain ⟨nd4, nd5⟩ := List.nodup_cons.1 nd2
    have hpl : p ∉ nodeAddrs l := fun h => nd3 p h p (by simp) rfl
    obtain ⟨a1, m1, f1, n1, i1⟩ : ∃ (a1 : σ) (m1 : TMem K V),
        (if n.left ≠ 0 then RBTree.freeTreeT E f n.left a m else .ok ((a, m), 0, 0)) =
          .ok ((a1, m1), l.height, l.count) ∧
        (∀ q, m1.node q = if q ∈ nodeAddrs l then none else m.node q) ∧
        Inv a1 m1 (nodeAddrs r ++ (p :: qs)) := by
      have hi' : Inv a m (nodeAddrs l ++ (nodeAddrs r ++ (p :: qs))) := by
        refine L.perm hi ?_
        rw [List.append_assoc]
        refine List.Perm.append_left _ ?_
        rw [List.cons_append]
        exact List.perm_middle.symm
      by_cases hz : n.left = 0
      · have hnil := hl.nil_iff.1 hz
        subst hnil
        exact ⟨a, m, by simp [hz, Tree.height, Tree.count], by simp, by simpa using hi'⟩
      · obtain ⟨a1, m1, g2, g4, g6⟩ := ih1 hl hz nd1 hi' (f := f) (by omega)
        exact ⟨a1, m1, by simp [hz, g2], g4, g6⟩
    have hn1 : m1.node p = some n := by rw [n1, if_neg hpl, hn]
    have hr1 : TreeAt m1 p r n.right := by
      refine hr.frame fun q hq => ?_
      rw [n1, if_neg]
      intro hql
      exact nd3 q hql q (by simp [hq]) rfl
    obtain ⟨a2, m2, f2, n2, i2⟩ : ∃ (a2 : σ) (m2 : TMem K V),
        (if n.right ≠ 0 then RBTree.freeTreeT E f n.right a1 m1 else .ok ((a1, m1), 0, 0)) =
          .ok ((a2, m2), r.height, r.count) ∧
        (∀ q, m2.node q = if q ∈ nodeAddrs r then none else m1.node q) ∧
        Inv a2 m2 (p :: qs) := by
      by_cases hz : n.right = 0
      · have hnil := hr.nil_iff.1 hz
        subst hnil
        exact ⟨a1, m1, by simp [hz, Tree.height, Tree.count], by simp, by simpa using i1⟩
      · obtain ⟨a2, m2, g2, g4, g6⟩ := ih2 hr1 hz nd5 i1 (f := f) (by omega)
        exact ⟨a2, m2, by simp [hz, g2], g4, g6⟩
    obtain ⟨a3, m3, e1, e2, e3, e4⟩ := L.dealloc i2 (p := p) (by simp)
    refine ⟨a3, m3, ?_, ?_, by simpa using e4⟩
    · simp only [RBTree.freeTreeT, NMem.get_some hn, Exec.ok_bind, f1, NMem.get_some hn1, f2, e1,
        Tree.height, Tree.count]
    · intro q
      rw [e2]
      by_cases hq : q = p
      · subst hq; simp
      · rw [Function.update_of_ne hq, n2, n1]
        by_cases hql : q ∈ nodeAddrs l <;> by_cases hqr : q ∈ nodeAddrs r <;> simp [hq, hql, hqr]

end Verif
