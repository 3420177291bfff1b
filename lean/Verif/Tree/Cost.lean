import Verif.Tree.Find
import Verif.Spec.RedBlack
import Mathlib.Data.Nat.Log

/-!
# The comparisons a tree search makes

The searches of `Tree/Model.lean` again, returning also the nodes visited and the calls of the
comparator; `findLoopT_fst` and `positionLoopT_fst` say that they are the same functions otherwise.
-/

set_option autoImplicit false

namespace Verif
open Spec

variable {K V σ : Type}

/-- What a search did: the nodes it visited, and its calls `C::compare(a, b)`. -/
structure Searched (K : Type) where
  visited : List Nat
  compares : List (K × K)

/-- The loop of `find_in_tree` (src/internal/rb_tree/mod.rs:215-224), with what it did. -/
def RBTree.findLoopT (E : TEnv K V σ) (k : K) : Nat → TMem K V → Nat →
    Exec (Option Nat × Searched K)
  | 0, _, _ => .error .ub
  | fuel + 1, m, cur =>
    if cur = 0 then .ok (none, ⟨[], []⟩)
    else do
      let n ← m.get cur
      let e ← initd n.pair
      if E.lt k e.1 then do
        let (r, s) ← findLoopT E k fuel m n.left
        .ok (r, ⟨cur :: s.visited, (k, e.1) :: s.compares⟩)
      else if !E.lt e.1 k then .ok (some cur, ⟨[cur], [(k, e.1), (e.1, k)]⟩)
      else do
        let (r, s) ← findLoopT E k fuel m n.right
        .ok (r, ⟨cur :: s.visited, (k, e.1) :: (e.1, k) :: s.compares⟩)

/-- `find_in_tree` (src/internal/rb_tree/mod.rs:213-226), with what it did. -/
def RBTree.findT (E : TEnv K V σ) (fuel : Nat) (t : RBTree σ) (k : K) (m : TMem K V) :
    Exec (Option Nat × Searched K) := do
  findLoopT E k fuel m (← t.root m)

/-- The loop of `_find_insertion_position` (src/internal/rb_tree/mod.rs:237-245), with what it
did. -/
def RBTree.positionLoopT (E : TEnv K V σ) (k : K) : Nat → TMem K V → Nat → Nat →
    Exec (Nat × Searched K)
  | 0, _, _, _ => .error .ub
  | fuel + 1, m, cur, prev =>
    if cur = 0 then .ok (prev, ⟨[], []⟩)
    else do
      let n ← m.get cur
      let e ← initd n.pair
      let (r, s) ← (if E.lt k e.1 then positionLoopT E k fuel m n.left cur
        else positionLoopT E k fuel m n.right cur)
      .ok (r, ⟨cur :: s.visited, (k, e.1) :: s.compares⟩)

/-- `_find_insertion_position` (src/internal/rb_tree/mod.rs:233-248), with what it did. -/
def RBTree.positionT (E : TEnv K V σ) (fuel : Nat) (t : RBTree σ) (k : K) (m : TMem K V) :
    Exec (Nat × Searched K) := do
  positionLoopT E k fuel m (← t.root m) 0

theorem findLoopT_fst (E : TEnv K V σ) (k : K) (m : TMem K V) : ∀ (f p : Nat),
    (RBTree.findLoopT E k f m p).map Prod.fst = RBTree.findLoop E k f m p := by
  intro f
  induction f with
  | zero => intro p; rfl
  | succ f ih =>
    intro p
    unfold RBTree.findLoopT RBTree.findLoop
    by_cases h0 : p = 0
    · rw [if_pos h0, if_pos h0]; rfl
    · rw [if_neg h0, if_neg h0]
      cases hn : m.get p with
      | error e => rfl
      | ok n =>
        simp only [Exec.ok_bind]
        cases he : initd n.pair with
        | error e => rfl
        | ok e =>
          simp only [Exec.ok_bind]
          by_cases h1 : E.lt k e.1 = true
          · rw [if_pos h1, if_pos h1, ← ih]
            cases RBTree.findLoopT E k f m n.left <;> rfl
          · rw [if_neg h1, if_neg h1]
            by_cases h2 : (!E.lt e.1 k) = true
            · rw [if_pos h2, if_pos h2]; rfl
            · rw [if_neg h2, if_neg h2, ← ih]
              cases RBTree.findLoopT E k f m n.right <;> rfl

theorem positionLoopT_fst (E : TEnv K V σ) (k : K) (m : TMem K V) : ∀ (f p q : Nat),
    (RBTree.positionLoopT E k f m p q).map Prod.fst = RBTree.positionLoop E k f m p q := by
  intro f
  induction f with
  | zero => intro p q; rfl
  | succ f ih =>
    intro p q
    unfold RBTree.positionLoopT RBTree.positionLoop
    by_cases h0 : p = 0
    · rw [if_pos h0, if_pos h0]; rfl
    · rw [if_neg h0, if_neg h0]
      cases hn : m.get p with
      | error e => rfl
      | ok n =>
        simp only [Exec.ok_bind]
        cases he : initd n.pair with
        | error e => rfl
        | ok e =>
          simp only [Exec.ok_bind]
          by_cases h1 : E.lt k e.1 = true
          · rw [if_pos h1, if_pos h1, ← ih]
            cases RBTree.positionLoopT E k f m n.left p <;> rfl
          · rw [if_neg h1, if_neg h1, ← ih]
            cases RBTree.positionLoopT E k f m n.right p <;> rfl

theorem Spec.Tree.height_le_count {α : Type} (t : Tree α) : t.height ≤ t.count := by
  induction t with
  | nil => simp [Tree.height]
  | node l x r h1 h2 => simp only [Tree.height, Tree.count]; omega

/-- With any comparator at all the search ends, visits nodes of the tree only, and what it finds is
a node whose key is equivalent. -/
theorem findLoopT_any (E : TEnv K V σ) (k : K) {m : TMem K V} {par p : Nat}
    {t : Tree (Nat × K × V)} (h : TreeAt m par t p) {f : Nat} (hf : t.height < f) :
    ∃ r s, RBTree.findLoopT E k f m p = .ok (r, s) ∧ s.visited.length ≤ t.height ∧
      s.compares.length ≤ 2 * s.visited.length ∧ s.visited.length ≤ s.compares.length ∧
      (∀ a ∈ s.visited, a ∈ nodeAddrs t) ∧
      (∀ c ∈ s.compares, ∃ x ∈ t.inorder, c = (k, x.2.1) ∨ c = (x.2.1, k)) ∧
      (∀ a, r = some a → ∃ x ∈ t.inorder, x.1 = a ∧ equiv E.lt x.2.1 k = true) := by
  induction t generalizing par p f with
  | nil =>
    obtain ⟨f, rfl⟩ : ∃ g, f = g + 1 := ⟨f - 1, by omega⟩
    have : p = 0 := h
    exact ⟨none, ⟨[], []⟩, by simp [RBTree.findLoopT, this], by simp, by simp, by simp, by simp,
      by simp, by simp⟩
  | node l x r ih1 ih2 =>
    obtain ⟨b, e⟩ := x
    obtain ⟨rfl, h0, n, hn, h1, h2, hl, hr⟩ := h
    simp only [Tree.height] at hf
    obtain ⟨f, rfl⟩ : ∃ g, f = g + 1 := ⟨f - 1, by omega⟩
    simp only [RBTree.findLoopT, h0, if_false, NMem.get_some hn, Exec.ok_bind, h1, initd,
      Tree.height]
    by_cases hk : E.lt k e.1 = true
    · obtain ⟨r', s, he, a1, a2, a3, a4, a5, a6⟩ := ih1 hl (f := f) (by omega)
      refine ⟨r', ⟨p :: s.visited, (k, e.1) :: s.compares⟩, by simp [hk, he], ?_, ?_, ?_, ?_, ?_, ?_⟩
      · simp only [List.length_cons]; omega
      · simp only [List.length_cons]; omega
      · simp only [List.length_cons]; omega
      · intro a ha
        rcases List.mem_cons.1 ha with rfl | ha
        · simp
        · simp [a4 a ha]
      · intro c hc
        rcases List.mem_cons.1 hc with rfl | hc
        · exact ⟨(p, e), by simp [Tree.inorder], .inl rfl⟩
        · obtain ⟨x, hx, hc⟩ := a5 c hc
          exact ⟨x, by simp [Tree.inorder, hx], hc⟩
      · intro a ha
        obtain ⟨x, hx, hc⟩ := a6 a ha
        exact ⟨x, by simp [Tree.inorder, hx], hc⟩
    · by_cases hk2 : E.lt e.1 k = true
      · obtain ⟨r', s, he, a1, a2, a3, a4, a5, a6⟩ := ih2 hr (f := f) (by omega)
        refine ⟨r', ⟨p :: s.visited, (k, e.1) :: (e.1, k) :: s.compares⟩, by simp [hk, hk2, he],
          ?_, ?_, ?_, ?_, ?_, ?_⟩
        · simp only [List.length_cons]; omega
        · simp only [List.length_cons]; omega
        · simp only [List.length_cons]; omega
        · intro a ha
          rcases List.mem_cons.1 ha with rfl | ha
          · simp
          · simp [a4 a ha]
        · intro c hc
          rcases List.mem_cons.1 hc with rfl | hc
          · exact ⟨(p, e), by simp [Tree.inorder], .inl rfl⟩
          · rcases List.mem_cons.1 hc with rfl | hc
            · exact ⟨(p, e), by simp [Tree.inorder], .inr rfl⟩
            · obtain ⟨x, hx, hc⟩ := a5 c hc
              exact ⟨x, by simp [Tree.inorder, hx], hc⟩
        · intro a ha
          obtain ⟨x, hx, hc⟩ := a6 a ha
          exact ⟨x, by simp [Tree.inorder, hx], hc⟩
      · refine ⟨some p, ⟨[p], [(k, e.1), (e.1, k)]⟩, by simp [hk, hk2], by simp, by simp, by simp,
          by simp, ?_, ?_⟩
        · intro c hc
          refine ⟨(p, e), by simp [Tree.inorder], ?_⟩
          simpa using hc
        · intro a ha
          cases ha
          exact ⟨(p, e), by simp [Tree.inorder], rfl, by simp [equiv, hk, hk2]⟩

theorem positionLoopT_any (E : TEnv K V σ) (k : K) {m : TMem K V} {par p prev : Nat}
    {t : Tree (Nat × K × V)} (h : TreeAt m par t p) {f : Nat} (hf : t.height < f) :
    ∃ r s, RBTree.positionLoopT E k f m p prev = .ok (r, s) ∧ s.visited.length ≤ t.height ∧
      s.compares.length = s.visited.length ∧ (∀ a ∈ s.visited, a ∈ nodeAddrs t) ∧
      (r = prev ∨ r ∈ nodeAddrs t) := by
  induction t generalizing par p f prev with
  | nil =>
    obtain ⟨f, rfl⟩ : ∃ g, f = g + 1 := ⟨f - 1, by omega⟩
    have : p = 0 := h
    exact ⟨prev, ⟨[], []⟩, by simp [RBTree.positionLoopT, this], by simp, by simp, by simp, .inl rfl⟩
  | node l x r ih1 ih2 =>
    obtain ⟨b, e⟩ := x
    obtain ⟨rfl, h0, n, hn, h1, h2, hl, hr⟩ := h
    simp only [Tree.height] at hf
    obtain ⟨f, rfl⟩ : ∃ g, f = g + 1 := ⟨f - 1, by omega⟩
    simp only [RBTree.positionLoopT, h0, if_false, NMem.get_some hn, Exec.ok_bind, h1, initd,
      Tree.height]
    by_cases hk : E.lt k e.1 = true
    · obtain ⟨r', s, he, a1, a2, a3, a4⟩ := ih1 hl (prev := p) (f := f) (by omega)
      refine ⟨r', ⟨p :: s.visited, (k, e.1) :: s.compares⟩, by simp [hk, he], ?_, ?_, ?_, ?_⟩
      · simp only [List.length_cons]; omega
      · simp only [List.length_cons]; omega
      · intro a ha
        rcases List.mem_cons.1 ha with rfl | ha
        · simp
        · simp [a3 a ha]
      · right
        rcases a4 with rfl | a4
        · simp
        · simp [a4]
    · obtain ⟨r', s, he, a1, a2, a3, a4⟩ := ih2 hr (prev := p) (f := f) (by omega)
      refine ⟨r', ⟨p :: s.visited, (k, e.1) :: s.compares⟩, by simp [hk, he], ?_, ?_, ?_, ?_⟩
      · simp only [List.length_cons]; omega
      · simp only [List.length_cons]; omega
      · intro a ha
        rcases List.mem_cons.1 ha with rfl | ha
        · simp
        · simp [a3 a ha]
      · right
        rcases a4 with rfl | a4
        · simp
        · simp [a4]

namespace Spec.Tree

variable {α : Type}

theorem BlackHeight.count {red : α → Bool} {t : Tree α} {h : Nat} (hb : t.BlackHeight red h) :
    2 ^ h ≤ t.count + 1 := by
  induction t generalizing h with
  | nil => simp [BlackHeight] at hb; simp [hb, Tree.count]
  | node l x r h1 h2 =>
    obtain ⟨b, rfl, hl, hr⟩ := hb
    have := h1 hl
    have := h2 hr
    simp only [Tree.count]
    cases red x with
    | true => simp; omega
    | false => simp only [Bool.false_eq_true, if_false, Nat.pow_succ]; omega

theorem BlackHeight.height {red : α → Bool} {t : Tree α} {h : Nat} (hb : t.BlackHeight red h)
    (hr : t.NoRedRed red) : t.height ≤ 2 * h + 1 ∧ (t.RootBlack red → t.height ≤ 2 * h) := by
  induction t generalizing h with
  | nil => simp [Tree.height]
  | node l x r h1 h2 =>
    obtain ⟨b, rfl, bl, br⟩ := hb
    obtain ⟨nl, nr, hx⟩ := hr
    obtain ⟨l1, l2⟩ := h1 bl nl
    obtain ⟨r1, r2⟩ := h2 br nr
    simp only [Tree.height, RootBlack]
    cases hc : red x with
    | true =>
      obtain ⟨c1, c2⟩ := hx hc
      have := l2 c1
      have := r2 c2
      simp; omega
    | false => simp; omega

/-- A red-black tree with `n` nodes is at most `2 log₂ (n + 1)` high. -/
theorem RedBlack.height {red : α → Bool} {t : Tree α} (h : t.RedBlack red) :
    t.height ≤ 2 * Nat.log 2 (t.count + 1) := by
  obtain ⟨b, hb⟩ := h.black
  have h1 := (hb.height h.noRedRed).2 h.root
  have h2 := (Nat.le_log_iff_pow_le (b := 2) (by omega) (by omega)).2 hb.count
  omega

end Spec.Tree

end Verif
