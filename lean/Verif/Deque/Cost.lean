import Verif.Deque.Inv
import Verif.Deque.Stale
import Mathlib.Tactic.Ring

/-! How many pointers the calls on a deque move in its pointer array. -/

set_option autoImplicit false

namespace Verif
open Spec

variable {α : Type}

theorem Deque.run_append (E : DEnv α) : ∀ (a b : List (DeqOp α)) {d d1 d2 : Deque}
    {m m1 m2 : DMem α} {o1 o2 : List (Out α)}, Deque.run E a d m = .ok (o1, d1, m1) →
    Deque.run E b d1 m1 = .ok (o2, d2, m2) →
    Deque.run E (a ++ b) d m = .ok (o1 ++ o2, d2, m2)
  | [], b, d, d1, d2, m, m1, m2, o1, o2, h1, h2 => by
    simp only [Deque.run, Except.ok.injEq, Prod.mk.injEq] at h1
    obtain ⟨rfl, rfl, rfl⟩ := h1
    simpa using h2
  | op :: a, b, d, d1, d2, m, m1, m2, o1, o2, h1, h2 => by
    simp only [Deque.run] at h1
    obtain ⟨⟨o, d3, m3⟩, e1, h1⟩ := Exec.of_bind_ok h1
    obtain ⟨⟨os, d4, m4⟩, e2, h1⟩ := Exec.of_bind_ok h1
    simp only [Except.ok.injEq, Prod.mk.injEq] at h1
    obtain ⟨rfl, rfl, rfl⟩ := h1
    have := Deque.run_append E a b e2 h2
    simp only [List.cons_append, Deque.run, e1, Exec.ok_bind, this]

/-- Deque `d` holds `xs` in a pointer array of `size` whose first used slot is `lo`, the first
element being at offset `bo` of its subarray; `c` pointers have been moved so far. -/
def DAt (E : DEnv α) (m0 : DMem α) (d : Deque) (m : DMem α) (size lo bo : Nat) (xs : List α)
    (c : Nat) : Prop :=
  ∃ (pb : Nat) (bl : List Nat), DRep E m0.t.live m0.p.live m d pb lo bo bl xs ∧
    d.size = size ∧ m.p.copied = c

/-- `ops` lead from one state to another. -/
def Reaches (E : DEnv α) (m0 : DMem α) (ops : List (DeqOp α)) (d : Deque) (m : DMem α)
    (size lo bo : Nat) (xs : List α) (c : Nat) : Prop :=
  ∃ (o : List (Out α)) (d' : Deque) (m' : DMem α), Deque.run E ops d m = .ok (o, d', m') ∧
    DAt E m0 d' m' size lo bo xs c

theorem Reaches.trans {E : DEnv α} {m0 : DMem α} {a b : List (DeqOp α)} {d : Deque} {m : DMem α}
    {s1 l1 b1 s2 l2 b2 : Nat} {xs ys : List α} {c1 c2 : Nat}
    (h1 : Reaches E m0 a d m s1 l1 b1 xs c1)
    (h2 : ∀ (d' : Deque) (m' : DMem α), DAt E m0 d' m' s1 l1 b1 xs c1 →
      Reaches E m0 b d' m' s2 l2 b2 ys c2) :
    Reaches E m0 (a ++ b) d m s2 l2 b2 ys c2 := by
  obtain ⟨o1, d1, m1, e1, r1⟩ := h1
  obtain ⟨o2, d2, m2, e2, r2⟩ := h2 d1 m1 r1
  exact ⟨o1 ++ o2, d2, m2, Deque.run_append E a b e1 e2, r2⟩

theorem DAt.nil {E : DEnv α} {m0 : DMem α} {d : Deque} {m : DMem α} {size lo bo : Nat}
    {xs : List α} {c : Nat} (h : DAt E m0 d m size lo bo xs c) :
    Reaches E m0 [] d m size lo bo xs c := ⟨[], d, m, rfl, h⟩

/-- A push with room at the back. -/
theorem DAt.push {E : DEnv α} {m0 : DMem α} {d : Deque} {m : DMem α} {size lo : Nat}
    {xs : List α} {c : Nat} (h : DAt E m0 d m size lo 0 xs c) (x : α)
    (hroom : lo * E.S + xs.length + 1 < size * E.S) :
    Reaches E m0 [.pushBack x] d m size lo 0 (xs ++ [x]) c := by
  obtain ⟨pb, bl, h, hs, hc⟩ := h
  obtain ⟨d', m', pb', lo', bl', h1, h2, _, _, h4⟩ := h.pushBack x
  rw [if_neg] at h4
  · obtain ⟨e1, e2, e3⟩ := h4
    subst e2
    exact ⟨[.unit], d', m', by simp [Deque.run, Deque.step, h1], pb', bl', h2, by rw [e1, hs],
      by rw [e3, hc]⟩
  · rintro ⟨e1, e2⟩
    rw [h.len, hs, Nat.zero_add] at e2
    rw [Nat.zero_add] at e1
    have h3 := Nat.div_add_mod xs.length E.S
    rw [← e2, show (lo + (xs.length / E.S + 1)) * E.S
      = lo * E.S + (E.S * (xs.length / E.S) + E.S) by ring] at hroom
    omega

theorem DAt.pushes {E : DEnv α} {m0 : DMem α} {size lo c : Nat} :
    ∀ (ys : List α) {d : Deque} {m : DMem α} {xs : List α}, DAt E m0 d m size lo 0 xs c →
    lo * E.S + xs.length + ys.length < size * E.S →
    Reaches E m0 (ys.map .pushBack) d m size lo 0 (xs ++ ys) c
  | [], d, m, xs, h, _ => by simpa using h.nil
  | y :: ys, d, m, xs, h, hroom => by
    simp only [List.length_cons] at hroom
    have h1 := h.push y (by omega)
    have h2 := h1.trans (b := ys.map .pushBack) fun d' m' r =>
      DAt.pushes ys r (by simp; omega)
    simpa using h2

/-- A push that finds the pointer array full at the back. -/
theorem DAt.pushFull {E : DEnv α} {m0 : DMem α} {d : Deque} {m : DMem α} {size lo : Nat}
    {xs : List α} {c : Nat} (h : DAt E m0 d m size lo 0 xs c) (x : α)
    (hfull : lo * E.S + xs.length + 1 = size * E.S) :
    Reaches E m0 [.pushBack x] d m (reallocTo false size lo (size - lo)).1
      (reallocTo false size lo (size - lo)).2 0 (xs ++ [x]) (c + (size - lo)) := by
  obtain ⟨pb, bl, h, hs, hc⟩ := h
  have hS := h.S_pos
  have hls : lo ≤ size := by
    by_contra hcon
    have := Nat.mul_le_mul_right E.S (show size ≤ lo by omega)
    omega
  have hlen : xs.length + 1 = (size - lo) * E.S := by
    rw [Nat.sub_mul]; omega
  have hpos : 0 < size - lo := by
    rcases Nat.eq_zero_or_pos (size - lo) with h0 | h0
    · rw [h0] at hlen; omega
    · exact h0
  obtain ⟨k, hk⟩ : ∃ k, size - lo = k + 1 := ⟨size - lo - 1, by omega⟩
  have hxl : xs.length = E.S * k + (E.S - 1) := by
    rw [hk, Nat.add_mul, Nat.one_mul, Nat.mul_comm] at hlen; omega
  have hdm : xs.length / E.S = k ∧ xs.length % E.S = E.S - 1 :=
    (Nat.div_mod_unique hS).2 ⟨by omega, by omega⟩
  have hbl : bl.length = size - lo := by
    rw [h.len, Nat.zero_add, hdm.1, hk]
  obtain ⟨d', m', pb', lo', bl', h1, h2, _, _, h4⟩ := h.pushBack x
  rw [if_pos ⟨by rw [Nat.zero_add, hdm.2]; omega, by rw [hbl, hs]; omega⟩] at h4
  obtain ⟨e1, e2⟩ := h4
  rw [hs, hbl] at e1
  refine ⟨[.unit], d', m', by simp [Deque.run, Deque.step, h1], pb', bl', ?_, ?_, ?_⟩
  · rw [← e1]; exact h2
  · rw [← e1]
  · rw [e2, hc, hbl]

/-- Popping less than a subarray. -/
theorem DAt.pops {E : DEnv α} {m0 : DMem α} {size lo c : Nat} :
    ∀ (n : Nat) {bo : Nat} {d : Deque} {m : DMem α} {xs : List α}, DAt E m0 d m size lo bo xs c →
    bo + n < E.S → n ≤ xs.length →
    Reaches E m0 (List.replicate n .popFront) d m size lo (bo + n) (xs.drop n) c
  | 0, bo, d, m, xs, h, _, _ => by simpa using h.nil
  | n + 1, bo, d, m, xs, h, h1, h2 => by
    have hne : xs ≠ [] := by intro e; rw [e] at h2; simp at h2
    obtain ⟨pb, bl, h, hs, hc⟩ := h
    obtain ⟨d', m', lo', bo', bl', p1, p2, _, _, p4⟩ := h.popFront
    obtain ⟨q1, q2, q3⟩ := p4 hne
    rw [if_pos (by omega)] at q3
    obtain ⟨rfl, rfl⟩ := q3
    have hr : Reaches E m0 [.popFront] d m size lo' (bo + 1) xs.tail c :=
      ⟨[.elem xs.head?], d', m', by simp [Deque.run, Deque.step, p1], pb, bl', p2,
        by rw [q1, hs], by rw [q2, hc]⟩
    have := hr.trans (b := List.replicate n .popFront) fun d' m' r =>
      DAt.pops n r (by omega) (by rw [List.length_tail]; omega)
    rw [show bo + 1 + n = bo + (n + 1) by omega, List.drop_tail] at this
    simpa [List.replicate_succ] using this

/-- Popping a whole subarray. -/
theorem DAt.popSub {E : DEnv α} {m0 : DMem α} {size lo c : Nat} {d : Deque} {m : DMem α}
    {xs : List α} (h : DAt E m0 d m size lo 0 xs c) (hl : E.S ≤ xs.length) :
    Reaches E m0 (List.replicate E.S .popFront) d m size (lo + 1) 0 (xs.drop E.S) c := by
  have hS : 0 < E.S := by obtain ⟨pb, bl, h, _⟩ := h; exact h.S_pos
  obtain ⟨k, hk⟩ : ∃ k, E.S = k + 1 := ⟨E.S - 1, by omega⟩
  have h1 := h.pops k (by omega) (by omega)
  have h2 := h1.trans (b := [.popFront]) (s2 := size) (l2 := lo + 1) (b2 := 0)
      (ys := xs.drop E.S) (c2 := c) fun d' m' r => by
    obtain ⟨pb, bl, r, hs, hc⟩ := r
    have hne : xs.drop k ≠ [] := by
      intro e
      have := congrArg List.length e
      simp at this; omega
    obtain ⟨d', m', lo', bo', bl', p1, p2, _, _, p4⟩ := r.popFront
    obtain ⟨q1, q2, q3⟩ := p4 hne
    rw [if_neg (by omega)] at q3
    obtain ⟨rfl, rfl⟩ := q3
    refine ⟨[.elem (xs.drop k).head?], d', m', by simp [Deque.run, Deque.step, p1], pb, bl', ?_,
        by rw [q1, hs], by rw [q2, hc]⟩
    rw [List.tail_drop, ← hk] at p2
    exact p2
  rw [show List.replicate E.S (DeqOp.popFront : DeqOp α)
    = List.replicate k .popFront ++ [.popFront] by rw [hk, List.replicate_succ']]
  exact h2

theorem Deque.popBack_ptrs {E : DEnv α} {d d' : Deque} {m m' : DMem α} {o : Option α}
    (h : d.popBack E m = .ok (o, d', m')) : m'.p = m.p := by
  unfold Deque.popBack at h
  split at h
  · simp only [Except.ok.injEq, Prod.mk.injEq] at h
    rw [← h.2.2]
  · split at h
    · obtain ⟨c, _, h⟩ := Exec.of_bind_ok h
      obtain ⟨y, _, h⟩ := Exec.of_bind_ok h
      simp only [Except.ok.injEq, Prod.mk.injEq] at h
      rw [← h.2.2]
    · obtain ⟨m1, h1, h⟩ := Exec.of_bind_ok h
      obtain ⟨_, _, h⟩ := Exec.of_bind_ok h
      obtain ⟨_, _, h⟩ := Exec.of_bind_ok h
      obtain ⟨_, _, h⟩ := Exec.of_bind_ok h
      obtain ⟨_, _, h⟩ := Exec.of_bind_ok h
      obtain ⟨t, _, h1⟩ := Exec.of_bind_ok h1
      simp only [Except.ok.injEq, Prod.mk.injEq] at h h1
      rw [← h.2.2, ← h1]

theorem Deque.popFront_ptrs {E : DEnv α} {d d' : Deque} {m m' : DMem α} {o : Option α}
    (h : d.popFront E m = .ok (o, d', m')) : m'.p = m.p := by
  unfold Deque.popFront at h
  split at h
  · simp only [Except.ok.injEq, Prod.mk.injEq] at h
    rw [← h.2.2]
  · obtain ⟨l, _, h⟩ := Exec.of_bind_ok h
    split at h
    · obtain ⟨c, _, h⟩ := Exec.of_bind_ok h
      obtain ⟨y, _, h⟩ := Exec.of_bind_ok h
      simp only [Except.ok.injEq, Prod.mk.injEq] at h
      rw [← h.2.2]
    · obtain ⟨_, _, h⟩ := Exec.of_bind_ok h
      obtain ⟨m1, h1, h⟩ := Exec.of_bind_ok h
      obtain ⟨_, _, h⟩ := Exec.of_bind_ok h
      obtain ⟨_, _, h⟩ := Exec.of_bind_ok h
      obtain ⟨t, _, h1⟩ := Exec.of_bind_ok h1
      simp only [Except.ok.injEq, Prod.mk.injEq] at h h1
      rw [← h.2.2, ← h1]

theorem rotateWith_ptrs {σ τ : Type} {cn : DMem α → σ → Exec (Option Ptr × σ)}
    {nn : DMem α → τ → Exec (Option Ptr × τ)} :
    ∀ {fuel : Nat} {c : σ} {n : τ} {m m' : DMem α}, rotateWith cn nn fuel c n m = .ok m' →
      m'.p = m.p
  | 0, _, _, _, _, h => by cases h
  | fuel + 1, c, n, m, m', h => by
    unfold rotateWith at h
    obtain ⟨⟨cp, c'⟩, _, h⟩ := Exec.of_bind_ok h
    obtain ⟨⟨np, n'⟩, _, h⟩ := Exec.of_bind_ok h
    cases cp with
    | none => simp only [Except.ok.injEq] at h; rw [h]
    | some cp =>
      cases np with
      | none => simp only [Except.ok.injEq] at h; rw [h]
      | some np =>
        obtain ⟨t, _, h⟩ := Exec.of_bind_ok h
        exact (rotateWith_ptrs h).trans rfl

theorem assignOpt_ptrs {E : DEnv α} {m m' : DMem α} {x : α} {p : Option Ptr} {b : Bool}
    (h : assignOpt E m x p = .ok (b, m')) : m'.p = m.p := by
  cases p with
  | none =>
    simp only [assignOpt, Except.ok.injEq, Prod.mk.injEq] at h
    rw [h.2]
  | some p =>
    obtain ⟨_, _, h⟩ := Exec.of_bind_ok h
    obtain ⟨_, _, h⟩ := Exec.of_bind_ok h
    simp only [Except.ok.injEq, Prod.mk.injEq] at h
    rw [← h.2]

/-- Only pushes move pointers, and at most as many as there are subarrays. -/
theorem DRep.moves {E : DEnv α} {wt : World α} {wp : World Ptr} {m : DMem α} {d : Deque}
    {pb lo bo : Nat} {bl : List Nat} {xs : List α} (h : DRep E wt wp m d pb lo bo bl xs)
    (op : DeqOp α) {o : Out α} {d' : Deque} {m' : DMem α} (hs : d.step E op m = .ok (o, d', m')) :
    m'.p.copied ≤ m.p.copied + if op.isPush then bl.length else 0 := by
  cases op with
  | pushBack x =>
    obtain ⟨d1, m1, pb', lo', bl', h1, _, _, _, h4⟩ := h.pushBack x
    simp only [Deque.step, h1, Exec.ok_bind, Except.ok.injEq, Prod.mk.injEq] at hs
    rw [← hs.2.2]
    simp only [DeqOp.isPush, if_true]
    split at h4 <;> omega
  | pushFront x =>
    obtain ⟨d1, m1, pb', lo', bo', bl', h1, _, _, _, h4⟩ := h.pushFront x
    simp only [Deque.step, h1, Exec.ok_bind, Except.ok.injEq, Prod.mk.injEq] at hs
    rw [← hs.2.2]
    simp only [DeqOp.isPush, if_true]
    split_ifs at h4 <;> omega
  | popBack =>
    obtain ⟨⟨o1, d1, m1⟩, h1, hs⟩ := Exec.of_bind_ok hs
    simp only [Except.ok.injEq, Prod.mk.injEq] at hs
    rw [← hs.2.2, Deque.popBack_ptrs h1]
    exact Nat.le_add_right _ _
  | popFront =>
    obtain ⟨⟨o1, d1, m1⟩, h1, hs⟩ := Exec.of_bind_ok hs
    simp only [Except.ok.injEq, Prod.mk.injEq] at hs
    rw [← hs.2.2, Deque.popFront_ptrs h1]
    exact Nat.le_add_right _ _
  | front =>
    obtain ⟨_, _, hs⟩ := Exec.of_bind_ok hs
    simp only [Except.ok.injEq, Prod.mk.injEq] at hs
    rw [← hs.2.2]
    exact Nat.le_add_right _ _
  | back =>
    obtain ⟨_, _, hs⟩ := Exec.of_bind_ok hs
    simp only [Except.ok.injEq, Prod.mk.injEq] at hs
    rw [← hs.2.2]
    exact Nat.le_add_right _ _
  | setFront x =>
    obtain ⟨⟨o1, m1⟩, h1, hs⟩ := Exec.of_bind_ok hs
    obtain ⟨_, _, h1⟩ := Exec.of_bind_ok h1
    obtain ⟨⟨p, it⟩, _, h1⟩ := Exec.of_bind_ok h1
    simp only [Except.ok.injEq, Prod.mk.injEq] at hs
    rw [← hs.2.2, assignOpt_ptrs h1]
    exact Nat.le_add_right _ _
  | setBack x =>
    obtain ⟨⟨o1, m1⟩, h1, hs⟩ := Exec.of_bind_ok hs
    obtain ⟨_, _, h1⟩ := Exec.of_bind_ok h1
    obtain ⟨⟨p, it⟩, _, h1⟩ := Exec.of_bind_ok h1
    simp only [Except.ok.injEq, Prod.mk.injEq] at hs
    rw [← hs.2.2, assignOpt_ptrs h1]
    exact Nat.le_add_right _ _
  | remove i =>
    obtain ⟨⟨o1, d1, m1⟩, h1, hs⟩ := Exec.of_bind_ok hs
    simp only [Except.ok.injEq, Prod.mk.injEq] at hs
    rw [← hs.2.2]
    unfold Deque.remove at h1
    obtain ⟨len, _, h1⟩ := Exec.of_bind_ok h1
    split at h1
    · simp only [Except.ok.injEq, Prod.mk.injEq] at h1
      rw [← h1.2.2]
      exact Nat.le_add_right _ _
    · split at h1
      · obtain ⟨_, _, h1⟩ := Exec.of_bind_ok h1
        obtain ⟨m2, h2, h1⟩ := Exec.of_bind_ok h1
        rw [Deque.popFront_ptrs h1, rotateWith_ptrs h2]
        exact Nat.le_add_right _ _
      · obtain ⟨_, _, h1⟩ := Exec.of_bind_ok h1
        obtain ⟨m2, h2, h1⟩ := Exec.of_bind_ok h1
        rw [Deque.popBack_ptrs h1, rotateWith_ptrs h2]
        exact Nat.le_add_right _ _
  | len =>
    obtain ⟨_, _, hs⟩ := Exec.of_bind_ok hs
    simp only [Except.ok.injEq, Prod.mk.injEq] at hs
    rw [← hs.2.2]
    exact Nat.le_add_right _ _
  | isEmpty =>
    simp only [Deque.step, Except.ok.injEq, Prod.mk.injEq] at hs
    rw [← hs.2.2]
    exact Nat.le_add_right _ _

end Verif
