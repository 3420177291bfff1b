import Verif.Deque.Cost
import Verif.Deque.FrontCost
import Verif.Props.Deque

/-!
# Cost of pushing to a deque (C103)

What a push costs beyond writing one element is the number of pointers it moves inside or between
pointer arrays (`copied` of the pointer memory).  Elements are never moved (C30).
-/

set_option autoImplicit false

namespace Verif
open Spec

variable {α : Type}

/-- `j` rounds of a queue in steady state: each takes a subarray's worth of elements from the
front and adds as many at the back. -/
def rounds (S : Nat) (x : α) : Nat → List (DeqOp α)
  | 0 => []
  | j + 1 => rounds S x j ++ (List.replicate S .popFront ++ List.replicate S (.pushBack x))

theorem rounds_length (S : Nat) (x : α) : ∀ j : Nat, (rounds S x j).length = j * (2 * S)
  | 0 => by simp [rounds]
  | j + 1 => by simp [rounds, rounds_length S x j]; ring

theorem DAt.pushRep {E : DEnv α} {m0 : DMem α} {d : Deque} {m : DMem α} {size lo c : Nat} {x : α}
    {n : Nat} (h : DAt E m0 d m size lo 0 (List.replicate n x) c) (k : Nat)
    (hroom : lo * E.S + n + k < size * E.S) :
    Reaches E m0 (List.replicate k (.pushBack x)) d m size lo 0 (List.replicate (n + k) x) c := by
  have := h.pushes (List.replicate k x) (by simpa using hroom)
  simpa [List.replicate_append_replicate] using this

theorem DAt.pushFullRep {E : DEnv α} {m0 : DMem α} {d : Deque} {m : DMem α} {size lo c : Nat}
    {x : α} {n size' lo' : Nat} (h : DAt E m0 d m size lo 0 (List.replicate n x) c)
    (hfull : lo * E.S + n + 1 = size * E.S)
    (hr : reallocTo false size lo (size - lo) = (size', lo')) :
    Reaches E m0 (List.replicate 1 (.pushBack x)) d m size' lo' 0 (List.replicate (n + 1) x)
      (c + (size - lo)) := by
  have := h.pushFull x (by simpa using hfull)
  rw [hr, ← List.replicate_succ'] at this
  exact this

theorem Reaches.rep {E : DEnv α} {m0 : DMem α} {d : Deque} {m : DMem α} {op : DeqOp α}
    {a b s1 l1 b1 s2 l2 b2 : Nat} {xs ys : List α} {c1 c2 : Nat}
    (h1 : Reaches E m0 (List.replicate a op) d m s1 l1 b1 xs c1)
    (h2 : ∀ (d' : Deque) (m' : DMem α), DAt E m0 d' m' s1 l1 b1 xs c1 →
      Reaches E m0 (List.replicate b op) d' m' s2 l2 b2 ys c2) :
    Reaches E m0 (List.replicate (a + b) op) d m s2 l2 b2 ys c2 := by
  rw [← List.replicate_append_replicate]
  exact h1.trans h2

theorem reallocTo_grow (size used : Nat) :
    reallocTo false size 0 used = (size + max size 1 + 2, 0) := by simp [reallocTo]

/-- From a full pointer array to the next size. -/
theorem DAt.stage {E : DEnv α} {m0 : DMem α} {d : Deque} {m : DMem α} {size c : Nat} {x : α}
    {n : Nat} (h : DAt E m0 d m size 0 0 (List.replicate n x) c) (hn : n + 1 = size * E.S) :
    ∃ (n' k c' : Nat), Reaches E m0 (List.replicate k (.pushBack x)) d m (size + max size 1 + 2) 0 0
      (List.replicate n' x) c' ∧ n' + 1 = (size + max size 1 + 2) * E.S := by
  have hS : 0 < E.S := by
    rcases Nat.eq_zero_or_pos E.S with h0 | h0
    · rw [h0] at hn; omega
    · exact h0
  have hexp : (size + max size 1 + 2) * E.S = size * E.S + (max size 1 * E.S + 2 * E.S) := by ring
  have h1 := h.pushFullRep (by omega) (reallocTo_grow size (size - 0))
  have h2 := h1.rep (b := max size 1 * E.S + 2 * E.S - 1) fun d' m' r =>
    r.pushRep _ (by omega)
  exact ⟨_, _, _, h2, by omega⟩

/-- A deque filled from the back up to a full pointer array of at least `K` pointers. -/
theorem fill_array (E : DEnv α) (hS : 0 < E.S) (m0 : DMem α) (x : α) (K : Nat) :
    ∃ (d0 : Deque) (m1 : DMem α) (size k n c : Nat), Deque.newIn E m0 = .ok (d0, m1) ∧
      Reaches E m0 (List.replicate k (.pushBack x)) d0 m1 size 0 0 (List.replicate n x) c ∧
      n + 1 = size * E.S ∧ K ≤ size ∧ 8 ≤ size := by
  induction K with
  | zero =>
    obtain ⟨d0, m1, pb, lo, bo, bl, h1, h2, _, h4, h5, h6, h7⟩ := DRep.newIn E hS m0
    subst h5 h6
    have h : DAt E m0 d0 m1 8 3 0 (List.replicate 0 x) m1.p.copied := ⟨pb, bl, h2, h4, rfl⟩
    have a1 := h.pushRep (5 * E.S - 1) (by omega)
    have a2 := a1.rep fun d' m' r => r.pushFullRep (size' := 8) (lo' := 1) (by omega) rfl
    have a3 := a2.rep fun d' m' r => r.pushRep (2 * E.S - 1) (by omega)
    have a4 := a3.rep fun d' m' r => r.pushFullRep (size' := 8) (lo' := 0) (by omega) rfl
    have a5 := a4.rep fun d' m' r => r.pushRep (E.S - 1) (by omega)
    exact ⟨d0, m1, 8, _, _, _, h1, a5, by omega, by omega, by omega⟩
  | succ K ih =>
    obtain ⟨d0, m1, size, k, n, c, e1, ⟨o, d', m', f1, f2⟩, e3, e4, e5⟩ := ih
    obtain ⟨n', k', c', ⟨o', d'', m'', g1, g3⟩, g2⟩ := f2.stage e3
    refine ⟨d0, m1, size + max size 1 + 2, k + k', n', c', e1, ⟨o ++ o', d'', m'', ?_, g3⟩, g2,
      by omega, by omega⟩
    rw [← List.replicate_append_replicate]
    exact Deque.run_append E _ _ f1 g1

/-- One round of a queue whose pointer array is full moves all pointers but one. -/
theorem DAt.round {E : DEnv α} {m0 : DMem α} {d : Deque} {m : DMem α} {size c : Nat} {x : α}
    {n : Nat} (hS : 0 < E.S) (h2 : 2 ≤ size)
    (h : DAt E m0 d m size 0 0 (List.replicate n x) c) (hn : n + 1 = size * E.S) :
    Reaches E m0 (List.replicate E.S .popFront ++ List.replicate E.S (.pushBack x)) d m size 0 0
      (List.replicate n x) (c + (size - 1)) := by
  have hge : 2 * E.S ≤ size * E.S := Nat.mul_le_mul_right _ h2
  refine (h.popSub (by simp; omega)).trans fun d' m' r => ?_
  rw [List.drop_replicate, Nat.zero_add] at r
  have r1 := r.pushFullRep (size' := size) (lo' := 0) (by omega) rfl
  have r2 := r1.rep fun d' m' r => r.pushRep (E.S - 1) (by omega)
  rwa [show 1 + (E.S - 1) = E.S by omega, show n - E.S + 1 + (E.S - 1) = n by omega] at r2

theorem DAt.rounds {E : DEnv α} {m0 : DMem α} {d : Deque} {m : DMem α} {size c : Nat} {x : α}
    {n : Nat} (hS : 0 < E.S) (h2 : 2 ≤ size)
    (h : DAt E m0 d m size 0 0 (List.replicate n x) c) (hn : n + 1 = size * E.S) :
    ∀ j : Nat, Reaches E m0 (rounds E.S x j) d m size 0 0 (List.replicate n x)
      (c + j * (size - 1))
  | 0 => by simpa [Verif.rounds] using h.nil
  | j + 1 => by
    have := (DAt.rounds hS h2 h hn j).trans fun d' m' r => r.round hS h2 hn
    rw [Nat.add_assoc, ← Nat.succ_mul] at this
    exact this

/-! ## C103 -/

/-- C103 fails.  A deque used as a queue of constant length moves almost all its pointers each
time a subarray fills up: for every `K` there is a queue, filled by pushes at the back, of
`N * S - 1` elements with `N ≥ K`, such that every further round of `S` pops and `S` pushes moves
`N - 1` pointers, forever. -/
theorem C103_steady_queue_moves_pointers (E : DEnv α) (hS : 0 < E.S) (m0 : DMem α) (x : α)
    (K : Nat) :
    ∃ (N k c : Nat), K ≤ N ∧ ∀ j : Nat, ∃ (o : List (Out α)) (d : Deque) (m : DMem α),
      Deque.history E (List.replicate k (.pushBack x) ++ rounds E.S x j) m0 = .ok (o, d, m) ∧
      d.len E = .ok (N * E.S - 1) ∧ m.p.copied = c + j * (N - 1) := by
  obtain ⟨d0, m1, size, k, n, c, e1, ⟨o, d', m', f1, f2⟩, e3, e4, e5⟩ := fill_array E hS m0 x K
  refine ⟨size, k, c, e4, fun j => ?_⟩
  obtain ⟨o', d'', m'', g1, pb, bl, g2, g3, g4⟩ := f2.rounds hS (by omega) e3 j
  refine ⟨o ++ o', d'', m'', ?_, ?_, g4⟩
  · simp only [Deque.history, e1, Exec.ok_bind]
    exact Deque.run_append E _ _ f1 g1
  · rw [g2.length, List.length_replicate]
    congr 1; omega

/-- C103 fails.  No constant bounds the number of pointers moved per call: for every `c` some
history of pushes at the back and pops at the front, on a new deque, moves more than `c` pointers
per call. -/
theorem C103_queue_cost_unbounded (E : DEnv α) (hS : 0 < E.S) (m0 : DMem α) (x : α) (c : Nat) :
    ∃ (ops : List (DeqOp α)) (o : List (Out α)) (d : Deque) (m : DMem α),
      (∀ op ∈ ops, op = .pushBack x ∨ op = .popFront) ∧
      Deque.history E ops m0 = .ok (o, d, m) ∧
      m0.p.copied + c * ops.length < m.p.copied := by
  obtain ⟨N, k, c0, hN, h⟩ := C103_steady_queue_moves_pointers E hS m0 x (2 * E.S * c + 2)
  obtain ⟨o, d, m, h1, _, h3⟩ := h (m0.p.copied + c * k + 1)
  refine ⟨_, o, d, m, ?_, h1, ?_⟩
  · intro op hop
    have hrounds : ∀ j : Nat, op ∈ rounds E.S x j → op = .pushBack x ∨ op = .popFront := by
      intro j
      induction j with
      | zero => intro h; simp [rounds] at h
      | succ j ih =>
        intro h
        simp only [rounds, List.mem_append, List.mem_replicate] at h
        rcases h with h | h | h
        · exact ih h
        · exact Or.inr h.2
        · exact Or.inl h.2
    rcases List.mem_append.1 hop with hop | hop
    · exact Or.inl (List.mem_replicate.1 hop).2
    · exact hrounds _ hop
  · rw [List.length_append, List.length_replicate, rounds_length, h3]
    generalize hj : m0.p.copied + c * k + 1 = j at *
    have e1 : j * (2 * E.S * c + 1) ≤ j * (N - 1) := Nat.mul_le_mul_left _ (by omega)
    have e2 : j * (2 * E.S * c + 1) = c * (j * (2 * E.S)) + j := by ring
    rw [Nat.mul_add]
    omega

/-- What is known of a deque that was only pushed to at the back. -/
def BackShape (S size lo len c : Nat) : Prop :=
  (size = 8 ∧ lo = 3 ∧ c = 0) ∨ (size = 8 ∧ lo = 1 ∧ c = 5 ∧ 5 * S ≤ len) ∨
  (size = 8 ∧ lo = 0 ∧ c = 12 ∧ 7 * S ≤ len) ∨
  (18 ≤ size ∧ lo = 0 ∧ c ≤ size + 2 ∧ size * S ≤ 2 * len + 2 * S)

theorem BackShape.bound {S size lo len c : Nat} (h : BackShape S size lo len c) :
    c * S ≤ 3 * len := by
  rcases h with ⟨_, _, rfl⟩ | ⟨_, _, rfl, h⟩ | ⟨_, _, rfl, h⟩ | ⟨h1, _, h2, h3⟩
  · omega
  · omega
  · omega
  · have e1 : c * S ≤ (size + 2) * S := Nat.mul_le_mul_right _ h2
    have e2 : 18 * S ≤ size * S := Nat.mul_le_mul_right _ h1
    rw [Nat.add_mul] at e1
    omega

theorem DAt.pushes_back {E : DEnv α} {m0 : DMem α} {c0 : Nat} :
    ∀ (ys : List α) {d : Deque} {m : DMem α} {size lo c : Nat} {xs : List α},
    DAt E m0 d m size lo 0 xs (c0 + c) → BackShape E.S size lo xs.length c →
    ∃ (size' lo' c' : Nat), Reaches E m0 (ys.map .pushBack) d m size' lo' 0 (xs ++ ys) (c0 + c') ∧
      BackShape E.S size' lo' (xs ++ ys).length c'
  | [], d, m, size, lo, c, xs, h, hb => ⟨size, lo, c, by simpa using h.nil, by simpa using hb⟩
  | y :: ys, d, m, size, lo, c, xs, h, hb => by
    have hfit : lo * E.S + xs.length < size * E.S := by
      obtain ⟨pb, bl, h, hs, _⟩ := h
      have h1 := h.p.fits
      have h2 := Nat.div_add_mod xs.length E.S
      have h3 := Nat.mod_lt xs.length h.S_pos
      rw [h.len, hs, Nat.zero_add] at h1
      have h4 := Nat.mul_le_mul_right E.S h1
      rw [show (lo + (xs.length / E.S + 1)) * E.S
        = lo * E.S + (E.S * (xs.length / E.S) + E.S) by ring] at h4
      omega
    have hstep : ∃ (size' lo' c' : Nat),
        Reaches E m0 [.pushBack y] d m size' lo' 0 (xs ++ [y]) (c0 + c') ∧
        BackShape E.S size' lo' (xs ++ [y]).length c' := by
      simp only [List.length_append, List.length_singleton]
      by_cases hr : lo * E.S + xs.length + 1 < size * E.S
      · refine ⟨size, lo, c, h.push y hr, ?_⟩
        rcases hb with hb | hb | hb | hb
        · exact Or.inl hb
        · exact Or.inr (Or.inl ⟨hb.1, hb.2.1, hb.2.2.1, by omega⟩)
        · exact Or.inr (Or.inr (Or.inl ⟨hb.1, hb.2.1, hb.2.2.1, by omega⟩))
        · exact Or.inr (Or.inr (Or.inr ⟨hb.1, hb.2.1, hb.2.2.1, by omega⟩))
      · have hf := h.pushFull y (by omega)
        rcases hb with ⟨rfl, rfl, rfl⟩ | ⟨rfl, rfl, rfl, hl⟩ | ⟨rfl, rfl, rfl, hl⟩ | ⟨h1, rfl, h2, hl⟩
        · exact ⟨8, 1, 5, hf, Or.inr (Or.inl ⟨rfl, rfl, rfl, by omega⟩)⟩
        · exact ⟨8, 0, 12, hf, Or.inr (Or.inr (Or.inl ⟨rfl, rfl, rfl, by omega⟩))⟩
        · exact ⟨18, 0, 20, hf,
            Or.inr (Or.inr (Or.inr ⟨by omega, rfl, by omega, by omega⟩))⟩
        · rw [reallocTo_grow] at hf
          refine ⟨size + max size 1 + 2, 0, c + size, ?_,
            Or.inr (Or.inr (Or.inr ⟨by omega, rfl, by omega, ?_⟩))⟩
          · rw [← Nat.add_assoc]; exact hf
          · rw [show max size 1 = size by omega,
              show (size + size + 2) * E.S = 2 * (size * E.S) + 2 * E.S by ring]
            omega
    obtain ⟨s1, l1, c1, ⟨o1, d1, m1, e1, r1⟩, hb1⟩ := hstep
    obtain ⟨s2, l2, c2, ⟨o2, d2, m2, e2, r2⟩, hb2⟩ := DAt.pushes_back ys r1 hb1
    refine ⟨s2, l2, c2, ⟨o1 ++ o2, d2, m2, ?_, by simpa using r2⟩, by simpa using hb2⟩
    simpa using Deque.run_append E _ _ e1 e2

/-- C103, pushes at the back: any number of them on a new deque (as when collecting an iterator)
move at most three pointers per `S` pushes in total. -/
theorem C103_push_back_amortised_partial (E : DEnv α) (hS : 0 < E.S) (m0 : DMem α)
    (xs : List α) :
    ∃ (o : List (Out α)) (d : Deque) (m : DMem α) (c : Nat),
      Deque.history E (xs.map .pushBack) m0 = .ok (o, d, m) ∧
      m.p.copied = m0.p.copied + c ∧ c * E.S ≤ 3 * xs.length := by
  obtain ⟨d0, m1, pb, lo, bo, bl, h1, h2, _, h4, h5, h6, h7⟩ := DRep.newIn E hS m0
  subst h5 h6
  have h : DAt E m0 d0 m1 8 3 0 [] (m0.p.copied + 0) := ⟨pb, bl, h2, h4, h7⟩
  obtain ⟨s, l, c, ⟨o, d, m, e1, pb', bl', _, _, e2⟩, hb⟩ :=
    h.pushes_back xs (Or.inl ⟨rfl, rfl, rfl⟩)
  exact ⟨o, d, m, c, by simp only [Deque.history, h1, Exec.ok_bind]; exact e1, e2,
    by simpa using hb.bound⟩

/-- C103, single calls: after any history that left `n` elements, a push moves at most
`n / S + 2` pointers, and no other call moves any. -/
theorem C103_call_cost_partial (E : DEnv α) (hS : 0 < E.S) (m0 : DMem α)
    (ops : List (DeqOp α)) (op : DeqOp α) :
    ∃ (o : List (Out α)) (d : Deque) (m : DMem α) (o' : Out α) (d' : Deque) (m' : DMem α),
      Deque.history E ops m0 = .ok (o, d, m) ∧ d.step E op m = .ok (o', d', m') ∧
      m'.p.copied ≤ m.p.copied +
        if op.isPush then (DeqOp.run ops []).2.length / E.S + 2 else 0 := by
  obtain ⟨d, m, _, h1, h2, _⟩ := history_inv E hS ops m0
  obtain ⟨d', m', h3, _⟩ := h2.step op
  refine ⟨_, d, m, _, d', m', h1, h3, ?_⟩
  obtain ⟨pb, lo, bo, bl, h2⟩ := h2
  have h4 := h2.moves op h3
  have h5 : bl.length ≤ (DeqOp.run ops []).2.length / E.S + 2 := by
    have := Nat.div_le_div_right (c := E.S) (show bo + (DeqOp.run ops []).2.length
      ≤ (DeqOp.run ops []).2.length + E.S by have := h2.b_lt; omega)
    rw [Nat.add_div_right _ hS] at this
    rw [h2.len]; omega
  split_ifs at h4 ⊢ <;> omega

/-- Pushing at the front only: both bounds. -/
theorem push_front_cost (E : DEnv α) (hS : 0 < E.S) (m0 : DMem α) (xs : List α) :
    ∃ (o : List (Out α)) (d : Deque) (m : DMem α) (c : Nat),
      Deque.history E (xs.map .pushFront) m0 = .ok (o, d, m) ∧
      m.p.copied = m0.p.copied + c ∧
      c ≤ 8 * ((xs.length / E.S + 2) * (Nat.clog 2 (xs.length / E.S + 2) + 3)) ∧
      (xs.length / E.S - 8) / 4 * Nat.clog 2 ((xs.length / E.S - 8) / 2) ≤ c := by
  obtain ⟨d0, m1, pb, lo, bo, bl, h1, h2, _, h4, h5, h6, h7⟩ := DRep.newIn E hS m0
  subst h5 h6
  have h : DAt E m0 d0 m1 8 3 0 [] (m0.p.copied + 0) := ⟨pb, bl, h2, h4, h7⟩
  obtain ⟨s, l, b, c, ⟨o, d, m, e1, pb', bl', _, _, e2⟩, _, hlt, hb⟩ :=
    h.pushes_front xs (by simp) (by simpa using FrontShape.new)
  simp only [List.append_nil, List.length_reverse] at hb
  refine ⟨o, d, m, c, by simp only [Deque.history, h1, Exec.ok_bind]; exact e1, e2,
    hb.bounds ?_ (Nat.le_add_left 2 _), hb.atLeast ?_⟩
  · have := Nat.div_le_div_right (c := E.S) (show b + xs.length ≤ xs.length + E.S by omega)
    rw [Nat.add_div_right _ hS] at this
    omega
  · have := Nat.div_le_div_right (c := E.S) (show xs.length ≤ b + xs.length by omega)
    omega

/-- C103, pushes at the front: `n` of them on a new deque move at most `8 w (log2 w + 3)` pointers
in total (logarithm rounded up), where `w` is `n / S + 2`.  So the average is at most logarithmic. -/
theorem C103_push_front_logarithmic_partial (E : DEnv α) (hS : 0 < E.S) (m0 : DMem α)
    (xs : List α) :
    ∃ (o : List (Out α)) (d : Deque) (m : DMem α) (c : Nat),
      Deque.history E (xs.map .pushFront) m0 = .ok (o, d, m) ∧
      m.p.copied = m0.p.copied + c ∧
      c ≤ 8 * ((xs.length / E.S + 2) * (Nat.clog 2 (xs.length / E.S + 2) + 3)) := by
  obtain ⟨o, d, m, c, h1, h2, h3, _⟩ := push_front_cost E hS m0 xs
  exact ⟨o, d, m, c, h1, h2, h3⟩

/-- C103 fails for pushes at the front alone, too: the average is not constant.  For every `K`
some number `n` of pushes at the front of a new deque moves more than `K` pointers per `S`
pushes. -/
theorem C103_push_front_cost_unbounded (E : DEnv α) (hS : 0 < E.S) (m0 : DMem α) (x : α)
    (K : Nat) :
    ∃ (n : Nat) (o : List (Out α)) (d : Deque) (m : DMem α) (c : Nat),
      Deque.history E (List.replicate n (.pushFront x)) m0 = .ok (o, d, m) ∧
      m.p.copied = m0.p.copied + c ∧ K * n < c * E.S := by
  obtain ⟨o, d, m, c, h1, h2, _, h4⟩ :=
    push_front_cost E hS m0 (List.replicate ((8 + 4 * 2 ^ (12 * K)) * E.S) x)
  refine ⟨_, o, d, m, c, by simpa using h1, h2, ?_⟩
  rw [List.length_replicate, Nat.mul_div_cancel _ hS,
    show (8 + 4 * 2 ^ (12 * K) - 8) / 4 = 2 ^ (12 * K) by omega,
    show (8 + 4 * 2 ^ (12 * K) - 8) / 2 = 2 ^ (12 * K + 1) by rw [Nat.pow_succ]; omega,
    Nat.clog_pow 2 _ (by omega)] at h4
  have hp : 1 ≤ 2 ^ (12 * K) := Nat.one_le_two_pow
  rw [← Nat.mul_assoc]
  refine Nat.mul_lt_mul_of_pos_right ?_ hS
  refine Nat.lt_of_lt_of_le ?_ h4
  generalize 2 ^ (12 * K) = P at *
  have e1 : P * (12 * K + 1) = 12 * (K * P) + P := by ring
  have e2 : K * (8 + 4 * P) = 8 * K + 4 * (K * P) := by ring
  have e3 : K * 1 ≤ K * P := Nat.mul_le_mul_left _ hp
  omega

/-- With subarrays of two elements, 14 pushes at the front move 4 + 6 + 7 pointers, the 15th
moves the 8 pointers to a larger array. -/
example : ([0, 6, 7, 11, 13, 15, 16, 17].map fun n =>
    match Deque.history (α := Nat) ⟨2, false, RawAlloc.bump, RawAlloc.bump⟩
      (List.replicate n (.pushFront 1)) ⟨Mem.empty, Mem.empty⟩ with
    | .ok (_, _, m) => m.p.copied
    | .error _ => 0) = [0, 0, 4, 10, 17, 25, 25, 34] := by
  decide +kernel

/-- A deque of subarrays of two elements: 15 pushes move 12 pointers (7 of them last), and each
round of two pops and two pushes then moves 7 more. -/
example : ((List.range 4).map fun j =>
    match Deque.history (α := Nat) ⟨2, false, RawAlloc.bump, RawAlloc.bump⟩
      (List.replicate 15 (.pushBack 1) ++ rounds 2 1 j) ⟨Mem.empty, Mem.empty⟩ with
    | .ok (_, _, m) => m.p.copied
    | .error _ => 0) = [12, 19, 26, 33] := by
  decide +kernel

end Verif
