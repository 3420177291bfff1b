import Verif.Vector.CallCost
import Verif.Deque.RemoveCost
import Verif.Props.Vector
import Verif.Props.Deque
import Verif.Props.Text
import Mathlib.Tactic.Ring

/-! What single calls cost (C143), and what growing costs (C144). -/

set_option autoImplicit false

namespace Verif
open Spec

variable {α : Type}

/-! ## C143 -/

/-- C143.  On every reachable vector each call moves exactly the elements `SeqOp.moves` says: an
insertion those behind the place and a removal those behind the element, and all of them only if
there was no room or `reserve` asked for some. -/
theorem C143_vector_moves (R : RawAlloc α) (nd : Bool) (m0 : Mem α) (ops : List (SeqOp α))
    (op : SeqOp α) (hops : nd = true → ∀ o ∈ op :: ops, o.isSlice = false)
    {outs : List (Out α)} {v : Vec} {m : Mem α}
    (hrun : Vec.run (defaultAllocator R) nd ops Vec.new m0 = .ok (outs, v, m)) :
    ∃ len cap, v.len = .ok len ∧ v.capacity = .ok cap ∧
      ∀ o v' m', v.step (defaultAllocator R) nd op m = .ok (o, v', m') →
        m'.copied = m.copied + op.moves len cap ∧ m'.allocs = m.allocs + op.asks len cap := by
  obtain ⟨xs, ds, cap, _, hi, _, _⟩ := reachable_inv R nd m0 ops
    (fun hn o ho => hops hn o (by simp [ho])) hrun
  exact ⟨xs.length, cap, hi.len, hi.capacity, fun o v' m' hs =>
    hi.step_moves (defaultAllocator_lawful R) nd op (fun hn => hops hn op (by simp)) hs⟩

/-- C143, deques, as far as it holds: removing the element at `i` swaps as many pairs of elements as
there are elements between it and the nearer end.  Missing: the steps made to get there, which are
`2 n + 1` whatever `i` is. -/
theorem C143_deque_remove_partial (E : DEnv α) (hS : 0 < E.S) (ops : List (DeqOp α)) (m0 : DMem α)
    {outs : List (Out α)} {d : Deque} {m : DMem α}
    (h : Deque.history E ops m0 = .ok (outs, d, m)) {i n : Nat} (hn : d.len E = .ok n)
    (hi : i < n) :
    ∃ r swaps steps, d.remove E i m = .ok r ∧ d.removeT E i m = .ok (r, swaps, steps) ∧
      swaps = min i (n - 1 - i) ∧ steps = 2 * n + 1 := by
  obtain ⟨d', m', drops, h1, ⟨pb, lo, bo, bl, h2⟩, _⟩ := history_inv E hS ops m0
  rw [h1] at h
  simp only [Except.ok.injEq, Prod.mk.injEq] at h
  obtain ⟨_, rfl, rfl⟩ := h
  have hl := h2.length
  rw [hn] at hl
  cases hl
  obtain ⟨r, e⟩ := h2.removeT hi
  refine ⟨r, _, _, ?_, e, rfl, rfl⟩
  rw [← Deque.removeT_fst, e]
  rfl

/-- C143 fails for deques: whatever the factor `c`, there is a deque of which removing the first
element, with nothing in front of it, takes more than `c` steps. -/
theorem C143_deque_remove_walks (E : DEnv α) (hS : 0 < E.S) (m0 : DMem α) (x : α) (c : Nat) :
    ∃ outs d m r steps, Deque.history E (List.replicate (c + 1) (.pushBack x)) m0 =
        .ok (outs, d, m) ∧ d.removeT E 0 m = .ok (r, 0, steps) ∧ c < steps := by
  obtain ⟨d, m, drops, h1, ⟨pb, lo, bo, bl, h2⟩, _⟩ :=
    history_inv E hS (List.replicate (c + 1) (.pushBack x)) m0
  have hr : ∀ (k : Nat) (xs : List α),
      (DeqOp.run (List.replicate k (.pushBack x)) xs).2 = xs ++ List.replicate k x := by
    intro k
    induction k with
    | zero => intro xs; simp [DeqOp.run]
    | succ k ih =>
      intro xs
      simp only [List.replicate_succ, DeqOp.run, DeqOp.step, ih]
      simp
  rw [hr, List.nil_append] at h2
  obtain ⟨r, e⟩ := h2.removeT (i := 0) (by simp)
  rw [Nat.zero_min] at e
  exact ⟨_, d, m, r, _, h1, e, by simp; omega⟩

/-! ## C144 -/

theorem Vec.run_append {A : Allocator α} {nd : Bool} {os' : List (Out α)} {v' v'' : Vec}
    {m' m'' : Mem α} {qs : List (SeqOp α)} (h2 : Vec.run A nd qs v' m' = .ok (os', v'', m'')) :
    ∀ {ps : List (SeqOp α)} {os : List (Out α)} {v : Vec} {m : Mem α},
      Vec.run A nd ps v m = .ok (os, v', m') →
      Vec.run A nd (ps ++ qs) v m = .ok (os ++ os', v'', m'') := by
  intro ps
  induction ps with
  | nil => intro os v m h; cases h; exact h2
  | cons p ps ih =>
    intro os v m h
    simp only [Vec.run] at h
    cases hs : v.step A nd p m with
    | error e => rw [hs] at h; simp at h
    | ok r =>
      obtain ⟨o, v1, m1⟩ := r
      rw [hs, Exec.ok_bind] at h
      cases hr : Vec.run A nd ps v1 m1 with
      | error e => rw [hr] at h; simp at h
      | ok r =>
        obtain ⟨o2, v2, m2⟩ := r
        rw [hr, Exec.ok_bind] at h
        cases h
        simp [Vec.run, hs, ih hr]

/-- Calls the sequence takes one after the other, on a vector whose capacity is always its length. -/
theorem tight_run (R : RawAlloc α) (m0 : Mem α) (round : α → List (SeqOp α))
    (hround : ∀ (x : α) (m : Mem α) (v : Vec) (xs : List α),
      VInv (fun _ => False) defaultFits m0.live m v xs xs.length →
      ∃ outs v' m', Vec.run (defaultAllocator R) false (round x) v m = .ok (outs, v', m') ∧
        VInv (fun _ => False) defaultFits m0.live m' v' (xs ++ [x]) (xs ++ [x]).length ∧
        m'.copied = m.copied + xs.length ∧ m'.allocs = m.allocs + 1) :
    ∀ (ys : List α) (m : Mem α) (v : Vec) (xs : List α),
      VInv (fun _ => False) defaultFits m0.live m v xs xs.length →
      ∃ outs v' m', Vec.run (defaultAllocator R) false (ys.flatMap round) v m =
          .ok (outs, v', m') ∧ v'.asSlice m' = .ok (xs ++ ys) ∧
        2 * m'.copied + xs.length * (xs.length - 1) =
          2 * m.copied + (xs ++ ys).length * ((xs ++ ys).length - 1) ∧
        m'.allocs = m.allocs + ys.length := by
  intro ys
  induction ys with
  | nil => intro m v xs h; exact ⟨[], v, m, rfl, by simpa using h.slice, by simp, rfl⟩
  | cons y ys ih =>
    intro m v xs h
    obtain ⟨o1, v1, m1, e1, h1, c1, a1⟩ := hround y m v xs h
    obtain ⟨o2, v2, m2, e2, h2, c2, a2⟩ := ih m1 v1 (xs ++ [y]) h1
    refine ⟨o1 ++ o2, v2, m2, ?_, by simpa using h2, ?_, by simp; omega⟩
    · rw [List.flatMap_cons]
      exact Vec.run_append e2 e1
    · have hl : (xs ++ [y] ++ ys).length = (xs ++ y :: ys).length := by simp
      rw [hl] at c2
      have hk : (xs ++ [y]).length = xs.length + 1 := by simp
      rw [hk, Nat.add_sub_cancel] at c2
      have hq : (xs.length + 1) * xs.length = xs.length * (xs.length - 1) + 2 * xs.length := by
        cases xs.length with
        | zero => rfl
        | succ k => simp only [Nat.add_sub_cancel]; ring
      omega

/-- C144 fails for slices: `n` elements appended to a new vector one at a time are moved
`n (n - 1) / 2` times, and each append asks for a new block. -/
theorem C144_append_quadratic (R : RawAlloc α) (m0 : Mem α) (ys : List α) :
    ∃ outs v m, Vec.run (defaultAllocator R) false (ys.map fun y => .append [y]) Vec.new m0 =
        .ok (outs, v, m) ∧ v.asSlice m = .ok ys ∧
      2 * m.copied = 2 * m0.copied + ys.length * (ys.length - 1) ∧
      m.allocs = m0.allocs + ys.length := by
  have h := tight_run R m0 (fun y => [.append [y]]) (fun x m v xs h => by
    obtain ⟨v1, m1, e1, h1, c1, a1⟩ := h.step_full (defaultAllocator_lawful R) false
      (.append [x]) (by simp) (o := .unit) (ys := xs ++ [x]) rfl
    refine ⟨[.unit], v1, m1, by simp [Vec.run, e1], ?_, ?_, ?_⟩
    · simpa [SeqOp.capAfter] using h1
    · simpa [SeqOp.moves] using c1
    · simpa [SeqOp.asks] using a1) ys m0 Vec.new [] (VInv.new defaultFits m0)
  have hf : ∀ l : List α, l.flatMap (fun y => [SeqOp.append [y]]) =
      l.map fun y => SeqOp.append [y] := by
    intro l; induction l with
    | nil => rfl
    | cons a l ih => simp [ih]
  rw [hf] at h
  simpa using h

/-- C144 fails for reservations: making room for one element before each push moves every element
each time. -/
theorem C144_reserve_quadratic (R : RawAlloc α) (m0 : Mem α) (ys : List α) :
    ∃ outs v m, Vec.run (defaultAllocator R) false
        (ys.flatMap fun y => [.reserve 1, .push y]) Vec.new m0 = .ok (outs, v, m) ∧
      v.asSlice m = .ok ys ∧ 2 * m.copied = 2 * m0.copied + ys.length * (ys.length - 1) ∧
      m.allocs = m0.allocs + ys.length := by
  have h := tight_run R m0 (fun y => [.reserve 1, .push y]) (fun x m v xs h => by
    obtain ⟨v1, m1, e1, h1, c1, a1⟩ := h.step_full (defaultAllocator_lawful R) false
      (.reserve 1) (by simp) (o := .unit) (ys := xs) rfl
    obtain ⟨v2, m2, e2, h2, c2, a2⟩ := h1.step_full (defaultAllocator_lawful R) false
      (.push x) (by simp) (o := .unit) (ys := xs ++ [x]) rfl
    refine ⟨[.unit, .unit], v2, m2, by simp [Vec.run, e1, e2], ?_, ?_, ?_⟩
    · simpa [SeqOp.capAfter] using h2
    · simp [SeqOp.moves, SeqOp.capAfter] at c1 c2; omega
    · simp [SeqOp.asks, SeqOp.capAfter] at a1 a2; omega) ys m0 Vec.new [] (VInv.new defaultFits m0)
  simpa using h

/-- C144 fails for reservations: on every reachable vector `reserve(n)` takes a new block and moves
every element to it, however much room there was. -/
theorem C144_reserve_always_moves (R : RawAlloc α) (m0 : Mem α) (ops : List (SeqOp α)) (n : Nat)
    (hn : 0 < n) {outs : List (Out α)} {v : Vec} {m : Mem α}
    (hrun : Vec.run (defaultAllocator R) false ops Vec.new m0 = .ok (outs, v, m)) :
    ∃ len cap v' m', v.len = .ok len ∧ v.capacity = .ok cap ∧
      v.step (defaultAllocator R) false (.reserve n) m = .ok (.unit, v', m') ∧
      v'.capacity = .ok (cap + n) ∧ m'.copied = m.copied + len ∧ m'.allocs = m.allocs + 1 := by
  obtain ⟨xs, ds, cap, _, hi, _, _⟩ := reachable_inv R false m0 ops (by simp) hrun
  obtain ⟨v1, m1, e1, h1, c1, a1⟩ := hi.step_full (defaultAllocator_lawful R) false
    (.reserve n) (by simp) (o := .unit) (ys := xs) rfl
  have hn' : n ≠ 0 := by omega
  refine ⟨xs.length, cap, v1, m1, hi.len, hi.capacity, e1, h1.capacity, ?_, ?_⟩
  · simpa [SeqOp.moves, hn'] using c1
  · simpa [SeqOp.asks, hn'] using a1

/-- C144, as far as it holds: once there is room for all of them, slices appended one after the
other move nothing and ask for no memory.  Missing: that growing without having made room first
moves each element a bounded number of times on average. -/
theorem C144_room_made_partial (R : RawAlloc α) (m0 : Mem α) (ops : List (SeqOp α))
    (bufs : List (List α)) {outs : List (Out α)} {v : Vec} {m : Mem α} {xs : List α} {cap : Nat}
    (hrun : Vec.run (defaultAllocator R) false ops Vec.new m0 = .ok (outs, v, m))
    (hxs : v.asSlice m = .ok xs) (hcap : v.capacity = .ok cap)
    (hroom : xs.length + bufs.flatten.length ≤ cap) :
    ∃ outs' v' m', Vec.run (defaultAllocator R) false (bufs.map .append) v m =
        .ok (outs', v', m') ∧ v'.asSlice m' = .ok (xs ++ bufs.flatten) ∧
      v'.capacity = .ok cap ∧ m'.copied = m.copied ∧ m'.allocs = m.allocs := by
  obtain ⟨xs', ds, cap', -, hi, -, -⟩ := reachable_inv R false m0 ops (by simp) hrun
  rw [hi.slice] at hxs
  cases hxs
  rw [hi.capacity] at hcap
  cases hcap
  clear hrun
  induction bufs generalizing xs v m with
  | nil => exact ⟨[], v, m, rfl, by simpa using hi.slice, hi.capacity, rfl, rfl⟩
  | cons b bufs ih =>
    simp only [List.flatten_cons, List.length_append] at hroom
    obtain ⟨v1, m1, e1, h1, c1, a1⟩ := hi.step_full (defaultAllocator_lawful R) false
      (.append b) (by simp) (o := .unit) (ys := xs ++ b) rfl
    have hm : max cap (xs.length + b.length) = cap := by omega
    have hc : ¬ cap < xs.length + b.length := by omega
    simp only [SeqOp.capAfter, hm] at h1
    simp only [SeqOp.moves, SeqOp.asks, if_neg hc] at c1 a1
    obtain ⟨o2, v2, m2, e2, s2, p2, c2, a2⟩ := ih (by simp only [List.length_append]; omega) h1
    exact ⟨.unit :: o2, v2, m2, by simp [Vec.run, e1, e2], by simpa using s2, p2,
      by omega, by omega⟩

theorem Str.nullTerminate_counts {v : Vec} {m m' : Mem UInt8}
    (h : Str.nullTerminate v m = .ok m') : m'.copied = m.copied ∧ m'.allocs = m.allocs := by
  unfold Str.nullTerminate at h
  split at h
  · cases h; exact ⟨rfl, rfl⟩
  · unfold Mem.write at h
    repeat' split at h
    all_goals first | (cases h; done) | (cases h; exact ⟨rfl, rfl⟩)

/-- C144 fails for strings: on every reachable string each `assign` takes a new block, moves every
byte to it and raises the capacity by one more than the bytes assigned. -/
theorem C144_string_assign (R : RawAlloc UInt8) (m0 : Mem UInt8) (ops : List StrOp) (s : List Char)
    {outs : List StrOut} {v : Vec} {m : Mem UInt8}
    (hrun : Str.run (strAlloc R) ops Vec.new m0 = .ok (outs, v, m)) :
    ∃ len cap v' m', v.len = .ok len ∧ v.capacity = .ok cap ∧
      Str.step (strAlloc R) (.assign s) v m = .ok (.unit, v', m') ∧
      v'.len = .ok (len + (utf8 s).length) ∧
      v'.capacity = .ok (cap + (utf8 s).length + 1) ∧ m'.copied = m.copied + len ∧
      m'.allocs = m.allocs + 1 := by
  obtain ⟨bs, cap, _, h⟩ := reachable_str hrun
  have hA := nullTerm_lawful R
  obtain ⟨v1, m1, he1, hi1, e1⟩ := h.reserve_any hA ((utf8 s).length + 1)
  obtain ⟨v2, m2, he2, hi2, e2⟩ := hi1.append hA (utf8 s)
  obtain ⟨m3, hn, h3, ht⟩ := SInv.nullTerminate hi2
  have hle : bs.length ≤ cap := h.len_le
  have hc : ¬ cap + ((utf8 s).length + 1) < bs.length + (utf8 s).length := by omega
  have hm : max (cap + ((utf8 s).length + 1)) (bs.length + (utf8 s).length) =
    cap + (utf8 s).length + 1 := by omega
  rw [hm] at h3
  have c1 := e1.copied
  have a1 := e1.allocs
  have c2 := e2.copied
  have a2 := e2.allocs
  have c3 := Str.nullTerminate_counts hn
  simp only [if_neg hc, Nat.add_eq_zero_iff, one_ne_zero, and_false, if_false] at c1 a1 c2 a2
  refine ⟨bs.length, cap, v2, m3, h.len, h.capacity, ?_, by simpa using h3.len, h3.capacity,
    by omega, by omega⟩
  simp [strAlloc, Str.step, Str.assign, Str.reserve, he1, he2, hn]

theorem Str.run_snoc {A : Allocator UInt8} {op : StrOp} {v' v'' : Vec} {m' m'' : Mem UInt8}
    {o : StrOut} (h2 : Str.step A op v' m' = .ok (o, v'', m'')) :
    ∀ {ps : List StrOp} {os : List StrOut} {v : Vec} {m : Mem UInt8},
      Str.run A ps v m = .ok (os, v', m') →
      Str.run A (ps ++ [op]) v m = .ok (os ++ [o], v'', m'') := by
  intro ps
  induction ps with
  | nil => intro os v m h; cases h; simp [Str.run, h2]
  | cons p ps ih =>
    intro os v m h
    simp only [Str.run] at h
    cases hs : Str.step A p v m with
    | error e => rw [hs] at h; simp at h
    | ok r =>
      obtain ⟨o1, v1, m1⟩ := r
      rw [hs, Exec.ok_bind] at h
      cases hr : Str.run A ps v1 m1 with
      | error e => rw [hr] at h; simp at h
      | ok r =>
        obtain ⟨o2, v2, m2⟩ := r
        rw [hr, Exec.ok_bind] at h
        cases h
        simp [Str.run, hs, ih hr]

/-- C144 fails for strings: assigning nothing `n` times takes `n` blocks, the last of them with room
for `n` bytes. -/
theorem C144_string_assign_nothing (R : RawAlloc UInt8) (m0 : Mem UInt8) (n : Nat) :
    ∃ outs v m, Str.run (strAlloc R) (List.replicate n (.assign [])) Vec.new m0 =
        .ok (outs, v, m) ∧ v.len = .ok 0 ∧ v.capacity = .ok n ∧ m.allocs = m0.allocs + n := by
  induction n with
  | zero => exact ⟨[], Vec.new, m0, rfl, by decide, by decide, rfl⟩
  | succ n ih =>
    obtain ⟨outs, v, m, e, hl, hc, ha⟩ := ih
    obtain ⟨len, cap, v1, m1, hl', hc', e1, l1, p1, c1, a1⟩ := C144_string_assign R m0 _ [] e
    rw [hc] at hc'
    cases hc'
    rw [hl] at hl'
    cases hl'
    have e2 := Str.run_snoc e1 e
    rw [← List.replicate_succ'] at e2
    exact ⟨_, v1, m1, e2, by simpa [utf8] using l1, by simpa [utf8] using p1, by omega⟩

/-! ## Concrete cases -/

/-- Pairs swapped and steps made in removing the element at `i` of seven. -/
def removeCostOfSeven (i : Nat) : Option (Nat × Nat) :=
  (do
    let (_, d, m) ← Deque.history exampleEnv ((List.range 7).map DeqOp.pushBack)
      ⟨Mem.empty, Mem.empty⟩
    d.removeT exampleEnv i m).toOption.map Prod.snd

/-- Removing the third swaps two pairs, the ends none, and all make fifteen steps. -/
example : [removeCostOfSeven 2, removeCostOfSeven 6, removeCostOfSeven 0] =
    [some (2, 15), some (0, 15), some (0, 15)] := by decide +kernel

/-- Elements moved and blocks asked for by calls on a new vector. -/
def callCosts (ops : List (SeqOp Nat)) : Option (Nat × Nat) :=
  (Vec.run (defaultAllocator RawAlloc.bump) false ops Vec.new Mem.empty).toOption.map
    fun r => (r.2.2.copied, r.2.2.allocs)

/-- Four one-element appends move six elements; four pushes three. -/
example : callCosts ([1, 2, 3, 4].map fun y => .append [y]) = some (6, 4) ∧
    callCosts ([1, 2, 3, 4].map .push) = some (3, 3) ∧
    callCosts (.reserve 4 :: [1, 2, 3, 4].map fun y => .append [y]) = some (0, 1) ∧
    callCosts ([1, 2, 3, 4].map .push ++ [.insert 1 9, .remove 0]) = some (3 + 4 + 3 + 4, 4) := by
  decide +kernel

end Verif
