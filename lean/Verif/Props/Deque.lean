import Verif.Deque.Inv

/-!
# Properties of `Deque` and `Queue` (C27–C35, C68)

The theorems hold for every subarray size `E.S > 0`, in particular for the five the crate uses
(`subarraySize_pos`), every placement of blocks by the allocator, every memory `m0` the deque
is created in, and every history `ops` of calls.
-/

set_option autoImplicit false

namespace Verif
open Spec

variable {α : Type}

/-- The subarray sizes of the crate are positive, so `0 < E.S` is no restriction. -/
theorem subarraySize_pos (n : Nat) : 0 < subarraySize n := by
  unfold subarraySize; split_ifs <;> omega

/-- A deque created in `m0` and put through the calls `ops`, with all outputs. -/
def Deque.history (E : DEnv α) (ops : List (DeqOp α)) (m0 : DMem α) :
    Exec (List (Out α) × Deque × DMem α) := do
  let (d, m) ← Deque.newIn E m0
  Deque.run E ops d m

theorem history_inv (E : DEnv α) (hS : 0 < E.S) (ops : List (DeqOp α)) (m0 : DMem α) :
    ∃ d m drops, Deque.history E ops m0 = .ok ((DeqOp.run ops []).1, d, m) ∧
      DInv E m0 m d (DeqOp.run ops []).2 ∧
      m.t.dropped = m0.t.dropped ++ (if E.nd then drops else []) ∧
      (DeqOp.allIn ops []).Perm (DeqOp.allOut ops [] ++ (drops ++ (DeqOp.run ops []).2)) := by
  obtain ⟨d0, m1, h1, h2, h3⟩ := DInv.newIn E hS m0
  obtain ⟨d, m, drops, h4, h5, h6, h7⟩ := DInv.run ops h2
  exact ⟨d, m, drops, by simp [Deque.history, h1, h4], h5, by rw [h6, h3], by simpa using h7⟩

/-- From the hypothesis that a history ran to the invariant. -/
theorem history_ok {E : DEnv α} (hS : 0 < E.S) {ops : List (DeqOp α)} {m0 m : DMem α}
    {outs : List (Out α)} {d : Deque} (h : Deque.history E ops m0 = .ok (outs, d, m)) :
    DInv E m0 m d (DeqOp.run ops []).2 := by
  obtain ⟨d', m', drops, h1, h2, _⟩ := history_inv E hS ops m0
  rw [h1] at h
  simp only [Except.ok.injEq, Prod.mk.injEq] at h
  obtain ⟨_, rfl, rfl⟩ := h
  exact h2

/-! ## C27 -/

/-- C27.  Every history of calls runs without panic and without an invalid memory access,
returns what the same history on a mathematical sequence returns, and leaves all memory that
was in use before untouched. -/
theorem C27_deque_refines_sequence (E : DEnv α) (hS : 0 < E.S) (ops : List (DeqOp α))
    (m0 : DMem α) :
    ∃ d m, Deque.history E ops m0 = .ok ((DeqOp.run ops []).1, d, m) ∧
      (∀ b, m0.t.live b ≠ none → m.t.live b = m0.t.live b) ∧
      (∀ b, m0.p.live b ≠ none → m.p.live b = m0.p.live b) := by
  obtain ⟨d, m, drops, h1, ⟨pb, lo, bo, bl, h2⟩, _⟩ := history_inv E hS ops m0
  refine ⟨d, m, h1, ?_, ?_⟩
  · intro b hb
    exact h2.t.out b (fun hm => hb (h2.t.fresh b hm))
  · intro b hb
    exact h2.p.out b (fun hm => hb (by rw [hm]; exact h2.p.fresh))

/-- C27.  For an element type of any size the crate's choice of subarray size is one for which a
deque works: a power of two, at least four elements, and at most 256 bytes unless the element
type is larger than 32 bytes. -/
theorem C27_subarray_size (n : Nat) :
    4 ≤ subarraySize n ∧ (∃ k, subarraySize n = 2 ^ k) ∧
      (n ≤ 32 → subarraySize n * n ≤ 256 ∧ (4 ≤ n → 128 < subarraySize n * (n + 1))) ∧
      (32 < n → subarraySize n = 4) := by
  unfold subarraySize
  split_ifs
  · exact ⟨by omega, ⟨6, rfl⟩, fun _ => by omega, by omega⟩
  · exact ⟨by omega, ⟨5, rfl⟩, fun _ => by omega, by omega⟩
  · exact ⟨by omega, ⟨4, rfl⟩, fun _ => by omega, by omega⟩
  · exact ⟨by omega, ⟨3, rfl⟩, fun _ => by omega, by omega⟩
  · exact ⟨by omega, ⟨2, rfl⟩, fun _ => by omega, fun _ => rfl⟩

/-- C27.  So the refinement holds of a deque of elements of any size, with no further
hypothesis. -/
theorem C27_deque_of_any_size (E : DEnv α) (n : Nat) (ops : List (DeqOp α)) (m0 : DMem α) :
    ∃ d m, Deque.history { E with S := subarraySize n } ops m0 =
        .ok ((DeqOp.run ops []).1, d, m) ∧
      (∀ b, m0.t.live b ≠ none → m.t.live b = m0.t.live b) ∧
      (∀ b, m0.p.live b ≠ none → m.p.live b = m0.p.live b) :=
  C27_deque_refines_sequence { E with S := subarraySize n } (subarraySize_pos n) ops m0

/-- C27.  Building a deque from an iterator holds the same elements in order: every later
history returns what it returns on that sequence. -/
theorem C27_deque_from_iter (E : DEnv α) (hS : 0 < E.S) (xs : List α) (ops : List (DeqOp α))
    (m0 : DMem α) :
    ∃ d m d' m', Deque.fromIter E xs m0 = .ok (d, m) ∧
      Deque.run E ops d m = .ok ((DeqOp.run ops xs).1, d', m') := by
  obtain ⟨d0, m1, h1, h2, _⟩ := DInv.newIn E hS m0
  have key : ∀ (xs ys : List α) (d : Deque) (m : DMem α), DInv E m0 m d ys →
      ∃ d' m', xs.foldlM (fun (s : Deque × DMem α) x => s.1.pushBack E x s.2) (d, m) =
        (.ok (d', m') : Exec _) ∧ DInv E m0 m' d' (ys ++ xs) := by
    intro xs
    induction xs with
    | nil => intro ys d m h; exact ⟨d, m, rfl, by simpa using h⟩
    | cons x xs ih =>
      rintro ys d m ⟨pb, lo, bo, bl, h⟩
      obtain ⟨d', m', pb', lo', bl', e1, e2, _⟩ := h.pushBack x
      obtain ⟨d2, m2, e3, e4⟩ := ih (ys ++ [x]) d' m' ⟨_, _, _, _, e2⟩
      exact ⟨d2, m2, by simp [List.foldlM_cons, e1, e3], by simpa using e4⟩
  obtain ⟨d, m, h3, h4⟩ := key xs [] d0 m1 h2
  obtain ⟨d', m', _, h5, _⟩ := DInv.run ops h4
  exact ⟨d, m, d', m', by simp [Deque.fromIter, h1, h3], by simpa using h5⟩

/-- A concrete environment: subarrays of two cells. -/
def exampleEnv : DEnv Nat := ⟨2, true, RawAlloc.bump, RawAlloc.bump⟩

/-- The hypotheses hold of a history that crosses subarrays at both ends, grows the pointer
array in both directions and removes from the middle. -/
example : (do
    let (os, _, _) ← Deque.history exampleEnv
      ([.pushBack 1, .pushBack 2, .pushBack 3, .pushFront 4, .pushFront 5] ++
        (List.range 12).map (fun n => DeqOp.pushBack n) ++
        (List.range 12).map (fun n => DeqOp.pushFront n) ++
        [.remove 14, .remove 20, .remove 3, .popFront, .popBack, .front, .back, .setBack 77,
          .popBack, .len]) ⟨Mem.empty, Mem.empty⟩
    .ok (os.filterMap fun | .elem x => x | .nat n => some n | _ => none)) =
  (.ok [1, 4, 8, 11, 11, 10, 10, 77, 23] : Exec (List Nat)) := rfl

/-! ## C28 -/

/-- C28.  Iterating a deque with any interleaving of `next` and `next_back` returns what
iterating the mathematical sequence from both ends returns. -/
theorem C28_deque_iterates (E : DEnv α) (hS : 0 < E.S) (ops : List (DeqOp α)) (m0 : DMem α)
    {outs : List (Out α)} {d : Deque} {m : DMem α}
    (h : Deque.history E ops m0 = .ok (outs, d, m)) (its : List IterOp) :
    ∃ it it', d.iter = .ok it ∧
      it.run its m = .ok ((IterOp.run its (DeqOp.run ops []).2).1, it') := by
  obtain ⟨pb, lo, bo, bl, h⟩ := history_ok hS h
  obtain ⟨i', j', _, _, h1, _⟩ := h.iterRun its 0 _ (Nat.zero_le _) (Nat.le_refl _)
  simp only [Nat.add_zero, List.take_length, List.drop_zero] at h1
  exact ⟨_, _, h.iter, h1⟩

/-- C28.  `iter_mut` hands out as many references as there are elements, to pairwise different
addresses, the `k`-th one holding the `k`-th element. -/
theorem C28_deque_iter_mut_no_alias (E : DEnv α) (hS : 0 < E.S) (ops : List (DeqOp α))
    (m0 : DMem α) {outs : List (Out α)} {d : Deque} {m : DMem α}
    (h : Deque.history E ops m0 = .ok (outs, d, m)) :
    ∃ ps, d.addrs E m = .ok ps ∧ ps.Nodup ∧
      ps.map (fun p => m.t.read p) = (DeqOp.run ops []).2.map Except.ok := by
  obtain ⟨pb, lo, bo, bl, h⟩ := history_ok hS h
  refine ⟨_, h.addrs, ?_, ?_⟩
  · refine List.Nodup.map_on ?_ List.nodup_range
    intro i hi j hj he
    have hi := List.mem_range.1 hi
    have hj := List.mem_range.1 hj
    have := (cellPtr_inj h.t.nodup (h.idx_lt (Nat.le_of_lt hi)) (h.idx_lt (Nat.le_of_lt hj))).1 he
    omega
  · apply List.ext_getElem
    · simp
    · intro i h1 h2
      simp only [List.length_map] at h2
      simpa using h.head? h2

/-- C28.  The consuming iterator returns the elements from both ends in the same way. -/
theorem C28_deque_into_iter (E : DEnv α) (hS : 0 < E.S) (ops : List (DeqOp α)) (m0 : DMem α)
    {outs : List (Out α)} {d : Deque} {m : DMem α}
    (h : Deque.history E ops m0 = .ok (outs, d, m)) (its : List IterOp) :
    ∃ d' m', d.intoIterRun E its m = .ok ((IterOp.run its (DeqOp.run ops []).2).1, d', m') := by
  replace h := history_ok hS h
  generalize (DeqOp.run ops []).2 = xs at h ⊢
  induction its generalizing d m xs with
  | nil => exact ⟨d, m, rfl⟩
  | cons op its ih =>
    obtain ⟨pb, lo, bo, bl, h⟩ := h
    cases op with
    | next =>
      obtain ⟨d1, m1, lo', bo', bl', h1, h2, _⟩ := h.popFront
      obtain ⟨d', m', h3⟩ := ih _ ⟨_, _, _, _, h2⟩
      exact ⟨d', m', by simp [Deque.intoIterRun, h1, h3, IterOp.run, IterOp.step]⟩
    | nextBack =>
      obtain ⟨d1, m1, bl', h1, h2, _⟩ := h.popBack
      obtain ⟨d', m', h3⟩ := ih _ ⟨_, _, _, _, h2⟩
      exact ⟨d', m', by simp [Deque.intoIterRun, h1, h3, IterOp.run, IterOp.step]⟩

example : (do
    let (_, d, m) ← Deque.history exampleEnv
      [.pushBack 1, .pushBack 2, .pushBack 3, .pushFront 4, .pushFront 5] ⟨Mem.empty, Mem.empty⟩
    let it ← d.iter
    let (os, _) ← it.run [.next, .nextBack, .nextBack, .next, .next, .nextBack, .next] m
    .ok os) = (.ok [some 5, some 3, some 2, some 4, some 1, none, none] : Exec _) := rfl

/-! ## C29 -/

/-- C29.  `len()` is the number of elements and `is_empty()` is true exactly when it is 0. -/
theorem C29_deque_len_exact (E : DEnv α) (hS : 0 < E.S) (ops : List (DeqOp α)) (m0 : DMem α)
    {outs : List (Out α)} {d : Deque} {m : DMem α}
    (h : Deque.history E ops m0 = .ok (outs, d, m)) :
    d.len E = .ok (DeqOp.run ops []).2.length ∧
      (d.isEmpty = true ↔ (DeqOp.run ops []).2.length = 0) := by
  obtain ⟨pb, lo, bo, bl, h⟩ := history_ok hS h
  refine ⟨h.length, ?_⟩
  rw [h.isEmpty, decide_eq_true_eq, List.length_eq_zero_iff]

example : (do
    let (_, d, _) ← Deque.history exampleEnv
      [.pushBack 1, .pushBack 2, .pushBack 3, .pushFront 4, .popBack] ⟨Mem.empty, Mem.empty⟩
    let n ← d.len exampleEnv
    .ok (n, d.isEmpty)) = (.ok (3, false) : Exec _) := rfl

/-! ## C30 -/

theorem DRep.addrs_length {E : DEnv α} {wt : World α} {wp : World Ptr} {m : DMem α} {d : Deque}
    {pb lo bo : Nat} {bl : List Nat} {xs : List α} (h : DRep E wt wp m d pb lo bo bl xs)
    {ps : List Ptr} (hp : d.addrs E m = .ok ps) :
    ps.length = xs.length ∧
      ∀ k, k < xs.length → ps[k]? = some (cellPtr E.S bl (bo + k)) := by
  rw [h.addrs] at hp
  simp only [Except.ok.injEq] at hp
  subst hp
  refine ⟨by simp, ?_⟩
  intro k hk
  simp [hk]

/-- C30.  Pushing at either end keeps the address of every element and adds one. -/
theorem C30_deque_push_keeps_addresses (E : DEnv α) (hS : 0 < E.S) (ops : List (DeqOp α))
    (m0 : DMem α) {outs : List (Out α)} {d : Deque} {m : DMem α}
    (h : Deque.history E ops m0 = .ok (outs, d, m)) (x : α) :
    ∃ ps, d.addrs E m = .ok ps ∧
      (∃ d' m' p, d.pushBack E x m = .ok (d', m') ∧ d'.addrs E m' = .ok (ps ++ [p])) ∧
      (∃ d' m' p, d.pushFront E x m = .ok (d', m') ∧ d'.addrs E m' = .ok (p :: ps)) := by
  obtain ⟨pb, lo, bo, bl, h⟩ := history_ok hS h
  refine ⟨_, h.addrs, ?_, ?_⟩
  · obtain ⟨d', m', pb', lo', bl', h1, h2, _, h4, _⟩ := h.pushBack x
    refine ⟨d', m', cellPtr E.S bl' (bo + (DeqOp.run ops []).2.length), h1, ?_⟩
    rw [h2.addrs]
    simp only [List.length_append, List.length_singleton, List.range_succ, List.map_append,
      List.map_cons, List.map_nil]
    congr 2
    apply List.map_congr_left
    intro k hk
    exact h4 k (List.mem_range.1 hk)
  · obtain ⟨d', m', pb', lo', bo', bl', h1, h2, _, h4, _⟩ := h.pushFront x
    refine ⟨d', m', cellPtr E.S bl' bo', h1, ?_⟩
    rw [h2.addrs]
    simp only [List.length_cons, List.range_succ_eq_map, List.map_cons, List.map_map,
      Nat.add_zero]
    congr 2
    apply List.map_congr_left
    intro k hk
    exact h4 k (List.mem_range.1 hk)

/-- C30.  Popping at either end keeps the address of every other element. -/
theorem C30_deque_pop_keeps_addresses (E : DEnv α) (hS : 0 < E.S) (ops : List (DeqOp α))
    (m0 : DMem α) {outs : List (Out α)} {d : Deque} {m : DMem α}
    (h : Deque.history E ops m0 = .ok (outs, d, m)) :
    ∃ ps, d.addrs E m = .ok ps ∧
      (∃ o d' m', d.popBack E m = .ok (o, d', m') ∧ d'.addrs E m' = .ok ps.dropLast) ∧
      (∃ o d' m', d.popFront E m = .ok (o, d', m') ∧ d'.addrs E m' = .ok ps.tail) := by
  obtain ⟨pb, lo, bo, bl, h⟩ := history_ok hS h
  generalize (DeqOp.run ops []).2 = xs at h
  refine ⟨_, h.addrs, ?_, ?_⟩
  · obtain ⟨d', m', bl', h1, h2, _, h4⟩ := h.popBack
    refine ⟨_, d', m', h1, ?_⟩
    rw [h2.addrs]
    simp only [List.length_dropLast, ← List.map_dropLast]
    congr 1
    have : (List.range xs.length).dropLast = List.range (xs.length - 1) := by
      cases hn : xs.length with
      | zero => rfl
      | succ n => rw [List.range_succ, List.dropLast_concat, Nat.add_sub_cancel]
    rw [this]
    apply List.map_congr_left
    intro k hk
    exact h4 k (List.mem_range.1 hk)
  · obtain ⟨d', m', lo', bo', bl', h1, h2, _, h4, _⟩ := h.popFront
    refine ⟨_, d', m', h1, ?_⟩
    rw [h2.addrs]
    simp only [List.length_tail, ← List.map_tail]
    congr 1
    have : (List.range xs.length).tail = (List.range (xs.length - 1)).map (· + 1) := by
      cases hn : xs.length with
      | zero => rfl
      | succ n => rw [List.range_succ_eq_map, List.tail_cons, Nat.add_sub_cancel]
    rw [this, List.map_map]
    apply List.map_congr_left
    intro k hk
    exact h4 k (List.mem_range.1 hk)

/-- Non-trivial case: a push that allocates a subarray and grows the pointer array. -/
example : (do
    let (_, d, m) ← Deque.history exampleEnv
      ((List.range 9).map fun n => DeqOp.pushBack n) ⟨Mem.empty, Mem.empty⟩
    let ps ← d.addrs exampleEnv m
    let (d, m) ← d.pushBack exampleEnv 9 m
    let qs ← d.addrs exampleEnv m
    .ok (decide (ps = qs.dropLast), qs.length)) = (.ok (true, 10) : Exec _) := rfl

/-! ## C31 -/

/-- C31.  For elements with a destructor: whatever was pushed (or assigned) is, up to order,
exactly what was popped or removed together with what was dropped, once the deque is
dropped. -/
theorem C31_deque_drop_exactly_once (E : DEnv α) (hS : 0 < E.S) (hnd : E.nd = true)
    (ops : List (DeqOp α)) (m0 : DMem α) {outs : List (Out α)} {d : Deque} {m : DMem α}
    (h : Deque.history E ops m0 = .ok (outs, d, m)) :
    ∃ m' drops, d.drop E m = .ok m' ∧ m'.t.dropped = m0.t.dropped ++ drops ∧
      (DeqOp.allIn ops []).Perm (DeqOp.allOut ops [] ++ drops) := by
  obtain ⟨d', m', drops, h1, h2, h3, h4⟩ := history_inv E hS ops m0
  rw [h1] at h
  simp only [Except.ok.injEq, Prod.mk.injEq] at h
  obtain ⟨_, rfl, rfl⟩ := h
  obtain ⟨pb, lo, bo, bl, h2⟩ := h2
  obtain ⟨m'', B, h5, _, _, h6⟩ := h2.drop
  refine ⟨m'', drops ++ (DeqOp.run ops []).2, h5, ?_, h4⟩
  rw [h6, h3, hnd]; simp

example : (do
    let (_, d, m) ← Deque.history exampleEnv
      [.pushBack 1, .pushFront 2, .pushBack 3, .setFront 4, .remove 1, .pushBack 5, .popFront]
      ⟨Mem.empty, Mem.empty⟩
    let m ← d.drop exampleEnv m
    .ok m.t.dropped) = (.ok [2, 3, 5] : Exec _) := rfl

/-! ## C32 -/

/-- C32 is false.  Dropping a deque, whatever its history, leaves one subarray allocated that
was not allocated before the deque was created. -/
theorem C32_deque_drop_leaks (E : DEnv α) (hS : 0 < E.S) (ops : List (DeqOp α)) (m0 : DMem α)
    {outs : List (Out α)} {d : Deque} {m : DMem α}
    (h : Deque.history E ops m0 = .ok (outs, d, m)) :
    ∃ m' b, d.drop E m = .ok m' ∧ m0.t.live b = none ∧ m'.t.live b ≠ none := by
  obtain ⟨pb, lo, bo, bl, h⟩ := history_ok hS h
  obtain ⟨m', B, h1, h2, _⟩ := h.drop
  refine ⟨m', B, h1, h2.fresh B (by simp), ?_⟩
  obtain ⟨blk, hb, _⟩ := h2.ins B (by simp)
  rw [hb]; simp

/-- C32, the part that holds.  Dropping a deque frees its pointer array and every subarray but
one, each with the size it was allocated with, and touches no other memory.
Missing: the subarray at the back end is never freed (`C32_deque_drop_leaks`). -/
theorem C32_deque_drop_releases_partial (E : DEnv α) (hS : 0 < E.S) (ops : List (DeqOp α))
    (m0 : DMem α) {outs : List (Out α)} {d : Deque} {m : DMem α}
    (h : Deque.history E ops m0 = .ok (outs, d, m)) :
    ∃ m' B, d.drop E m = .ok m' ∧ (∀ b, b ≠ B → m'.t.live b = m0.t.live b) ∧
      m'.p.live = m0.p.live := by
  obtain ⟨pb, lo, bo, bl, h⟩ := history_ok hS h
  obtain ⟨m', B, h1, h2, h3, _⟩ := h.drop
  exact ⟨m', B, h1, fun b hb => h2.out b (by simpa using hb), h3⟩

example : (do
    let (_, d, m) ← Deque.history exampleEnv ((List.range 5).map fun n => DeqOp.pushBack n)
      ⟨Mem.empty, Mem.empty⟩
    let m ← d.drop exampleEnv m
    .ok ((List.range 4).map fun b => (m.t.live b).isSome)) =
  (.ok [false, false, true, false] : Exec _) := rfl

/-! ## C33 -/

/-- C33.  A live deque holds only subarrays between its two ends: the subarrays allocated since
the deque was created are `e - b + 1` in number, where `b` and `e` are the slots of its ends,
which is at most `len / S + 2`; each has `S` cells. -/
theorem C33_deque_memory_bound (E : DEnv α) (hS : 0 < E.S) (ops : List (DeqOp α)) (m0 : DMem α)
    {outs : List (Out α)} {d : Deque} {m : DMem α}
    (h : Deque.history E ops m0 = .ok (outs, d, m)) :
    ∃ bl : List Nat, bl.Nodup ∧
      (∀ b, b ∈ bl ↔ m.t.live b ≠ none ∧ m0.t.live b = none) ∧
      (∀ b ∈ bl, ∃ blk, m.t.live b = some blk ∧ blk.size = E.S) ∧
      (∃ n, d.e.arr.offsetFrom d.b.arr = .ok n ∧ bl.length = n + 1) ∧
      bl.length ≤ (DeqOp.run ops []).2.length / E.S + 2 := by
  obtain ⟨pb, lo, bo, bl, h⟩ := history_ok hS h
  refine ⟨bl, h.t.nodup, ?_, ?_, ?_, ?_⟩
  · intro b
    constructor
    · intro hb
      obtain ⟨blk, h1, _⟩ := h.t.ins b hb
      exact ⟨by rw [h1]; simp, h.t.fresh b hb⟩
    · rintro ⟨h1, h2⟩
      by_contra hb
      exact h1 (by rw [h.t.out b hb, h2])
  · intro b hb
    obtain ⟨blk, h1, h2, _⟩ := h.t.ins b hb
    exact ⟨blk, h1, h2⟩
  · refine ⟨bl.length - 1, ?_, by have := h.bl_pos; omega⟩
    rw [h.b, h.e]
    simp [itAt, Ptr.offsetFrom, h.len, h.bo_div]
  · rw [h.len]
    have h1 : bo + (DeqOp.run ops []).2.length ≤ (DeqOp.run ops []).2.length + E.S := by
      have := h.b_lt; omega
    have h2 := Nat.div_le_div_right (c := E.S) h1
    rw [Nat.add_div_right _ hS] at h2
    omega

example : (do
    let (_, _, m) ← Deque.history exampleEnv
      (((List.range 9).map fun n => DeqOp.pushBack n) ++ List.replicate 7 .popFront)
      ⟨Mem.empty, Mem.empty⟩
    .ok ((List.range 8).map fun b => (m.t.live b).isSome)) =
  (.ok [false, false, false, true, true, false, false, false] : Exec _) := rfl

/-! ## C34 -/

/-- A queue created in `m0` and put through the calls `ops` (src/queue.rs). -/
def Queue.history (E : DEnv α) (ops : List (QueueOp α)) (m0 : DMem α) :
    Exec (List (Out α) × Deque × DMem α) := do
  let (d, m) ← Deque.newIn E m0
  Queue.run E ops d m

/-- C34.  Any history of calls on a queue returns what it returns on a first-in first-out
queue. -/
theorem C34_queue_fifo (E : DEnv α) (hS : 0 < E.S) (ops : List (QueueOp α)) (m0 : DMem α) :
    ∃ d m, Queue.history E ops m0 = .ok ((QueueOp.run ops []).1, d, m) := by
  obtain ⟨d0, m1, h1, h2, _⟩ := DInv.newIn E hS m0
  have key : ∀ (ops : List (QueueOp α)) (xs : List α) (d : Deque) (m : DMem α),
      DInv E m0 m d xs → ∃ d' m', Queue.run E ops d m = .ok ((QueueOp.run ops xs).1, d', m') := by
    intro ops
    induction ops with
    | nil => intro xs d m _; exact ⟨d, m, rfl⟩
    | cons op ops ih =>
      intro xs d m h
      have hs : ∃ d' m', Queue.step E op d m = .ok ((op.step xs).1, d', m') ∧
          DInv E m0 m' d' (op.step xs).2 := by
        cases op with
        | push x =>
          obtain ⟨d', m', e1, e2, _⟩ := h.step (.pushBack x); exact ⟨d', m', e1, e2⟩
        | pop => obtain ⟨d', m', e1, e2, _⟩ := h.step .popFront; exact ⟨d', m', e1, e2⟩
        | top => obtain ⟨d', m', e1, e2, _⟩ := h.step .front; exact ⟨d', m', e1, e2⟩
        | len => obtain ⟨d', m', e1, e2, _⟩ := h.step .len; exact ⟨d', m', e1, e2⟩
        | isEmpty => obtain ⟨d', m', e1, e2, _⟩ := h.step .isEmpty; exact ⟨d', m', e1, e2⟩
      obtain ⟨d1, m1, e1, e2⟩ := hs
      obtain ⟨d', m', e3⟩ := ih _ _ _ e2
      exact ⟨d', m', by simp [Queue.run, e1, e3, QueueOp.run]⟩
  obtain ⟨d, m, h3⟩ := key ops [] d0 m1 h2
  exact ⟨d, m, by simp [Queue.history, h1, h3]⟩

example : (do
    let (os, _, _) ← Queue.history exampleEnv
      [.push 1, .push 2, .pop, .push 3, .top, .pop, .len] ⟨Mem.empty, Mem.empty⟩
    .ok (os.filterMap fun | .elem x => x | .nat n => some n | _ => none)) =
  (.ok [1, 2, 2, 1] : Exec (List Nat)) := rfl

/-! ## C35 -/

/-- C35.  At every point of an iteration, converting the iterator to its C++-compatible pair
and back gives an iterator that behaves identically under every further sequence of calls. -/
theorem C35_deque_compat_roundtrip (E : DEnv α) (hS : 0 < E.S) (ops : List (DeqOp α))
    (m0 : DMem α) {outs : List (Out α)} {d : Deque} {m : DMem α}
    (h : Deque.history E ops m0 = .ok (outs, d, m)) (its : List IterOp) {it it' : DIter}
    {os : List (Option α)} (hit : d.iter = .ok it) (hr : it.run its m = .ok (os, it')) :
    ∃ b e it'', it'.intoCompat m = .ok (b, e) ∧ DIter.fromCompat b e = .ok it'' ∧
      ∀ more, it''.run more m = it'.run more m := by
  obtain ⟨pb, lo, bo, bl, h⟩ := history_ok hS h
  rw [h.iter] at hit
  simp only [Except.ok.injEq] at hit
  subst hit
  obtain ⟨i', j', hij, hj, h1, _⟩ := h.iterRun its 0 _ (Nat.zero_le _) (Nat.le_refl _)
  simp only [Nat.add_zero] at h1
  rw [h1] at hr
  simp only [Except.ok.injEq, Prod.mk.injEq] at hr
  obtain ⟨_, rfl⟩ := hr
  have hi' := h.idx_lt (k := i') (by omega)
  have hj' := h.idx_lt hj
  have c1 := h.p.cells _ hi'
  have c2 := h.p.cells _ hj'
  have a1 := h.t.ptrAdd hi' (o := 0) (n := E.S) (by omega)
  have a2 := h.t.ptrAdd hj' (o := 0) (n := E.S) (by omega)
  refine ⟨itAt E.S pb lo bl (bo + i'), itAt E.S pb lo bl (bo + j'), _, ?_, ?_, fun _ => rfl⟩
  · simp only [DIter.intoCompat, c1, c2, Exec.ok_bind, a1, a2, Nat.zero_add]
    rfl
  · simp [DIter.fromCompat, itAt, Ptr.offsetFrom]

/-- C35.  The compatibility pair of a fresh iterator is the pair of iterators the deque
itself stores, which is what the C++ side reads. -/
theorem C35_deque_iter_into_compat (E : DEnv α) (hS : 0 < E.S) (ops : List (DeqOp α))
    (m0 : DMem α) {outs : List (Out α)} {d : Deque} {m : DMem α}
    (h : Deque.history E ops m0 = .ok (outs, d, m)) :
    ∃ it, d.iter = .ok it ∧ it.intoCompat m = .ok (d.b, d.e) := by
  obtain ⟨pb, lo, bo, bl, h⟩ := history_ok hS h
  refine ⟨_, h.iter, ?_⟩
  have hi' := h.idx_lt (k := 0) (by omega)
  have hj' := h.idx_lt (Nat.le_refl _)
  simp only [Nat.add_zero] at hi'
  have c1 := h.p.cells _ hi'
  have c2 := h.p.cells _ hj'
  have a1 := h.t.ptrAdd hi' (o := 0) (n := E.S) (by omega)
  have a2 := h.t.ptrAdd hj' (o := 0) (n := E.S) (by omega)
  rw [h.b, h.e]
  simp only [DIter.intoCompat, c1, c2, Exec.ok_bind, a1, a2, Nat.zero_add]
  rfl

example : (do
    let (_, d, m) ← Deque.history exampleEnv
      [.pushBack 1, .pushBack 2, .pushBack 3, .pushFront 4] ⟨Mem.empty, Mem.empty⟩
    let it ← d.iter
    let (_, it) ← it.run [.next, .nextBack] m
    let (b, e) ← it.intoCompat m
    let it ← DIter.fromCompat b e
    let (os, _) ← it.run [.next, .next, .next] m
    .ok os) = (.ok [some 1, some 2, none] : Exec _) := rfl

/-! ## C68 -/

/-- `next` of an iterator over a list of references. -/
def listNext (_ : DMem α) (l : List Ptr) : Exec (Option Ptr × List Ptr) := .ok (l.head?, l.tail)

theorem Mem.write_of_read {m : Mem α} {p : Ptr} {y : α} (h : m.read p = .ok y) (x : α) :
    ∃ m', m.write p x = .ok m' ∧ m'.read p = .ok x ∧ ∀ q, q ≠ p → m'.read q = m.read q := by
  cases p with
  | null => simp [Mem.read, Mem.cell] at h
  | loc b o =>
    have hw : ∃ m', m.write (.loc b o) x = .ok m' := by
      unfold Mem.read Mem.cell at h
      unfold Mem.write
      cases hb : m.live b with
      | none => simp [hb] at h
      | some blk =>
        simp only [hb] at h ⊢
        by_cases ho : o < blk.size
        · exact ⟨_, by rw [if_pos ho]⟩
        · rw [if_neg ho] at h; simp at h
    obtain ⟨m', hw⟩ := hw
    refine ⟨m', hw, Mem.write_read_self hw, ?_⟩
    intro q hq
    cases q with
    | null => rfl
    | loc b' o' => exact Mem.write_read_ne hw hq

/-- C68.  Rotating over the references `p :: ps`, pairwise different and readable, with the
second iterator one step ahead: the first value ends up at the last reference, every other
value moves one reference down, and no other memory changes. -/
theorem C68_rotate (v : α) : ∀ (vs : List α) (p : Ptr) (ps : List Ptr) (fuel : Nat) (m : DMem α),
    ps.length < fuel → (p :: ps).Nodup →
    (p :: ps).map (fun q => m.t.read q) = (v :: vs).map Except.ok →
    ∃ m', rotateWith listNext listNext fuel (p :: ps) ps m = .ok m' ∧
      (p :: ps).map (fun q => m'.t.read q) = (vs ++ [v]).map Except.ok ∧
      ∀ q, q ∉ p :: ps → m'.t.read q = m.t.read q := by
  intro vs
  induction vs with
  | nil =>
    intro p ps fuel m hf hn hv
    have : ps = [] := by
      have := congrArg List.length hv
      simpa using this
    subst this
    obtain ⟨fuel, rfl⟩ : ∃ f, fuel = f + 1 := ⟨fuel - 1, by omega⟩
    exact ⟨m, rfl, by simpa using hv, fun _ _ => rfl⟩
  | cons u vs ih =>
    intro p ps fuel m hf hn hv
    cases ps with
    | nil => simp at hv
    | cons q ps =>
      obtain ⟨fuel, rfl⟩ : ∃ f, fuel = f + 1 := ⟨fuel - 1, by omega⟩
      simp only [List.map_cons, List.cons.injEq] at hv
      obtain ⟨hp, hq, hvs⟩ := hv
      have hpq : q ≠ p := by
        intro e; subst e; simp at hn
      obtain ⟨m1, w1, r1, f1⟩ := Mem.write_of_read hp u
      have hq1 : m1.read q = .ok u := by rw [f1 q hpq, hq]
      obtain ⟨m2, w2, r2, f2⟩ := Mem.write_of_read hq1 v
      have hn2 := (List.nodup_cons.1 hn).2
      have hp2 : p ∉ q :: ps := (List.nodup_cons.1 hn).1
      obtain ⟨m', e1, e2, e3⟩ := ih q ps fuel { m with t := m2 } (by simp at hf; omega) hn2 (by
        simp only [List.map_cons, List.cons.injEq]
        refine ⟨r2, ?_⟩
        rw [← hvs]
        apply List.map_congr_left
        intro a ha
        have h1 : a ≠ q := fun e => (List.nodup_cons.1 hn2).1 (e ▸ ha)
        have h2 : a ≠ p := fun e => hp2 (by rw [← e]; exact List.mem_cons_of_mem _ ha)
        rw [f2 a h1, f1 a h2])
      refine ⟨m', ?_, ?_, ?_⟩
      · simp only [rotateWith, listNext, Exec.ok_bind, List.head?_cons, List.tail_cons,
          Mem.swapCells, hp, hq, w1, w2]
        exact e1
      · simp only [List.map_cons, List.cons_append, List.cons.injEq]
        refine ⟨?_, by simpa using e2⟩
        rw [e3 p hp2]
        show m2.read p = _
        rw [f2 p (Ne.symm hpq), r1]
      · intro a ha
        simp only [List.mem_cons, not_or] at ha
        rw [e3 a (by simp [ha])]
        show m2.read a = _
        rw [f2 a ha.2.1, f1 a ha.1]

/-- The hypotheses hold for the addresses of a three-element deque. -/
example : (do
    let (_, d, m) ← Deque.history exampleEnv
      [.pushBack 1, .pushBack 2, .pushBack 3] ⟨Mem.empty, Mem.empty⟩
    let ps ← d.addrs exampleEnv m
    let m' ← rotateWith listNext listNext 5 ps ps.tail m
    let a ← ps.mapM (fun p => m.t.read p)
    let b ← ps.mapM (fun p => m'.t.read p)
    .ok (a, b, decide ps.Nodup)) = (.ok ([1, 2, 3], [2, 3, 1], true) : Exec _) := rfl

end Verif
