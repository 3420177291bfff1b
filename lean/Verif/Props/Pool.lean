import Verif.Pool.Overflow
import Verif.Props.LinkedList

/-!
# Properties of `FixedPool`, `FixedPoolWithOverflow` and `FixedList` (C41–C44)

`size` and `align` are the layout of the node type; `mem` and `len` the memory given to `init`.
-/

set_option autoImplicit false

namespace Verif
open Spec

variable {N D σ : Type}

/-- One call on an allocator of single nodes.  The state includes the nodes in use, most recent
first; the result is the address returned, if the call was an allocation. -/
def poolStep (A : NAlloc N D σ) (size align : Nat) :
    PoolOp → σ × NMem N D × List Nat → Exec (Option Nat × σ × NMem N D × List Nat)
  | .alloc, (s, m, live) => do
    let (p, s, m) ← A.alloc size align s m
    .ok (some p, s, m, if p = 0 then live else p :: live)
  | .free k, (s, m, live) =>
    match live[k]? with
    | none => .ok (none, s, m, live)
    | some p => do
      let (s, m) ← A.dealloc p size align s m
      .ok (none, s, m, live.erase p)

/-- A history of calls; the addresses returned by the allocations, in order. -/
def poolRun (A : NAlloc N D σ) (size align : Nat) :
    List PoolOp → σ × NMem N D × List Nat → Exec (List Nat × σ × NMem N D × List Nat)
  | [], st => .ok ([], st)
  | op :: ops, st => do
    let (o, st) ← poolStep A size align op st
    let (os, st) ← poolRun A size align ops st
    .ok (o.toList ++ os, st)

variable {size align mem len : Nat}

/-- State of a pool during a history: what is in use, what was ever handed out. -/
theorem pool_run (u : N) {start c : Nat} (ops : List PoolOp) {s : Pool} {m : NMem N D}
    {live fs : List Nat} {k : Nat} (h : PoolInv start size c s m live fs k) :
    ∃ os s' m' live' fs' k',
      poolRun (poolNAlloc u size align) size align ops (s, m, live) = .ok (os, s', m', live') ∧
      PoolInv start size c s' m' live' fs' k' ∧ m'.reg = m.reg ∧ m'.dropped = m.dropped ∧
      (∀ q, ¬ (start ≤ q ∧ q < start + c * size) → m'.node q = m.node q) ∧
      (∀ p, p ∈ live' ++ fs' ↔ p ∈ live ++ fs ∨ (p ∈ os ∧ p ≠ 0)) := by
  induction ops generalizing s m live fs k with
  | nil => exact ⟨[], s, m, live, fs, k, rfl, h, rfl, rfl, fun _ _ => rfl, by simp⟩
  | cons op ops ih =>
    have hpos := h.pos
    cases op with
    | alloc =>
      have step : ∃ p s1 m1 live1 fs1 k1,
          poolStep (poolNAlloc u size align) size align .alloc (s, m, live) =
            .ok (some p, s1, m1, live1) ∧
          PoolInv start size c s1 m1 live1 fs1 k1 ∧ m1.reg = m.reg ∧ m1.dropped = m.dropped ∧
          (∀ q, ¬ (start ≤ q ∧ q < start + c * size) → m1.node q = m.node q) ∧
          (∀ q, q ∈ live1 ++ fs1 ↔ q ∈ live ++ fs ∨ (q = p ∧ p ≠ 0)) := by
        cases fs with
        | cons f fs =>
          obtain ⟨s1, m1, e1, e2, e3, e4, _, e6, _⟩ := h.alloc_free u align
          have hf0 := h.ne_zero (p := f) (by simp)
          have hb := h.bounds (p := f) (by simp)
          refine ⟨f, s1, m1, f :: live, fs, k, by simp [poolStep, e1, hf0], e6, e3, e4, ?_, ?_⟩
          · intro q hq
            rw [e2, Function.update_of_ne]
            rintro rfl; exact hq ⟨hb.1, by omega⟩
          · intro q
            simp only [List.cons_append, List.mem_cons, List.mem_append]
            constructor
            · rintro (rfl | h | h)
              · exact Or.inl (Or.inr (Or.inl rfl))
              · exact Or.inl (Or.inl h)
              · exact Or.inl (Or.inr (Or.inr h))
            · rintro ((h | h | h) | ⟨h, _⟩)
              · exact Or.inr (Or.inl h)
              · exact Or.inl h
              · exact Or.inr (Or.inr h)
              · exact Or.inl h
        | nil =>
          by_cases hk : k < c
          · obtain ⟨s1, m1, e1, e2, e3, e4, _, _, e7, _⟩ := h.alloc_fresh hk u align
            have hf0 := e7.ne_zero (p := start + k * size) (by simp)
            have hb := e7.bounds (p := start + k * size) (by simp)
            refine ⟨start + k * size, s1, m1, (start + k * size) :: live, [], k + 1, ?_, e7, e3, e4,
              ?_, ?_⟩
            · simp only [poolStep, e1, Exec.ok_bind]; rw [if_neg hf0]
            · intro q hq
              rw [e2, Function.update_of_ne]
              rintro rfl; exact hq ⟨hb.1, by omega⟩
            · intro q
              simp only [List.append_nil, List.mem_cons]
              constructor
              · rintro (h | h)
                · exact Or.inr ⟨h, hf0⟩
                · exact Or.inl h
              · rintro (h | ⟨h, _⟩)
                · exact Or.inr h
                · exact Or.inl h
          · have hkc : k = c := by have := h.le; omega
            have h' := h
            rw [hkc] at h'
            exact ⟨0, s, m, live, [], k, by simp [poolStep, h'.alloc_full u align], h, rfl, rfl,
              fun _ _ => rfl, by simp⟩
      obtain ⟨p, s1, m1, live1, fs1, k1, e1, e2, e3, e4, e5, e6⟩ := step
      obtain ⟨os, s2, m2, live2, fs2, k2, f1, f2, f3, f4, f5, f6⟩ := ih e2
      refine ⟨p :: os, s2, m2, live2, fs2, k2, by simp [poolRun, e1, f1], f2, f3.trans e3,
        f4.trans e4, fun q hq => (f5 q hq).trans (e5 q hq), ?_⟩
      intro q
      rw [f6, e6]
      simp only [List.mem_cons]
      constructor
      · rintro ((h | ⟨h1, h2⟩) | ⟨h1, h2⟩)
        · exact Or.inl h
        · exact Or.inr ⟨Or.inl h1, by rw [h1]; exact h2⟩
        · exact Or.inr ⟨Or.inr h1, h2⟩
      · rintro (h | ⟨h1 | h1, h2⟩)
        · exact Or.inl (Or.inl h)
        · exact Or.inl (Or.inr ⟨h1, by rw [← h1]; exact h2⟩)
        · exact Or.inr ⟨h1, h2⟩
    | free j =>
      cases hj : live[j]? with
      | none =>
        obtain ⟨os, s2, m2, live2, fs2, k2, f1, f2⟩ := ih h
        exact ⟨os, s2, m2, live2, fs2, k2, by simp [poolRun, poolStep, hj, f1], f2⟩
      | some p =>
        have hp : p ∈ live := List.mem_of_getElem? hj
        obtain ⟨s1, m1, e1, e2, e3, e4, e5, _⟩ := h.free u align size align hp
        have hb := h.bounds (List.mem_append_left fs hp)
        obtain ⟨os, s2, m2, live2, fs2, k2, f1, f2, f3, f4, f5, f6⟩ := ih e5
        refine ⟨os, s2, m2, live2, fs2, k2, by simp [poolRun, poolStep, hj, e1, f1], f2,
          f3.trans e3, f4.trans e4, ?_, ?_⟩
        · intro q hq
          rw [f5 q hq, e2, Function.update_of_ne]
          rintro rfl; exact hq ⟨hb.1, by omega⟩
        · intro q
          rw [f6, List.perm_middle.mem_iff, ← List.cons_append,
            ((List.perm_cons_erase hp).symm.append_right fs).mem_iff]

/-- A pool created on `len` bytes at `mem` and put through the calls `ops`. -/
def poolHistory (u : N) (size align mem len : Nat) (ops : List PoolOp) (m0 : NMem N D) :
    Exec (List Nat × Pool × NMem N D × List Nat) := do
  let s ← Pool.init size align mem len
  poolRun (poolNAlloc u size align) size align ops (s, m0, [])

theorem pool_history_ok {u : N} {ops : List PoolOp} {m0 m : NMem N D} {os live : List Nat}
    {s : Pool} (hm : mem ≠ 0) (hn : ∀ q, mem ≤ q → q < mem + len → m0.node q = none)
    (h : poolHistory u size align mem len ops m0 = .ok (os, s, m, live)) :
    ∃ fs k, (∃ j, align = 2 ^ j) ∧ roundUp align mem ≤ mem + len ∧
      PoolInv (roundUp align mem) size (roomFor size align mem len) s m live fs k ∧
      m.reg = m0.reg ∧ m.dropped = m0.dropped ∧
      (∀ q, ¬ (mem ≤ q ∧ q < mem + len) → m.node q = m0.node q) ∧
      (∀ p, p ∈ live ++ fs ↔ p ∈ os ∧ p ≠ 0) := by
  unfold poolHistory at h
  obtain ⟨s0, h1, h2⟩ := Exec.bind_ok h
  have hi : PoolInv _ _ _ s0 m0 [] [] 0 := PoolInv.init h1 hm hn
  obtain ⟨hk, _, hl, _⟩ := Pool.init_ok h1
  obtain ⟨os', s', m', live', fs, k, e1, e2, e3, e4, e5, e6⟩ := pool_run (align := align) u ops hi
  rw [e1] at h2
  simp only [Except.ok.injEq, Prod.mk.injEq] at h2
  obtain ⟨rfl, rfl, rfl, rfl⟩ := h2
  refine ⟨fs, k, hk, hl, e2, e3, e4, ?_, by simpa using e6⟩
  intro q hq
  apply e5
  rintro ⟨h1, h2⟩
  obtain ⟨j, hj⟩ := hk
  have hpos : 0 < align := by rw [hj]; exact Nat.pos_of_ne_zero (by simp)
  have hge := roundUp_ge hpos mem
  have : roomFor size align mem len * size ≤ mem + len - roundUp align mem :=
    Nat.div_mul_le_self _ _
  exact hq ⟨by omega, by omega⟩

/-! ## C41 -/

/-- C41.  `init` succeeds exactly if the alignment is a power of two, a node can hold a pointer,
and the memory reaches the first aligned address; then every history runs without panic and
without touching memory it does not own. -/
theorem C41_pool_runs (u : N) (ops : List PoolOp) (m0 : NMem N D)
    (ho : mem + align ≤ 2 ^ 64) (hm : mem ≠ 0)
    (hn : ∀ q, mem ≤ q → q < mem + len → m0.node q = none) :
    (∃ os s m live, poolHistory u size align mem len ops m0 = .ok (os, s, m, live)) ↔
      (∃ k, align = 2 ^ k) ∧ 8 ≤ size ∧ roundUp align mem ≤ mem + len := by
  constructor
  · rintro ⟨os, s, m, live, h⟩
    unfold poolHistory at h
    obtain ⟨s0, h1, h2⟩ := Exec.bind_ok h
    obtain ⟨hk, h8, hl, _⟩ := Pool.init_ok h1
    exact ⟨hk, h8, hl⟩
  · rintro ⟨hk, h8, hl⟩
    obtain ⟨s, hs⟩ := Pool.init_total hk ho h8 hl
    have hi : PoolInv _ _ _ s m0 [] [] 0 := PoolInv.init hs hm hn
    obtain ⟨os', s', m', live', fs, k, e1, _⟩ := pool_run (align := align) u ops hi
    exact ⟨os', s', m', live', by simp [poolHistory, hs, e1]⟩

/-- C41.  After any history of allocations and deallocations, every node in use is aligned, lies
inside the memory given to `init`, is accessible, and overlaps no other node in use; memory
outside was not touched. -/
theorem C41_pool_nodes_disjoint {u : N} {ops : List PoolOp} {m0 m : NMem N D} {os live : List Nat}
    {s : Pool} (hd : align ∣ size) (hm : mem ≠ 0)
    (hn : ∀ q, mem ≤ q → q < mem + len → m0.node q = none)
    (h : poolHistory u size align mem len ops m0 = .ok (os, s, m, live)) :
    (∀ p ∈ live, align ∣ p ∧ mem ≤ p ∧ p + size ≤ mem + len ∧ m.node p ≠ none) ∧
      (∀ p ∈ live, ∀ q ∈ live, p ≠ q → p + size ≤ q ∨ q + size ≤ p) ∧ live.Nodup ∧
      (∀ q, ¬ (mem ≤ q ∧ q < mem + len) → m.node q = m0.node q) := by
  obtain ⟨fs, k, ⟨j, hj⟩, hl, hi, _, _, h6, _⟩ := pool_history_ok hm hn h
  have hpos : 0 < align := by rw [hj]; exact Nat.pos_of_ne_zero (by simp)
  have hge := roundUp_ge hpos mem
  have hr : roomFor size align mem len * size ≤ mem + len - roundUp align mem :=
    Nat.div_mul_le_self _ _
  refine ⟨?_, fun p hp q hq => hi.disjoint hp hq, (List.nodup_append.1 hi.nodup).1, h6⟩
  intro p hp
  have hb := hi.bounds (List.mem_append_left fs hp)
  refine ⟨?_, by omega, by omega, hi.live p hp⟩
  obtain ⟨i, _, rfl⟩ := hi.slot (List.mem_append_left fs hp)
  exact Nat.dvd_add (dvd_roundUp align mem) (Nat.dvd_mul_left_of_dvd hd i)

/-- The hypotheses hold of a pool on 70 unaligned bytes: three nodes of 16 bytes, the second of
which is freed and reused. -/
example : (do
    let (os, s, _, live) ← poolHistory (N := Unit) (D := Unit) () 16 16 41 70
      [.alloc, .alloc, .alloc, .alloc, .free 1, .alloc, .alloc] NMem.empty
    .ok (os, s.canAllocate, live)) =
  (.ok ([48, 64, 80, 0, 64, 0], false, [64, 80, 48]) : Exec _) := by decide +kernel

/-! ## C42 -/

/-- C42.  After any history, `can_allocate` tells whether fewer nodes than the memory holds are in
use, and the next allocation returns null exactly if it does not.  If some node handed out before
is free, such a node is reused; a node never used before is returned only if none is free. -/
theorem C42_pool_capacity_exact {u : N} {ops : List PoolOp} {m0 m : NMem N D} {os live : List Nat}
    {s : Pool} (hm : mem ≠ 0)
    (hn : ∀ q, mem ≤ q → q < mem + len → m0.node q = none)
    (h : poolHistory u size align mem len ops m0 = .ok (os, s, m, live)) :
    live.length ≤ roomFor size align mem len ∧
    s.canAllocate = decide (live.length < roomFor size align mem len) ∧
    ∃ p s' m', (poolNAlloc u size align).alloc size align s m = .ok (p, s', m') ∧
      (p = 0 ↔ live.length = roomFor size align mem len) ∧
      (p ≠ 0 → p ∉ live) ∧
      ((∃ q ∈ os, q ≠ 0 ∧ q ∉ live) → p ∈ os ∧ p ≠ 0) := by
  obtain ⟨fs, k, _, hl, hi, _, _, h6, h7⟩ := pool_history_ok hm hn h
  have hlen := hi.length
  have hle := hi.le
  have hnd := List.nodup_append.1 hi.nodup
  refine ⟨by omega, hi.canAllocate, ?_⟩
  cases fs with
  | cons f fs =>
    obtain ⟨s', m', e1, _⟩ := hi.alloc_free u align
    have hf := h7 f
    simp only [List.mem_append, List.mem_cons, true_or, or_true, true_iff] at hf
    simp only [List.length_cons] at hlen
    refine ⟨f, s', m', e1, ⟨fun e => absurd e hf.2, fun e => by omega⟩, ?_, fun _ => hf⟩
    exact fun _ hm => hnd.2.2 f hm f (by simp) rfl
  | nil =>
    simp only [List.length_nil, Nat.add_zero] at hlen
    have hno : ¬ ∃ q ∈ os, q ≠ 0 ∧ q ∉ live := by
      rintro ⟨q, hq1, hq2, hq3⟩
      have := (h7 q).2 ⟨hq1, hq2⟩
      simp only [List.append_nil] at this
      exact hq3 this
    by_cases hk : k < roomFor size align mem len
    · obtain ⟨s', m', e1, _, _, _, _, e6, e7, _⟩ := hi.alloc_fresh hk u align
      have hf0 := e7.ne_zero (p := roundUp align mem + k * size) (by simp)
      refine ⟨_, s', m', e1, ⟨fun e => absurd e hf0, fun e => by omega⟩, fun _ => e6,
        fun e => absurd e hno⟩
    · have hkc : k = roomFor size align mem len := by omega
      rw [hkc] at hi
      exact ⟨0, s, m, hi.alloc_full u align, ⟨fun _ => by omega, fun _ => rfl⟩,
        fun e => absurd rfl e, fun e => absurd e hno⟩

/-- C42.  The node freed last is the first to be handed out again. -/
theorem C42_pool_lifo {u : N} {ops : List PoolOp} {m0 m : NMem N D} {os live : List Nat}
    {s : Pool} (hm : mem ≠ 0)
    (hn : ∀ q, mem ≤ q → q < mem + len → m0.node q = none)
    (h : poolHistory u size align mem len ops m0 = .ok (os, s, m, live)) {p : Nat}
    (hp : p ∈ live) :
    ∃ s1 m1 s2 m2, (poolNAlloc u size align).dealloc p size align s m = .ok (s1, m1) ∧
      (poolNAlloc u size align).alloc size align s1 m1 = .ok (p, s2, m2) := by
  obtain ⟨fs, k, _, hl, hi, _⟩ := pool_history_ok hm hn h
  obtain ⟨s1, m1, e1, _, _, _, e5, _⟩ := hi.free u align size align hp
  obtain ⟨s2, m2, e2, _⟩ := e5.alloc_free u align
  exact ⟨s1, m1, s2, m2, e1, e2⟩

/-- C42 in a case: of three nodes two are in use; the one freed last is handed out next. -/
example : roomFor 16 16 41 70 = 3 ∧ (do
    let (os, s, m, live) ← poolHistory (N := Unit) (D := Unit) () 16 16 41 70
      [.alloc, .alloc, .alloc, .free 2, .free 0, .alloc] NMem.empty
    let (s1, m1) ← (poolNAlloc () 16 16).dealloc 80 16 16 s m
    let (p, _, _) ← (poolNAlloc () 16 16).alloc 16 16 s1 m1
    .ok (os, s.canAllocate, live, p)) =
  (.ok ([48, 64, 80, 80], true, [80, 64], 80) : Exec _) := by decide +kernel

/-! ## C43 -/

/-- A pool with overflow created on `len` bytes at `mem` and put through the calls `ops`. -/
def opoolHistory (P : Placer N D) (u : N) (size align mem len : Nat) (ops : List PoolOp)
    (m0 : NMem N D) : Exec (List Nat × OPool × NMem N D × List Nat) := do
  let s ← OPool.init size align mem len
  poolRun (opoolNAlloc u size align (defaultNAlloc P u false)) size align ops (s, m0, [])

/-- Whether an address is one of the pool's node slots. -/
def inSlots (size align mem len p : Nat) : Prop :=
  roundUp align mem ≤ p ∧ p < roundUp align mem + roomFor size align mem len * size

theorem opool_history (P : Placer N D) (u : N) {s0 : OPool} {m0 : NMem N D} {obj : Nat}
    {r : Range} (hi : OPool.init size align mem len = .ok s0) (hm : mem ≠ 0) (hwf : m0.WF)
    (hn : ∀ q, mem ≤ q → q < mem + len → m0.node q = none)
    (hr : m0.reg obj = some r) (hobj : obj ≤ mem)
    (hend : roundUp align mem + roomFor size align mem len * size < obj + r.size)
    (ops : List PoolOp) :
    ∃ os s m live, opoolHistory P u size align mem len ops m0 = .ok (os, s, m, live) ∧
      OInv m0 mem (roundUp align mem) size align (roomFor size align mem len) s m live := by
  have R := Room.of_init hi hn hr hobj hend
  have L := OInv.law (align := align) R P u size align
  have h0 := OInv.init hi hm hwf hn
  have key : ∀ (ops : List PoolOp) (s : OPool) (m : NMem N D) (live : List Nat),
      OInv m0 mem (roundUp align mem) size align (roomFor size align mem len) s m live →
      ∃ os s' m' live', poolRun (opoolNAlloc u size align (defaultNAlloc P u false)) size align ops
          (s, m, live) = .ok (os, s', m', live') ∧
        OInv m0 mem (roundUp align mem) size align (roomFor size align mem len) s' m' live' := by
    intro ops
    induction ops with
    | nil => intro s m live h; exact ⟨[], s, m, live, rfl, h⟩
    | cons op ops ih =>
      intro s m live h
      cases op with
      | alloc =>
        obtain ⟨p, s1, m1, e1, e2, _, _, _, e6⟩ := L.alloc h
        obtain ⟨os, s2, m2, live2, f1, f2⟩ := ih _ _ _ e6
        exact ⟨p :: os, s2, m2, live2, by simp [poolRun, poolStep, e1, e2, f1], f2⟩
      | free j =>
        cases hj : live[j]? with
        | none =>
          obtain ⟨os, s2, m2, live2, f1, f2⟩ := ih _ _ _ h
          exact ⟨os, s2, m2, live2, by simp [poolRun, poolStep, hj, f1], f2⟩
        | some p =>
          obtain ⟨s1, m1, e1, _, _, e6⟩ := L.dealloc h (List.mem_of_getElem? hj)
          obtain ⟨os, s2, m2, live2, f1, f2⟩ := ih _ _ _ e6
          exact ⟨os, s2, m2, live2, by simp [poolRun, poolStep, hj, e1, f1], f2⟩
  obtain ⟨os, s, m, live, e1, e2⟩ := key ops s0 m0 [] h0
  exact ⟨os, s, m, live, by simp [opoolHistory, hi, e1], e2⟩

instance (p : Nat) : Decidable (inSlots size align mem len p) := by unfold inSlots; infer_instance

/-- The overflow allocator's view of a step that leaves the pool alone. -/
theorem OInvAt.reg_eq {m0 m m' mB : NMem N D} {lo start c : Nat} {s s' : OPool}
    {pp pp' qs fs fs' : List Nat} {k k' : Nat} {p : Nat}
    (h : OInvAt m0 lo start size align c s m pp qs fs k mB)
    (h' : OInvAt m0 lo start size align c s' m' pp' (p :: qs) fs' k' mB) :
    m.reg p = none ∧ m'.reg p = some ⟨size, align, true⟩ ∧ ∀ a, a ≠ p → m'.reg a = m.reg a := by
  have hp := h'.over.ins p (by simp)
  have hpq : p ∉ qs := (List.nodup_cons.1 h'.over.nodup).1
  refine ⟨by rw [h.over.out p hpq]; exact hp.1, hp.2, fun a ha => ?_⟩
  by_cases haq : a ∈ qs
  · rw [(h.over.ins a haq).2, (h'.over.ins a (by simp [haq])).2]
  · rw [h.over.out a haq, h'.over.out a (by simp [ha, haq])]

/-- C43, when the memory of the pool is followed by at least one more byte of the object it is
part of (as in `FixedList` and `FixedMap`).  After any history:
- an allocation comes from the pool exactly if fewer of its slots are in use than it has, and
  then the overflow allocator is not called; otherwise it is a new block of the overflow
  allocator;
- a deallocation goes to the pool exactly if the node is one of its slots: then the overflow
  allocator is not called and the next allocation returns the slot again; otherwise the block is
  returned to the overflow allocator.
Missing: pools whose memory extends to the very end of its object, see
`C43_overflow_misroutes`. -/
theorem C43_overflow_routes_partial (P : Placer N D) (u : N) {m0 : NMem N D} {obj : Nat}
    {r : Range} (hm : mem ≠ 0) (hwf : m0.WF)
    (hn : ∀ q, mem ≤ q → q < mem + len → m0.node q = none)
    (hr : m0.reg obj = some r) (hobj : obj ≤ mem)
    (hend : roundUp align mem + roomFor size align mem len * size < obj + r.size)
    {ops : List PoolOp} {os live : List Nat} {s : OPool} {m : NMem N D}
    (h : opoolHistory P u size align mem len ops m0 = .ok (os, s, m, live)) :
    (∃ p s' m', (opoolNAlloc u size align (defaultNAlloc P u false)).alloc size align s m =
        .ok (p, s', m') ∧ p ≠ 0 ∧ p ∉ live ∧
      (inSlots size align mem len p ↔
        live.countP (inSlots size align mem len) < roomFor size align mem len) ∧
      (inSlots size align mem len p → m'.reg = m.reg ∧
        ∃ i, i < roomFor size align mem len ∧ p = roundUp align mem + i * size) ∧
      (¬ inSlots size align mem len p → m.reg p = none ∧
        m'.reg p = some ⟨size, align, true⟩ ∧ ∀ a, a ≠ p → m'.reg a = m.reg a)) ∧
    (∀ p ∈ live, ∃ s' m',
      (opoolNAlloc u size align (defaultNAlloc P u false)).dealloc p size align s m =
        .ok (s', m') ∧
      (inSlots size align mem len p → m'.reg = m.reg ∧ ∃ s2 m2,
        (opoolNAlloc u size align (defaultNAlloc P u false)).alloc size align s' m' =
          .ok (p, s2, m2)) ∧
      (¬ inSlots size align mem len p →
        m'.reg p = none ∧ ∀ a, a ≠ p → m'.reg a = m.reg a)) := by
  have hinit : ∃ s0, OPool.init size align mem len = .ok s0 := by
    unfold opoolHistory at h
    obtain ⟨s0, h1, _⟩ := Exec.bind_ok h
    exact ⟨s0, h1⟩
  obtain ⟨s0, hi⟩ := hinit
  have R := Room.of_init hi hn hr hobj hend
  obtain ⟨os', s', m', live', e1, pp, qs, fs, k, mB, hp, hI⟩ :=
    opool_history P u hi hm hwf hn hr hobj hend ops
  rw [h] at e1
  simp only [Except.ok.injEq, Prod.mk.injEq] at e1
  obtain ⟨_, rfl, rfl, rfl⟩ := e1
  have hcount : live.countP (inSlots size align mem len) = pp.length := hI.inline_eq R hp
  have hpos := hI.pool.pos
  have hin : ∀ p ∈ pp, inSlots size align mem len p := by
    intro p hp
    have := hI.pool.bounds (List.mem_append_left fs hp)
    exact ⟨this.1, by omega⟩
  have hout : ∀ (qs' : List Nat) (pp' fs' : List Nat) (k' : Nat) (s' : OPool) (m' : NMem N D),
      OInvAt m0 mem (roundUp align mem) size align (roomFor size align mem len) s' m' pp' qs' fs'
        k' mB → ∀ q ∈ qs', ¬ inSlots size align mem len q := by
    intro qs' pp' fs' k' s' m' h' q hq hs
    have h1 := R.lo_le
    have h2 := R.obj_le
    have h3 := R.lt
    rcases h'.over_outside R hq with h' | h' <;> have := hs.1 <;> have := hs.2 <;> omega
  have hlive : ∀ p ∈ pp ++ qs, m.node p ≠ none := by
    intro p hp
    rcases List.mem_append.1 hp with hp | hp
    · exact hI.pool.live p hp
    · exact (hI.over.live p hp).2
  constructor
  · obtain ⟨p, s', m', e1, e2, e3, e4, e5, e6⟩ := hI.alloc R P u
    refine ⟨p, s', m', e1, e2, fun hm => hlive p (hp.mem_iff.1 hm) e3, ?_⟩
    rw [hcount]
    rcases e6 with ⟨hlt, hreg, fs', k', mB', h'⟩ | ⟨heq, h'⟩
    · have hs : inSlots size align mem len p := by
        have := h'.pool.bounds (p := p) (by simp)
        exact ⟨this.1, by omega⟩
      obtain ⟨i, hi', hpi⟩ := h'.pool.slot (p := p) (by simp)
      exact ⟨⟨fun _ => hlt, fun _ => hs⟩,
        fun _ => ⟨hreg, i, Nat.lt_of_lt_of_le hi' h'.pool.le, hpi⟩, fun e => absurd hs e⟩
    · have hs := hout _ _ _ _ _ _ h' p (by simp)
      exact ⟨⟨fun e => absurd e hs, fun e => by omega⟩, fun e => absurd e hs,
        fun _ => hI.reg_eq h'⟩
  · intro p hpl
    obtain ⟨s', m', e1, e2, e3, e4⟩ := hI.dealloc R P u size align (hp.mem_iff.1 hpl)
    refine ⟨s', m', e1, ?_⟩
    rcases e4 with ⟨hpp, hreg, mB', h'⟩ | ⟨hq, hnp, h'⟩
    · refine ⟨fun _ => ⟨hreg, ?_⟩, fun e => absurd (hin p hpp) e⟩
      obtain ⟨s2, m2, f1, _⟩ := h'.pool.alloc_free u align
      have hf0 := h'.pool.ne_zero (p := p) (by simp)
      exact ⟨{ s' with pool := s2 }, m2, by simp [opoolNAlloc, f1, hf0]⟩
    · refine ⟨fun e => absurd e (hout _ _ _ _ _ _ hI p hq), fun _ => ?_⟩
      have hr' := h'.over.out p (fun hm => (hI.over.nodup.mem_erase_iff.1 hm).1 rfl)
      refine ⟨by rw [hr']; exact (hI.over.ins p hq).1, fun a ha => ?_⟩
      by_cases haq : a ∈ qs
      · rw [(hI.over.ins a haq).2, (h'.over.ins a ((List.mem_erase_of_ne ha).2 haq)).2]
      · rw [hI.over.out a haq, h'.over.out a fun hm => haq (List.mem_of_mem_erase hm)]

/-- Memory with one object of 64 bytes at 64. -/
def examplePoolMem : NMem Unit Unit where
  node _ := none
  link _ := none
  reg a := if a = 64 then some ⟨64, 16, false⟩ else none
  top := 128
  top_ok := by intro a r h; split_ifs at h with h'; cases h; subst h'; decide
  dropped := []

theorem examplePoolMem_wf : examplePoolMem.WF where
  disj a b r r' h1 h2 hne := by
    unfold examplePoolMem at h1 h2
    dsimp only at h1 h2
    split_ifs at h1 h2
    omega
  cover q hq := absurd rfl hq
  null a r h := by
    unfold examplePoolMem at h
    dsimp only at h
    split_ifs at h
    omega

/-- The hypotheses of C43 hold of a pool of two nodes in the middle of the object; the third
node overflows. -/
example : roundUp 16 80 + roomFor 16 16 80 32 * 16 < 64 + 64 ∧ examplePoolMem.WF ∧
    (do
      let (os, _, _, live) ← opoolHistory Placer.bump () 16 16 80 32
        [.alloc, .alloc, .alloc, .free 2, .free 0, .alloc, .alloc] examplePoolMem
      .ok (os.map (fun p => decide (inSlots 16 16 80 32 p)), live.length)) =
    (.ok ([true, true, false, true, false], 3) : Exec _) :=
  ⟨by decide, examplePoolMem_wf, by decide +kernel⟩

/-- C43 fails when the memory of the pool reaches to the end of its object: the overflow allocator
may return the address just behind it, which is where the pool ends.  Freeing that block does
not return it to the overflow allocator (it stays in use for ever), and the pool hands it out
again although it is outside its memory. -/
theorem C43_overflow_misroutes (P : Placer N D) (u : N) (s : OPool) (m : NMem N D)
    (hlive : m.node s.pool.capacity ≠ none) (h0 : s.pool.capacity ≠ 0)
    (hb : s.poolBegin ≤ s.pool.capacity) :
    ∃ s1 m1 s2 m2,
      (opoolNAlloc u size align (defaultNAlloc P u false)).dealloc s.pool.capacity size align s m =
        .ok (s1, m1) ∧ m1.reg = m.reg ∧
      (opoolNAlloc u size align (defaultNAlloc P u false)).alloc size align s1 m1 =
        .ok (s.pool.capacity, s2, m2) := by
  obtain ⟨n, hn⟩ := Option.ne_none_iff_exists'.1 hlive
  refine ⟨⟨{ s.pool with head := s.pool.capacity }, s.poolBegin⟩,
    (m.setNode s.pool.capacity none).setLink s.pool.capacity (some s.pool.head),
    ⟨s.pool, s.poolBegin⟩, (((m.setNode s.pool.capacity none).setLink s.pool.capacity
      (some s.pool.head)).setLink s.pool.capacity none).setNode s.pool.capacity (some u), ?_, rfl,
    ?_⟩
  · simp only [opoolNAlloc]
    rw [if_pos ⟨hb, Nat.le_refl _⟩]
    simp [poolNAlloc, h0, hn]
  · simp only [opoolNAlloc, poolNAlloc, ne_eq, not_true_eq_false, or_self, if_false, h0,
      not_false_eq_true, if_true, NMem.setLink, Function.update_self, Exec.ok_bind]

open Classical in
/-- An allocator that uses address `x` whenever it is free. -/
noncomputable def Placer.prefer (x : Nat) (N D : Type) : Placer N D :=
  let ok (m : NMem N D) (b a : Nat) : Prop := x ≠ 0 ∧ a ∣ x ∧ m.reg x = none ∧
    ∀ (y : Nat) (r : Range), m.reg y = some r → y + r.size ≤ x ∨ x + b ≤ y
  { pick := fun m b a => if ok m b a then x else Placer.bump.pick m b a
    pos := by intro m b a; split_ifs with h; exacts [h.1, Placer.bump.pos m b a]
    aligned := by intro m b a ha; split_ifs with h; exacts [h.2.1, Placer.bump.aligned m b a ha]
    fresh := by intro m b a; split_ifs with h; exacts [h.2.2.1, Placer.bump.fresh m b a]
    disj := by
      intro m b a y r hr
      split_ifs with h
      exacts [h.2.2.2 y r hr, Placer.bump.disj m b a y r hr] }

/-- C43 fails on a reachable state: a pool of one node in the last 16 bytes of an object; the
second allocation is the block just behind it. -/
theorem C43_overflow_misroutes_reachable :
    ∃ (P : Placer Unit Unit) (os : List Nat) (s : OPool) (m : NMem Unit Unit) (live : List Nat),
      opoolHistory P () 16 16 112 16 [.alloc, .alloc] examplePoolMem = .ok (os, s, m, live) ∧
      s.pool.capacity = 128 ∧ live = [128, 112] ∧ m.node s.pool.capacity ≠ none ∧
      s.poolBegin ≤ s.pool.capacity ∧ ¬ (112 ≤ 128 ∧ 128 < 112 + 16) := by
  have h1 : OPool.init 16 16 112 16 = .ok ⟨⟨0, 112, 128⟩, 112⟩ := by decide +kernel
  have h2 : (Placer.prefer 128 Unit Unit).pick (examplePoolMem.setNode 112 (some ())) 16 16 =
      128 := by
    unfold Placer.prefer
    dsimp only
    rw [if_pos]
    refine ⟨by decide, by decide, rfl, ?_⟩
    intro y r hr
    change (if y = 64 then some (⟨64, 16, false⟩ : Range) else none) = some r at hr
    split_ifs at hr with hy
    cases hr
    subst hy
    left; decide
  refine ⟨Placer.prefer 128 Unit Unit, [112, 128], ⟨⟨0, 128, 128⟩, 112⟩,
    ((examplePoolMem.setNode 112 (some ())).setReg 128 (some ⟨16, 16, true⟩)).setNode 128
      (some ()), [128, 112], ?_, rfl, rfl, ?_, ?_, ?_⟩
  · simp only [opoolHistory, h1, Exec.ok_bind, poolRun, poolStep, opoolNAlloc, poolNAlloc,
      defaultNAlloc, ne_eq, not_true_eq_false, or_self, if_false]
    simp [h2]
  · simp [NMem.setNode]
  · decide
  · decide

/-! ## C44 -/

section
variable {α : Type}

/-- `FixedList<T, N, DefaultAllocator>`. -/
def fixedListEnv (P : Placer (LNode α) α) (size align : Nat) (nd : Bool) : LEnv α OPool :=
  ⟨size, align, nd, opoolNAlloc LNode.uninit size align (defaultNAlloc P LNode.uninit false)⟩

/-- A fixed list created with its sentinel at `s` and its inline buffer of `len` bytes at `buf`,
and put through the calls `ops`. -/
def fixedListHistory (P : Placer (LNode α) α) (size align : Nat) (nd : Bool) (s buf len : Nat)
    (ops : List (ListOp α)) (m0 : LMem α) : Exec (List (Out α) × LList OPool × LMem α) := do
  let (l, m) ← fixedListNewIn size align s buf len m0
  l.run (fixedListEnv P size align nd) ops m

/-- A memory `m0` in which the object of a fixed list starts at `s` (with the sentinel) and its
inline buffer of `len` bytes is at `buf`, and the object does not end before the pool made from
the buffer. -/
structure FixedObj (m0 : LMem α) (size align s buf len : Nat) : Prop where
  wf : m0.WF
  sentinel : m0.node s ≠ none
  obj : ∃ r, m0.reg s = some r ∧
    roundUp align buf + roomFor size align buf len * size < s + r.size
  lt : s < buf
  free : ∀ q, buf ≤ q → q < buf + len → m0.node q = none
  pow : ∃ k, align = 2 ^ k
  word : 8 ≤ size
  addr : buf + align ≤ 2 ^ 64
  reach : roundUp align buf ≤ buf + len

/-- The object of `FixedList<T, N, _>` of src/fixed_list/mod.rs: an aligned buffer of exactly `n`
nodes followed by a padding node. -/
theorem FixedObj.plain {m0 : LMem α} {size align s buf n : Nat} (hwf : m0.WF)
    (hs : m0.node s ≠ none) {r : Range} (hr : m0.reg s = some r) (hlt : s < buf)
    (hpow : ∃ k, align = 2 ^ k) (h8 : 8 ≤ size) (ha : align ∣ buf) (haddr : buf + align ≤ 2 ^ 64)
    (hend : buf + n * size + size ≤ s + r.size)
    (hfree : ∀ q, buf ≤ q → q < buf + n * size → m0.node q = none) :
    FixedObj m0 size align s buf (n * size) ∧ roundUp align buf = buf ∧
      roomFor size align buf (n * size) = n := by
  obtain ⟨k, hk⟩ := hpow
  have hpos : 0 < align := by rw [hk]; exact Nat.pos_of_ne_zero (by simp)
  have hru := roundUp_of_dvd hpos ha
  have hroom : roomFor size align buf (n * size) = n := by
    unfold roomFor
    rw [hru, Nat.add_sub_cancel_left, Nat.mul_div_cancel _ (by omega)]
  exact ⟨⟨hwf, hs, ⟨r, hr, by rw [hru, hroom]; omega⟩, hlt, hfree, ⟨k, hk⟩, h8, haddr,
    by rw [hru]; omega⟩, hru, hroom⟩

/-- The object of the conformant `FixedList<T, N, _>` of src/fixed_list/conformant.rs: a buffer of
`(n + 1) * size - 1` bytes at an address that is a multiple of 8 (it follows pointers), but not
necessarily of the alignment of the nodes.  It holds `n` nodes as well. -/
theorem FixedObj.conformant {m0 : LMem α} {size align s buf n : Nat} (hwf : m0.WF)
    (hs : m0.node s ≠ none) {r : Range} (hr : m0.reg s = some r) (hlt : s < buf)
    (hpow : ∃ k, align = 2 ^ k) (h8 : 8 ≤ size) (ha : align ∣ size) (hb : 8 ∣ buf)
    (haddr : buf + align ≤ 2 ^ 64)
    (hend : buf + ((n + 1) * size - 1) ≤ s + r.size)
    (hfree : ∀ q, buf ≤ q → q < buf + ((n + 1) * size - 1) → m0.node q = none) :
    FixedObj m0 size align s buf ((n + 1) * size - 1) ∧
      roomFor size align buf ((n + 1) * size - 1) = n := by
  obtain ⟨k, hk⟩ := hpow
  have hpos : 0 < align := by rw [hk]; exact Nat.pos_of_ne_zero (by simp)
  have hle : align ≤ size := Nat.le_of_dvd (by omega) ha
  have h1 := roundUp_ge hpos buf
  have h2 := roundUp_lt hpos buf
  have hmul : (n + 1) * size = n * size + size := by rw [Nat.add_mul, Nat.one_mul]
  have hgap : roundUp align buf + 1 < buf + size := by
    by_cases h : align ∣ buf
    · rw [roundUp_of_dvd hpos h]; omega
    · -- then the alignment is a multiple of 8, so the gap is at most `align - 8`
      have h8a : 8 ∣ align := by
        rw [hk]
        rw [hk] at h
        by_cases hk3 : 3 ≤ k
        · exact Nat.pow_dvd_pow 2 hk3
        · exact absurd (Nat.dvd_trans (Nat.pow_dvd_pow 2 (show k ≤ 3 by omega)) hb) h
      have h3 : 8 ∣ roundUp align buf := Nat.dvd_trans h8a (dvd_roundUp align buf)
      omega
  have hroom : roomFor size align buf ((n + 1) * size - 1) = n := by
    unfold roomFor
    apply Nat.div_eq_of_lt_le <;> rw [hmul] <;> omega
  exact ⟨⟨hwf, hs, ⟨r, hr, by rw [hroom]; omega⟩, hlt, hfree, ⟨k, hk⟩, h8, haddr, by omega⟩, hroom⟩

theorem nodeInsert_reg {p q : Nat} {m m' : LMem α} (h : nodeInsert p q m = .ok m') :
    m'.reg = m.reg := by
  unfold nodeInsert at h
  obtain ⟨m1, h1, h⟩ := Exec.bind_ok h
  obtain ⟨a, _, h⟩ := Exec.bind_ok h
  obtain ⟨m2, h2, h⟩ := Exec.bind_ok h
  obtain ⟨b, _, h⟩ := Exec.bind_ok h
  obtain ⟨m3, h3, h⟩ := Exec.bind_ok h
  rw [modify_reg h, modify_reg h3, modify_reg h2, modify_reg h1]

/-- Of a push, only the allocation changes which ranges are in use. -/
theorem createNode_reg {E : LEnv α σ} {l l' : LList σ} {x : α} {m m' : LMem α} {p : Nat}
    (h : l.createNode E x m = .ok (p, l', m')) {q : Nat} {a : σ} {m1 : LMem α}
    (ha : E.A.alloc E.size E.align l.al m = .ok (q, a, m1)) : m'.reg = m1.reg := by
  unfold LList.createNode at h
  simp only [ha, Exec.ok_bind] at h
  split_ifs at h
  obtain ⟨m2, h2, h⟩ := Exec.bind_ok h
  simp only [Except.ok.injEq, Prod.mk.injEq] at h
  rw [← h.2.2, modify_reg h2]

theorem push_reg {E : LEnv α σ} {l l' : LList σ} {x : α} {m m' : LMem α} {front : Bool}
    (h : (if front then l.pushFront E x m else l.pushBack E x m) = .ok (l', m')) {q : Nat}
    {a : σ} {m1 : LMem α} (ha : E.A.alloc E.size E.align l.al m = .ok (q, a, m1)) :
    m'.reg = m1.reg := by
  cases front with
  | false =>
    simp only [Bool.false_eq_true, if_false, LList.pushBack] at h
    obtain ⟨⟨p, l2, m2⟩, h1, h⟩ := Exec.bind_ok h
    obtain ⟨m3, h2, h⟩ := Exec.bind_ok h
    simp only [Except.ok.injEq, Prod.mk.injEq] at h
    rw [← h.2, nodeInsert_reg h2, createNode_reg h1 ha]
  | true =>
    simp only [if_true, LList.pushFront] at h
    obtain ⟨⟨p, l2, m2⟩, h1, h⟩ := Exec.bind_ok h
    obtain ⟨_, _, h⟩ := Exec.bind_ok h
    obtain ⟨m3, h2, h⟩ := Exec.bind_ok h
    simp only [Except.ok.injEq, Prod.mk.injEq] at h
    rw [← h.2, nodeInsert_reg h2, createNode_reg h1 ha]

variable {size align s buf len : Nat} {m0 : LMem α}

theorem fixedList_history (P : Placer (LNode α) α) (nd : Bool)
    (h : FixedObj m0 size align s buf len) (ops : List (ListOp α)) :
    ∃ l m ps r, fixedListHistory P size align nd s buf len ops m0 =
        .ok ((ListOp.run ops []).1, l, m) ∧ l.head = s ∧
      Room m0 buf (roundUp align buf) size (roomFor size align buf len) s r ∧
      LRep (OInv m0 buf (roundUp align buf) size align (roomFor size align buf len)) m l ps
        (ListOp.run ops []).2 ∧
      m.dropped = m0.dropped ++ (if nd then ListOp.allDropped ops [] else []) ∧
      LKeep s [] m0 ps m := by
  obtain ⟨s0, hs0⟩ := Pool.init_total h.pow h.addr h.word h.reach
  have hi : OPool.init size align buf len = .ok ⟨s0, buf⟩ := by simp [OPool.init, hs0]
  obtain ⟨r, hr, hend⟩ := h.obj
  have R := Room.of_init hi h.free hr (Nat.le_of_lt h.lt) hend
  have L : LLaw (fixedListEnv P size align nd)
      (OInv m0 buf (roundUp align buf) size align (roomFor size align buf len)) :=
    OInv.law R P LNode.uninit (size * baseSize) baseAlign
  obtain ⟨l0, m1, e1, e2, e3, e4, e5⟩ := LRep.newIn (a := (⟨s0, buf⟩ : OPool)) h.sentinel L
    (OInv.init hi (by have := h.lt; omega) h.wf h.free)
  obtain ⟨l, m, ps, f1, f2, f3, f4, f5⟩ := LRep.run L ops e4
  have hnew : fixedListNewIn size align s buf len m0 = .ok (l0, m1) := by
    simp only [LList.newIn] at e1
    obtain ⟨m1', g1, g2⟩ := Exec.bind_ok e1
    simp only [Except.ok.injEq, Prod.mk.injEq] at g2
    obtain ⟨rfl, rfl⟩ := g2
    have : (⟨s, 0, OPool.withAllocator⟩ : LList OPool).initSentinel m0 = .ok m1' := g1
    simp [fixedListNewIn, this, hi]
  rw [e2] at f5
  exact ⟨l, m, ps, r, by simp [fixedListHistory, hnew, f1], f2.trans e2, R, f4, by rw [f3, e3]; rfl,
    e5.trans f5⟩

/-- C44.  A fixed list returns what a mathematical sequence returns, for every history, and
leaves all memory that is not its own untouched. -/
theorem C44_fixed_list_refines_sequence (P : Placer (LNode α) α) (nd : Bool)
    (h : FixedObj m0 size align s buf len) (ops : List (ListOp α)) :
    ∃ l m, fixedListHistory P size align nd s buf len ops m0 =
        .ok ((ListOp.run ops []).1, l, m) ∧
      ∀ z, z ≠ s → m0.node z ≠ none → m.node z = m0.node z := by
  obtain ⟨l, m, ps, r, h1, _, _, _, _, h6⟩ := fixedList_history P nd h ops
  exact ⟨l, m, h1, fun z hz hn => (h6 z hn (by simpa using hz)).2⟩

/-- C44.  After any history, a pushed element is put into an inline node exactly if not all inline
nodes are occupied; then, and only then, no block is allocated.  (`ps` are the addresses of the
elements; a pushed element is the last of `ps'`, or the first.) -/
theorem C44_fixed_list_inline_first (P : Placer (LNode α) α) (nd : Bool)
    (h : FixedObj m0 size align s buf len) {ops : List (ListOp α)} {outs : List (Out α)}
    {l : LList OPool} {m : LMem α}
    (hrun : fixedListHistory P size align nd s buf len ops m0 = .ok (outs, l, m)) (x : α)
    (front : Bool) :
    ∃ ps p l' m', l.addrs m = .ok ps ∧
      (if front then l.pushFront (fixedListEnv P size align nd) x m
        else l.pushBack (fixedListEnv P size align nd) x m) = .ok (l', m') ∧
      l'.addrs m' = .ok (if front then p :: ps else ps ++ [p]) ∧
      ps.countP (inSlots size align buf len) ≤ roomFor size align buf len ∧
      (inSlots size align buf len p ↔
        ps.countP (inSlots size align buf len) < roomFor size align buf len) ∧
      (inSlots size align buf len p ↔ m'.reg = m.reg) := by
  obtain ⟨l1, m1, ps, r, h1, h2, R, h4, _⟩ := fixedList_history P nd h ops
  rw [h1] at hrun
  simp only [Except.ok.injEq, Prod.mk.injEq] at hrun
  obtain ⟨_, rfl, rfl⟩ := hrun
  have L : LLaw (fixedListEnv P size align nd)
      (OInv m0 buf (roundUp align buf) size align (roomFor size align buf len)) :=
    OInv.law R P LNode.uninit (size * baseSize) baseAlign
  obtain ⟨l', m', p, e1, ⟨a1, m2, e2⟩, e3⟩ : ∃ l' m' p,
      (if front then l1.pushFront (fixedListEnv P size align nd) x m1
        else l1.pushBack (fixedListEnv P size align nd) x m1) = .ok (l', m') ∧
      (∃ a1 m2, (fixedListEnv P size align nd).A.alloc size align l1.al m1 = .ok (p, a1, m2)) ∧
      l'.addrs m' = .ok (if front then p :: ps else ps ++ [p]) := by
    cases front with
    | false =>
      obtain ⟨l', m', p, e1, _, ⟨_, e2⟩, _, e4, _⟩ := h4.pushBack L x
      exact ⟨l', m', p, e1, e2, e4.addrs⟩
    | true =>
      obtain ⟨l', m', p, e1, _, ⟨_, e2⟩, _, e4, _⟩ := h4.pushFront L x
      exact ⟨l', m', p, e1, e2, e4.addrs⟩
  refine ⟨ps, p, l', m', h4.addrs, e1, e3, ?_⟩
  rw [push_reg e1 e2]
  obtain ⟨pp, qs, fs, k, mB, hp, hI⟩ := h4.inv
  have hcount : ps.countP (inSlots size align buf len) = pp.length := hI.inline_eq R hp
  have hlen := hI.pool.length
  have hle := hI.pool.le
  have hpos := hI.pool.pos
  obtain ⟨p', s', m'', f1, f2, f3, _, _, f6⟩ := hI.alloc R P LNode.uninit
  have f1' : (fixedListEnv P size align nd).A.alloc size align l1.al m1 = .ok (p', s', m'') := f1
  rw [e2] at f1'
  simp only [Except.ok.injEq, Prod.mk.injEq] at f1'
  obtain ⟨rfl, rfl, rfl⟩ := f1'
  rw [hcount]
  refine ⟨by omega, ?_⟩
  rcases f6 with ⟨hlt, hreg, fs', k', mB', h'⟩ | ⟨heq, h'⟩
  · have hs : inSlots size align buf len p := by
      have := h'.pool.bounds (p := p) (by simp)
      exact ⟨this.1, by omega⟩
    exact ⟨⟨fun _ => hlt, fun _ => hs⟩, fun _ => hreg, fun _ => hs⟩
  · have hs : ¬ inSlots size align buf len p := by
      intro hs
      have h1 := R.lo_le
      have h2 := R.obj_le
      have h3 := R.lt
      rcases h'.over_outside R (q := p) (by simp) with h' | h' <;> have := hs.1 <;>
        have := hs.2 <;> omega
    have hreg := hI.reg_eq h'
    refine ⟨⟨fun e => absurd e hs, fun e => by omega⟩, fun e => absurd e hs, fun e => ?_⟩
    rw [e, hreg.1] at hreg
    simp at hreg

/-- C44.  After any history and the drop of the list, exactly the ranges in use before are in
use: every overflow block went back to the overflow allocator and no inline node did; every
value was handed back or dropped exactly once. -/
theorem C44_fixed_list_frees_everything (P : Placer (LNode α) α) (nd : Bool)
    (h : FixedObj m0 size align s buf len) (ops : List (ListOp α)) :
    ∃ outs l m m' drops, fixedListHistory P size align nd s buf len ops m0 = .ok (outs, l, m) ∧
      l.drop (fixedListEnv P size align nd) m = .ok m' ∧ m'.reg = m0.reg ∧
      m'.dropped = m0.dropped ++ (if nd then drops else []) ∧
      (ListOp.allIn ops []).Perm (ListOp.allOut ops [] ++ drops) := by
  obtain ⟨l, m, ps, r, h1, h2, R, h4, h5, _⟩ := fixedList_history P nd h ops
  have L : LLaw (fixedListEnv P size align nd)
      (OInv m0 buf (roundUp align buf) size align (roomFor size align buf len)) :=
    OInv.law R P LNode.uninit (size * baseSize) baseAlign
  obtain ⟨l', m', e1, _, e3, e4, _⟩ := h4.clear L
  refine ⟨_, l, m, m', ListOp.allDropped ops [] ++ (ListOp.run ops []).2, h1,
    by simp [LList.drop, e1], ?_, ?_, by simpa using ListOp.run_accounts ops []⟩
  · obtain ⟨pp, qs, fs, k, mB, hp, hI⟩ := e4.inv
    have hnil := List.append_eq_nil_iff.1 (List.nil_perm.1 hp)
    obtain ⟨rfl, rfl⟩ := hnil
    rw [hI.over.done, hI.reg]
  · rw [e3, h5, show (fixedListEnv P size align nd).nd = nd from rfl]
    cases nd <;> simp

/-- Memory with the object of a fixed list at 64: sentinel and allocator up to 128, two inline
nodes of 24 bytes, a padding node. -/
def exampleFixedMem : LMem Nat where
  node a := if a = 64 then some LNode.uninit else none
  link := fun _ => none
  reg a := if a = 64 then some ⟨136, 8, false⟩ else none
  top := 200
  top_ok := by intro a r h; split_ifs at h with h'; cases h; subst h'; decide
  dropped := []

theorem exampleFixedMem_wf : exampleFixedMem.WF where
  disj a b r r' h1 h2 hne := by
    unfold exampleFixedMem at h1 h2
    dsimp only at h1 h2
    split_ifs at h1 h2
    omega
  cover q hq := by
    unfold exampleFixedMem at hq ⊢
    dsimp only at hq ⊢
    by_cases h : q = 64
    · exact ⟨64, ⟨136, 8, false⟩, by simp, by omega, by dsimp only; omega⟩
    · rw [if_neg h] at hq; exact absurd rfl hq
  null a r h := by
    unfold exampleFixedMem at h
    dsimp only at h
    split_ifs at h
    omega

/-- The hypotheses of C44 hold of a concrete list with two inline nodes, of which four elements
are pushed and one removed and pushed again. -/
example : FixedObj exampleFixedMem 24 8 64 128 (2 * 24) ∧ roomFor 24 8 128 (2 * 24) = 2 ∧
    (do
      let (os, l, m) ← fixedListHistory Placer.bump 24 8 true 64 128 (2 * 24)
        [.pushBack 1, .pushBack 2, .pushFront 3, .popBack, .pushFront 4, .back, .front, .len]
        exampleFixedMem
      let ps ← l.addrs m
      .ok (os.filterMap (fun | .elem x => x | .nat n => some n | _ => none),
        ps.map fun p => decide (inSlots 24 8 128 48 p))) =
    (.ok ([2, 1, 4, 3], [true, false, true]) : Exec (List Nat × List Bool)) := by
  obtain ⟨h1, _, h3⟩ := FixedObj.plain (m0 := exampleFixedMem) (size := 24) (align := 8) (s := 64)
    (buf := 128) (n := 2) exampleFixedMem_wf (by decide) (r := ⟨136, 8, false⟩) rfl (by decide)
    ⟨3, rfl⟩ (by decide) (by decide) (by decide) (by decide) (by
      intro q h1 _
      unfold exampleFixedMem
      simp only
      rw [if_neg (by omega)])
  exact ⟨h1, h3, by decide +kernel⟩

end

end Verif
