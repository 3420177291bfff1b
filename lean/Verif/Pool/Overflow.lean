import Verif.Pool.Proofs

/-!
# `FixedPoolWithOverflow` provides what a node-based container needs
-/

set_option autoImplicit false

namespace Verif
open Spec

variable {N D : Type}

theorem defaultNAlloc_alloc_link {P : Placer N D} {u : N} {strict : Bool} {b a p : Nat} {s : Unit}
    {m m' : NMem N D} (h : (defaultNAlloc P u strict).alloc b a () m = .ok (p, s, m')) :
    m'.link = m.link := by
  simp only [defaultNAlloc] at h
  split_ifs at h
  simp only [Except.ok.injEq, Prod.mk.injEq] at h
  rw [← h.2.2]; rfl

theorem defaultNAlloc_dealloc_link {P : Placer N D} {u : N} {strict : Bool} {b a p : Nat}
    {s : Unit} {m m' : NMem N D}
    (h : (defaultNAlloc P u strict).dealloc p b a () m = .ok (s, m')) : m'.link = m.link := by
  simp only [defaultNAlloc] at h
  split at h
  · exact absurd h (by simp)
  · split_ifs at h
    simp only [Except.ok.injEq, Prod.mk.injEq] at h
    rw [← h.2]; rfl

/-- Changing whether there is a node inside a range that was in use before does not concern the
default allocator. -/
theorem DefInv.setInside {m0 m m0' m' : NMem N D} {bytes align : Nat} {ps : List Nat}
    (h : DefInv m0 bytes align () m ps) (hb : 0 < bytes) {obj : Nat} {r : Range} (hr : m0.reg obj = some r)
    {f : Nat} (hf : obj ≤ f ∧ f < obj + r.size) {o o' : Option N} (ho : o = none ↔ o' = none)
    (h0 : m0'.node = Function.update m0.node f o) (h1 : m0'.reg = m0.reg)
    (h2 : m'.node = Function.update m.node f o') (h3 : m'.reg = m.reg) :
    DefInv m0' bytes align () m' ps := by
  have hobj : obj ∉ ps := fun hm => by rw [(h.ins obj hm).1] at hr; simp at hr
  have hro : m.reg obj = some r := by rw [h.out obj hobj, hr]
  have hout : ∀ p ∈ ps, p + bytes ≤ obj ∨ obj + r.size ≤ p := by
    intro p hp
    have := h.wf.disj p obj _ r (h.ins p hp).2 hro (fun e => hobj (e ▸ hp))
    simpa using this
  have hnf : ∀ p ∈ ps, p ≠ f := by
    intro p hp e
    rcases hout p hp with h' | h' <;> omega
  refine ⟨⟨by rw [h3]; exact h.wf.disj, ?_, by rw [h3]; exact h.wf.null⟩, h.nodup,
    by rw [h3, h1]; exact h.out, by rw [h3, h1]; exact h.ins, ?_, ?_, ?_, h.aligned⟩
  · intro q hq
    rw [h3]
    by_cases hqf : q = f
    · subst hqf; exact ⟨obj, r, hro, hf⟩
    · rw [h2, Function.update_of_ne hqf] at hq
      exact h.wf.cover q hq
  · intro q hq
    rw [h2, h0]
    by_cases hqf : q = f
    · subst hqf; rw [Function.update_self, Function.update_self]; exact ho.symm
    · rw [Function.update_of_ne hqf, Function.update_of_ne hqf]; exact h.node q hq
  · intro p hp
    rw [h2, h0, Function.update_of_ne (hnf p hp), Function.update_of_ne (hnf p hp)]
    exact h.live p hp
  · intro p hp q hq1 hq2
    rw [h2, Function.update_of_ne]
    · exact h.solid p hp q hq1 hq2
    · intro e
      rcases hout p hp with h' | h' <;> omega

theorem PoolInv.frameIn {start size c : Nat} {s : Pool} {m m' : NMem N D} {ps fs : List Nat}
    {k : Nat} (h : PoolInv start size c s m ps fs k)
    (h1 : ∀ q, start ≤ q → q < start + c * size → (m'.node q = none ↔ m.node q = none))
    (h2 : m'.link = m.link) : PoolInv start size c s m' ps fs k := by
  refine ⟨h.pos, h.start0, h.le, h.next, h.cap, h.chain.frame fun f _ => by rw [h2], h.perm, ?_,
    fun q hq1 hq2 hq => (h1 q hq1 hq2).2 (h.dead q hq1 hq2 hq)⟩
  intro p hp e
  have hb := h.bounds (List.mem_append_left fs hp)
  have := h.pos
  exact h.live p hp ((h1 p hb.1 (by omega)).1 e)

/-- The pool's `c` slots from `start` lie inside an object that is in use, the pool's memory
begins at `lo`, and the object extends beyond the end of the slots; nothing is
stored in the slots. -/
structure Room (m0 : NMem N D) (lo start size c obj : Nat) (r : Range) : Prop where
  reg : m0.reg obj = some r
  obj_le : obj ≤ lo
  lo_le : lo ≤ start
  lt : start + c * size < obj + r.size
  free : ∀ q, start ≤ q → q < start + c * size → m0.node q = none

/-- State of a pool with overflow since `m0`: the nodes `ps` in use are `pp` from the pool and
`qs` from the overflow allocator. -/
structure OInvAt (m0 : NMem N D) (lo start size align c : Nat) (s : OPool) (m : NMem N D)
    (pp qs fs : List Nat) (k : Nat) (mB : NMem N D) : Prop where
  pool : PoolInv start size c s.pool m pp fs k
  begin : s.poolBegin = lo
  reg : mB.reg = m0.reg
  node : ∀ q, q ∉ pp → (mB.node q = none ↔ m0.node q = none)
  over : DefInv mB size align () m qs

/-- As a predicate on the nodes in use. -/
def OInv (m0 : NMem N D) (lo start size align c : Nat) (s : OPool) (m : NMem N D)
    (ps : List Nat) : Prop :=
  ∃ pp qs fs k mB, ps.Perm (pp ++ qs) ∧ OInvAt m0 lo start size align c s m pp qs fs k mB

section
variable {m0 : NMem N D} {lo start size align c obj : Nat} {r : Range}
  {s : OPool} {m mB : NMem N D} {pp qs fs : List Nat} {k : Nat}

/-- Overflow blocks are outside the object. -/
theorem OInvAt.over_outside (R : Room m0 lo start size c obj r)
    (h : OInvAt m0 lo start size align c s m pp qs fs k mB) {q : Nat} (hq : q ∈ qs) :
    q + size ≤ obj ∨ obj + r.size ≤ q := by
  have hr : mB.reg obj = some r := by rw [h.reg]; exact R.reg
  have hobj : obj ∉ qs := fun hm => by rw [(h.over.ins obj hm).1] at hr; simp at hr
  have := h.over.wf.disj q obj _ r (h.over.ins q hq).2 (by rw [h.over.out obj hobj, hr])
    (fun e => hobj (e ▸ hq))
  simpa using this

theorem OInvAt.routed (R : Room m0 lo start size c obj r)
    (h : OInvAt m0 lo start size align c s m pp qs fs k mB) :
    (∀ p ∈ pp, lo ≤ p ∧ p ≤ s.pool.capacity) ∧
      (∀ q ∈ qs, ¬ (lo ≤ q ∧ q ≤ s.pool.capacity)) := by
  have h1 := R.lo_le
  have h2 := R.lt
  have h3 := R.obj_le
  have h4 := h.pool.cap
  have hpos := h.pool.pos
  constructor
  · intro p hp
    have := h.pool.bounds (List.mem_append_left fs hp)
    omega
  · intro q hq
    rcases h.over_outside R hq with h' | h' <;> omega

/-- While the pool has room the node comes from the pool, else from the overflow allocator. -/
theorem OInvAt.alloc (R : Room m0 lo start size c obj r) (P : Placer N D) (u : N)
    (h : OInvAt m0 lo start size align c s m pp qs fs k mB) :
    ∃ p s' m', (opoolNAlloc u size align (defaultNAlloc P u false)).alloc size align s m =
        .ok (p, s', m') ∧ p ≠ 0 ∧ m.node p = none ∧
      m'.node = Function.update m.node p (some u) ∧ m'.dropped = m.dropped ∧
      ((pp.length < c ∧ m'.reg = m.reg ∧
          ∃ fs' k' mB', OInvAt m0 lo start size align c s' m' (p :: pp) qs fs' k' mB') ∨
        (pp.length = c ∧ OInvAt m0 lo start size align c s' m' pp (p :: qs) fs k mB)) := by
  have hlen := h.pool.length
  have hle := h.pool.le
  have hpos := h.pool.pos
  have hlo := R.lo_le
  have hlt := R.lt
  have hobj := R.obj_le
  have hrB : mB.reg obj = some r := by rw [h.reg]; exact R.reg
  have hset : ∀ (p : Nat) (s' : Pool) (m' : NMem N D) (fs' : List Nat) (k' : Nat),
      start ≤ p → p < start + c * size →
      m'.node = Function.update m.node p (some u) → m'.reg = m.reg →
      PoolInv start size c s' m' (p :: pp) fs' k' →
      ∃ fs'' k'' mB', OInvAt m0 lo start size align c { s with pool := s' } m' (p :: pp) qs fs''
        k'' mB' := by
    intro p s' m' fs' k' hp1 hp2 hn hr hi
    refine ⟨fs', k', mB.setNode p (some u), hi, h.begin, h.reg, ?_, ?_⟩
    · intro q hq
      simp only [List.mem_cons, not_or] at hq
      show Function.update mB.node p (some u) q = none ↔ _
      rw [Function.update_of_ne hq.1]
      exact h.node q hq.2
    · exact h.over.setInside hpos hrB ⟨by omega, by omega⟩ (o := some u) (o' := some u) Iff.rfl rfl rfl
        hn hr
  cases fs with
  | cons f fs =>
    obtain ⟨s1, m1, e1, e2, e3, e4, e5, e6, _⟩ := h.pool.alloc_free u align
    have hf0 := h.pool.ne_zero (p := f) (by simp)
    have hb := h.pool.bounds (p := f) (by simp)
    simp only [List.length_cons] at hlen
    refine ⟨f, { s with pool := s1 }, m1, ?_, hf0, e5, e2, e4, Or.inl ⟨by omega, e3, ?_⟩⟩
    · simp [opoolNAlloc, e1, hf0]
    · exact hset f s1 m1 fs k hb.1 (by omega) e2 e3 e6
  | nil =>
    simp only [List.length_nil, Nat.add_zero] at hlen
    by_cases hk : k < c
    · obtain ⟨s1, m1, e1, e2, e3, e4, e5, e6, e7, _⟩ := h.pool.alloc_fresh hk u align
      have hf0 := e7.ne_zero (p := start + k * size) (by simp)
      have hb := e7.bounds (p := start + k * size) (by simp)
      refine ⟨start + k * size, { s with pool := s1 }, m1, ?_, hf0, e5, e2, e4,
        Or.inl ⟨by omega, e3, ?_⟩⟩
      · simp only [opoolNAlloc, ne_eq, not_true_eq_false, or_self, if_false, e1, Exec.ok_bind]
        rw [if_pos hf0]
      · exact hset _ s1 m1 [] (k + 1) hb.1 (by omega) e2 e3 e7
    · have hkc : k = c := by omega
      have hp := h.pool
      rw [hkc] at hp
      obtain ⟨p, _, m1, e1, e2, e3, e4, e5, e6⟩ :=
        (defaultNAlloc_law P u false (dbytes := size) (dalign := align) hpos (by simp) mB).alloc
          h.over
      refine ⟨p, { s with pool := s.pool }, m1, ?_, e2, e3, e4, e5, Or.inr ⟨by omega, ?_⟩⟩
      · simp [opoolNAlloc, hp.alloc_full u align, e1]
      · have hout : p + size ≤ obj ∨ obj + r.size ≤ p := by
          have hobj : obj ∉ p :: qs := fun hm => by
            rw [(e6.ins obj hm).1] at hrB; simp at hrB
          have := e6.wf.disj p obj _ r (e6.ins p (by simp)).2 (by rw [e6.out obj hobj, hrB])
            (fun e => hobj (by simp [e]))
          simpa using this
        refine ⟨h.pool.frameIn ?_ (defaultNAlloc_alloc_link e1), h.begin, h.reg, h.node, e6⟩
        intro q hq1 hq2
        rw [e4, Function.update_of_ne]
        intro e
        rcases hout with h' | h' <;> omega

theorem OInvAt.dealloc (R : Room m0 lo start size c obj r) (P : Placer N D) (u : N)
    (h : OInvAt m0 lo start size align c s m pp qs fs k mB) (b a : Nat) {p : Nat}
    (hp : p ∈ pp ++ qs) :
    ∃ s' m', (opoolNAlloc u size align (defaultNAlloc P u false)).dealloc p b a s m =
        .ok (s', m') ∧
      m'.node = Function.update m.node p none ∧ m'.dropped = m.dropped ∧
      ((p ∈ pp ∧ m'.reg = m.reg ∧
          ∃ mB', OInvAt m0 lo start size align c s' m' (pp.erase p) qs (p :: fs) k mB') ∨
        (p ∈ qs ∧ p ∉ pp ∧
          OInvAt m0 lo start size align c s' m' pp (qs.erase p) fs k mB)) := by
  obtain ⟨hr1, hr2⟩ := h.routed R
  have hpos := h.pool.pos
  have hlo := R.lo_le
  have hlt := R.lt
  have hobj := R.obj_le
  have hrB : mB.reg obj = some r := by rw [h.reg]; exact R.reg
  have hnd := h.pool.nodup
  rw [List.nodup_append] at hnd
  rcases List.mem_append.1 hp with hp | hp
  · obtain ⟨s1, m1, e1, e2, e3, e4, e5, _, e7⟩ := h.pool.free u align b a hp
    have hb := h.pool.bounds (List.mem_append_left fs hp)
    refine ⟨{ s with pool := s1 }, m1, ?_, e2, e4, Or.inl ⟨hp, e3, ?_⟩⟩
    · simp only [opoolNAlloc]
      rw [if_pos (by rw [h.begin]; exact hr1 p hp)]
      simp [e1]
    · refine ⟨mB.setNode p (m0.node p), e5, h.begin, h.reg, ?_, ?_⟩
      · intro q hq
        rw [hnd.1.mem_erase_iff] at hq
        show Function.update mB.node p (m0.node p) q = none ↔ _
        by_cases hqp : q = p
        · rw [hqp, Function.update_self]
        · rw [Function.update_of_ne hqp]
          exact h.node q fun hm => hq ⟨hqp, hm⟩
      · have hn : m0.node p = none := R.free p hb.1 (by omega)
        exact h.over.setInside hpos hrB (f := p) ⟨by omega, by omega⟩ (o := m0.node p) (o' := none)
          (by simp [hn]) rfl rfl e2 e3
  · have hnp : p ∉ pp := fun hm => hr2 p hp (hr1 p hm)
    obtain ⟨_, m1, e1, e2, e3, e4⟩ :=
      (defaultNAlloc_law P u false (dbytes := b) (dalign := a) hpos (by simp) mB).dealloc
        h.over hp
    refine ⟨s, m1, ?_, e2, e3, Or.inr ⟨hp, hnp, ?_⟩⟩
    · simp only [opoolNAlloc]
      rw [if_neg (by rw [h.begin]; exact hr2 p hp)]
      simp [e1]
    · refine ⟨h.pool.frameIn ?_ (defaultNAlloc_dealloc_link e1), h.begin, h.reg, h.node, e4⟩
      intro q hq1 hq2
      rw [e2, Function.update_of_ne]
      intro e
      rcases h.over_outside R hp with h' | h' <;> omega

theorem OInv.law (R : Room m0 lo start size c obj r) (P : Placer N D) (u : N) (b a : Nat) :
    NLaw (opoolNAlloc u size align (defaultNAlloc P u false)) u size align b a
      (OInv m0 lo start size align c) where
  alloc := by
    rintro s m ps ⟨pp, qs, fs, k, mB, hp, h⟩
    obtain ⟨p, s', m', e1, e2, e3, e4, e5, e6⟩ := h.alloc R P u
    refine ⟨p, s', m', e1, e2, e3, e4, e5, ?_⟩
    rcases e6 with ⟨_, _, fs', k', mB', h'⟩ | ⟨_, h'⟩
    · exact ⟨_, _, _, _, _, hp.cons p, h'⟩
    · exact ⟨_, _, _, _, _, (hp.cons p).trans List.perm_middle.symm, h'⟩
  dealloc := by
    rintro s m ps p ⟨pp, qs, fs, k, mB, hp, h⟩ hm
    obtain ⟨s', m', e1, e2, e3, e4⟩ := h.dealloc R P u b a (hp.mem_iff.1 hm)
    refine ⟨s', m', e1, e2, e3, ?_⟩
    rcases e4 with ⟨hpp, _, mB', h'⟩ | ⟨_, hpp, h'⟩
    · refine ⟨_, _, _, _, _, ?_, h'⟩
      rw [← List.erase_append_left _ hpp]; exact hp.erase p
    · refine ⟨_, _, _, _, _, ?_, h'⟩
      rw [← List.erase_append_right _ hpp]; exact hp.erase p
  frame := by
    rintro s m m' ps ⟨pp, qs, fs, k, mB, hp, h⟩ h1 h2 h3
    exact ⟨pp, qs, fs, k, mB, hp, h.pool.frame h1 h2, h.begin, h.reg, h.node,
      (defaultNAlloc_law P u false (dbytes := b) (dalign := a) h.pool.pos (by simp) mB).frame
        h.over h1 h2 h3⟩
  perm := by
    rintro s m ps qs ⟨pp, qs', fs, k, mB, hp, h⟩ hpq
    exact ⟨pp, qs', fs, k, mB, hpq.symm.trans hp, h⟩

/-- Number of addresses inside the slots. -/
def inline (start size c : Nat) (ps : List Nat) : Nat :=
  ps.countP fun p => decide (start ≤ p ∧ p < start + c * size)

theorem OInvAt.inline_eq (R : Room m0 lo start size c obj r)
    (h : OInvAt m0 lo start size align c s m pp qs fs k mB) {ps : List Nat}
    (hp : ps.Perm (pp ++ qs)) : inline start size c ps = pp.length := by
  have hpos := h.pool.pos
  have hlo := R.lo_le
  have hlt := R.lt
  have hobj := R.obj_le
  unfold inline
  rw [hp.countP_eq, List.countP_append, List.countP_eq_length.2, List.countP_eq_zero.2]
  · rfl
  · intro q hq
    simp only [decide_eq_true_eq, not_and, Nat.not_lt]
    intro hq1
    rcases h.over_outside R hq with h' | h' <;> omega
  · intro q hq
    have := h.pool.bounds (List.mem_append_left fs hq)
    simp only [decide_eq_true_eq]
    omega

/-- A pool with overflow just initialised. -/
theorem OInv.init {mem len : Nat} (hi : OPool.init size align mem len = .ok s) (hm : mem ≠ 0)
    (hwf : m0.WF) (hn : ∀ q, mem ≤ q → q < mem + len → m0.node q = none) :
    OInv m0 mem (roundUp align mem) size align (roomFor size align mem len) s m0 [] := by
  unfold OPool.init at hi
  obtain ⟨pool, h1, h2⟩ := Exec.bind_ok hi
  simp only [Except.ok.injEq] at h2
  subst h2
  exact ⟨[], [], [], 0, m0, List.Perm.refl _, PoolInv.init h1 hm hn, rfl, rfl,
    fun _ _ => Iff.rfl, DefInv.init hwf size align⟩

/-- The room of a pool in an object. -/
theorem Room.of_init {mem len : Nat} (hi : OPool.init size align mem len = .ok s)
    (hn : ∀ q, mem ≤ q → q < mem + len → m0.node q = none)
    (hr : m0.reg obj = some r) (ho : obj ≤ mem)
    (hl : roundUp align mem + roomFor size align mem len * size < obj + r.size) :
    Room m0 mem (roundUp align mem) size (roomFor size align mem len) obj r := by
  unfold OPool.init at hi
  obtain ⟨pool, h1, h2⟩ := Exec.bind_ok hi
  obtain ⟨⟨k, hk⟩, e2, e3, _⟩ := Pool.init_ok h1
  have hpos : 0 < align := by rw [hk]; exact Nat.pos_of_ne_zero (by simp)
  have hge := roundUp_ge hpos mem
  refine ⟨hr, ho, hge, hl, fun q hq1 hq2 => hn q (by omega) ?_⟩
  have : roomFor size align mem len * size ≤ mem + len - roundUp align mem :=
    Nat.div_mul_le_self _ _
  omega

end

end Verif
