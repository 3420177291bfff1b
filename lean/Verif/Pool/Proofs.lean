import Verif.Pool.Model
import Verif.Spec.Pool
import Verif.Node.Law
import Verif.FixedVector.Proofs

/-!
# Invariant of the pools
-/

set_option autoImplicit false

namespace Verif
open Spec

theorem alignUp_eq {k addr : Nat} (h : addr + (2 ^ k - 1) < 2 ^ 64) :
    alignUp (2 ^ k) addr = roundUp (2 ^ k) addr := by
  unfold alignUp roundUp
  have hpos : 0 < 2 ^ k := Nat.pos_of_ne_zero (by simp)
  have : addr + 2 ^ k - 1 = addr + (2 ^ k - 1) := by omega
  rw [this]
  generalize addr + (2 ^ k - 1) = x at *
  apply Nat.eq_of_testBit_eq
  intro i
  rw [BitVec.testBit_toNat, Nat.testBit_mul_two_pow, Nat.testBit_div_two_pow]
  simp only [BitVec.getLsbD_and, BitVec.getLsbD_not, BitVec.getLsbD_ofNat,
    Nat.testBit_two_pow_sub_one]
  by_cases hi : i < 64
  · by_cases hk : k ≤ i
    · simp [hi, hk, Nat.not_lt.2 hk, Nat.sub_add_cancel hk]
    · simp [hi, hk, Nat.lt_of_not_le hk]
  · have hx : x.testBit i = false :=
      Nat.testBit_lt_two_pow (Nat.lt_of_lt_of_le h (Nat.pow_le_pow_right (by omega) (by omega)))
    by_cases hk : k ≤ i
    · simp [hi, hk, Nat.sub_add_cancel hk, hx]
    · simp [hi, hk]

theorem pow_two_of_and_pred {a : Nat} (h0 : a ≠ 0) (h : a &&& (a - 1) = 0) : ∃ k, a = 2 ^ k := by
  refine ⟨a.log2, ?_⟩
  by_contra hne
  have h1 := Nat.log2_self_le h0
  have h2 : 2 ^ a.log2 ≤ a - 1 := by omega
  have h3 : a < 2 ^ (a.log2 + 1) := Nat.lt_log2_self
  have t1 : a.testBit a.log2 = true := Nat.testBit_log2 h0
  have h4 : a - 1 ≠ 0 := by have := Nat.pow_pos (n := a.log2) (show 0 < 2 by omega); omega
  have t2 : (a - 1).testBit a.log2 = true := by
    have := (Nat.log2_eq_iff (k := a.log2) h4).2 ⟨h2, by omega⟩
    rw [← this]; exact Nat.testBit_log2 h4
  have := Nat.testBit_and a (a - 1) a.log2
  rw [h, t1, t2] at this
  simp at this

theorem and_pred_pow_two (k : Nat) : 2 ^ k &&& (2 ^ k - 1) = 0 := by
  apply Nat.eq_of_testBit_eq
  intro i
  rw [Nat.testBit_and, Nat.testBit_two_pow_sub_one, Nat.testBit_two_pow]
  by_cases h : k = i <;> simp [h]

theorem roundUp_ge {a : Nat} (h : 0 < a) (x : Nat) : x ≤ roundUp a x := by
  unfold roundUp
  have := Nat.div_add_mod (x + a - 1) a
  have := Nat.mod_lt (x + a - 1) h
  rw [Nat.mul_comm]
  omega

theorem roundUp_lt {a : Nat} (h : 0 < a) (x : Nat) : roundUp a x < x + a := by
  unfold roundUp
  have := Nat.div_mul_le_self (x + a - 1) a
  omega

theorem dvd_roundUp (a x : Nat) : a ∣ roundUp a x := Nat.dvd_mul_left _ _

theorem roundUp_of_dvd {a : Nat} (h : 0 < a) {x : Nat} (hd : a ∣ x) : roundUp a x = x := by
  obtain ⟨c, rfl⟩ := hd
  unfold roundUp
  rw [show a * c + a - 1 = a * c + (a - 1) by omega, Nat.mul_add_div h,
    Nat.div_eq_of_lt (by omega), Nat.add_zero, Nat.mul_comm]

/-- What a successful `init` sets up. -/
theorem Pool.init_ok {size align mem len : Nat} {s : Pool}
    (h : Pool.init size align mem len = .ok s) :
    (∃ k, align = 2 ^ k) ∧ 8 ≤ size ∧ roundUp align mem ≤ mem + len ∧ s.head = 0 ∧
      s.next = roundUp align mem ∧
      s.capacity = roundUp align mem + roomFor size align mem len * size := by
  unfold Pool.init at h
  dsimp only at h
  split_ifs at h with h1 h2 h3 h4 h5
  · have h2 : align &&& (align - 1) = 0 := Decidable.not_not.1 h2
    obtain ⟨k, hk⟩ := pow_two_of_and_pred h1 h2
    have hpos : 0 < align := by omega
    have he : alignUp align mem = roundUp align mem := by
      rw [hk] at h3 ⊢; exact alignUp_eq (by omega)
    have hge := roundUp_ge hpos mem
    rw [he] at h h4
    simp only [Except.ok.injEq] at h
    refine ⟨⟨k, hk⟩, by omega, by omega, by rw [← h], by rw [← h], ?_⟩
    rw [← h]
    simp only [roomFor]
    congr 3
    omega

theorem Pool.init_total {size align mem len : Nat} (hk : ∃ k, align = 2 ^ k)
    (ho : mem + align ≤ 2 ^ 64) (hs : 8 ≤ size) (hl : roundUp align mem ≤ mem + len) :
    ∃ s, Pool.init size align mem len = .ok s := by
  obtain ⟨k, rfl⟩ := hk
  have hpos : 0 < 2 ^ k := Nat.pos_of_ne_zero (by simp)
  have hge := roundUp_ge hpos mem
  unfold Pool.init
  rw [if_neg (by omega), if_neg (by rw [and_pred_pow_two]; simp), if_neg (by omega)]
  dsimp only
  rw [alignUp_eq (by omega), if_neg (by omega), if_neg (by omega)]
  exact ⟨_, rfl⟩

variable {N D : Type}

/-- The free list starting at `h` consists of `fs`. -/
def FreeChain (m : NMem N D) : Nat → List Nat → Prop
  | h, [] => h = 0
  | h, f :: fs => h = f ∧ f ≠ 0 ∧ ∃ nx, m.link f = some nx ∧ FreeChain m nx fs

theorem FreeChain.frame {m m' : NMem N D} : ∀ {fs : List Nat} {h : Nat}, FreeChain m h fs →
    (∀ f ∈ fs, m'.link f = m.link f) → FreeChain m' h fs
  | [], _, h, _ => h
  | f :: fs, _, ⟨h1, h2, nx, h3, h4⟩, hl =>
    ⟨h1, h2, nx, by rw [hl f (by simp), h3], h4.frame fun g hg => hl g (List.mem_cons_of_mem _ hg)⟩

/-- Slot `j` of a pool that starts at `start`. -/
abbrev slots (start size k : Nat) : List Nat := (List.range k).map fun j => start + j * size

theorem mem_slots {start size k p : Nat} :
    p ∈ slots start size k ↔ ∃ j, j < k ∧ p = start + j * size := by
  simp only [slots, List.mem_map, List.mem_range]
  constructor
  · rintro ⟨j, h1, rfl⟩; exact ⟨j, h1, rfl⟩
  · rintro ⟨j, h1, rfl⟩; exact ⟨j, h1, rfl⟩

theorem slots_nodup {start size : Nat} (hs : 0 < size) (k : Nat) : (slots start size k).Nodup := by
  refine List.Nodup.map_on ?_ List.nodup_range
  intro i _ j _ h
  exact Nat.eq_of_mul_eq_mul_right hs (by omega)

/-- A pool of `c` slots at `start`: the slots handed out are `ps`, those freed `fs` (most recent
first), and `k` slots have been used at all. -/
structure PoolInv (start size c : Nat) (s : Pool) (m : NMem N D) (ps fs : List Nat) (k : Nat) :
    Prop where
  pos : 0 < size
  start0 : start ≠ 0
  le : k ≤ c
  next : s.next = start + k * size
  cap : s.capacity = start + c * size
  chain : FreeChain m s.head fs
  perm : (ps ++ fs).Perm (slots start size k)
  live : ∀ p ∈ ps, m.node p ≠ none
  dead : ∀ q, start ≤ q → q < start + c * size → q ∉ ps → m.node q = none

section
variable {start size c : Nat} {s : Pool} {m : NMem N D} {ps fs : List Nat} {k : Nat}

theorem PoolInv.nodup (h : PoolInv start size c s m ps fs k) : (ps ++ fs).Nodup :=
  h.perm.nodup_iff.2 (slots_nodup h.pos k)

theorem PoolInv.slot (h : PoolInv start size c s m ps fs k) {p : Nat} (hp : p ∈ ps ++ fs) :
    ∃ j, j < k ∧ p = start + j * size := mem_slots.1 ((h.perm.mem_iff).1 hp)

theorem PoolInv.length (h : PoolInv start size c s m ps fs k) : ps.length + fs.length = k := by
  have := h.perm.length_eq
  simpa using this

theorem PoolInv.ne_zero (h : PoolInv start size c s m ps fs k) {p : Nat} (hp : p ∈ ps ++ fs) :
    p ≠ 0 := by
  obtain ⟨j, _, rfl⟩ := h.slot hp
  have := h.start0
  omega

theorem slot_range {j c : Nat} (start size : Nat) (h : j < c) :
    start + j * size + size ≤ start + c * size := by
  have : (j + 1) * size ≤ c * size := Nat.mul_le_mul_right _ h
  rw [Nat.add_mul] at this
  omega

theorem slot_disj {i j : Nat} (start size : Nat) (h : i ≠ j) :
    start + i * size + size ≤ start + j * size ∨ start + j * size + size ≤ start + i * size := by
  rcases Nat.lt_or_gt_of_ne h with h | h
  · exact Or.inl (slot_range start size h)
  · exact Or.inr (slot_range start size h)

/-- Nodes handed out are in bounds. -/
theorem PoolInv.bounds (h : PoolInv start size c s m ps fs k) {p : Nat} (hp : p ∈ ps ++ fs) :
    start ≤ p ∧ p + size ≤ start + c * size := by
  obtain ⟨j, hj, rfl⟩ := h.slot hp
  exact ⟨by omega, slot_range start size (Nat.lt_of_lt_of_le hj h.le)⟩

/-- Nodes handed out do not overlap. -/
theorem PoolInv.disjoint (h : PoolInv start size c s m ps fs k) {p q : Nat} (hp : p ∈ ps)
    (hq : q ∈ ps) (hne : p ≠ q) : p + size ≤ q ∨ q + size ≤ p := by
  obtain ⟨i, _, rfl⟩ := h.slot (List.mem_append_left _ hp)
  obtain ⟨j, _, rfl⟩ := h.slot (List.mem_append_left _ hq)
  exact slot_disj start size (fun e => hne (by rw [e]))

theorem PoolInv.canAllocate (h : PoolInv start size c s m ps fs k) :
    s.canAllocate = decide (ps.length < c) := by
  have hlen := h.length
  have hle := h.le
  unfold Pool.canAllocate
  cases fs with
  | nil =>
    have h0 : s.head = 0 := h.chain
    simp only [h0, ne_eq, not_true_eq_false, decide_false, Bool.false_or, h.next, h.cap]
    simp only [List.length_nil, Nat.add_zero] at hlen
    by_cases hkc : k = c
    · simp [hkc, hlen]
    · have : k * size ≠ c * size := fun e => hkc (Nat.eq_of_mul_eq_mul_right h.pos e)
      simp only [hlen]
      rw [decide_eq_true (by omega), decide_eq_true (by omega)]
  | cons f fs =>
    obtain ⟨h1, h2, _⟩ := h.chain
    simp only [List.length_cons] at hlen
    have hlt : ps.length < c := by omega
    simp [h1, h2, hlt]

/-- A freed slot is handed out again, the most recent one first. -/
theorem PoolInv.alloc_free {f : Nat} (h : PoolInv start size c s m ps (f :: fs) k) (u : N)
    (align : Nat) :
    ∃ s' m', (poolNAlloc u size align).alloc size align s m = .ok (f, s', m') ∧
      m'.node = Function.update m.node f (some u) ∧ m'.reg = m.reg ∧ m'.dropped = m.dropped ∧
      m.node f = none ∧ PoolInv start size c s' m' (f :: ps) fs k ∧ m'.top = m.top := by
  obtain ⟨h1, h2, nx, h3, h4⟩ := h.chain
  have hnd := h.nodup
  have hf : f ∉ ps ∧ f ∉ fs := by
    rw [List.nodup_append] at hnd
    refine ⟨fun hm => hnd.2.2 f hm f (by simp) rfl, ?_⟩
    exact (List.nodup_cons.1 hnd.2.1).1
  have hb := h.bounds (p := f) (by simp)
  have hnone : m.node f = none := h.dead f hb.1 (by have := h.pos; omega) hf.1
  refine ⟨{ s with head := nx }, (m.setLink f none).setNode f (some u), ?_, rfl, rfl, rfl, hnone,
    ⟨h.pos, h.start0, h.le, h.next, h.cap, ?_, ?_, ?_, ?_⟩, rfl⟩
  · simp [poolNAlloc, h1, h2, h3]
  · refine h4.frame fun g hg => ?_
    exact Function.update_of_ne (fun (e : g = f) => hf.2 (e ▸ hg)) _ _
  · exact (List.perm_middle (l₁ := ps) (a := f) (l₂ := fs)).symm.trans h.perm
  · intro p hp
    show Function.update m.node f (some u) p ≠ none
    by_cases hpf : p = f
    · rw [hpf, Function.update_self]; simp
    · rw [Function.update_of_ne hpf]
      rcases List.mem_cons.1 hp with hp' | hp'
      · exact absurd hp' hpf
      · exact h.live p hp'
  · intro q hq1 hq2 hq
    simp only [List.mem_cons, not_or] at hq
    show Function.update m.node f (some u) q = none
    rw [Function.update_of_ne hq.1]
    exact h.dead q hq1 hq2 hq.2

/-- Without freed slots, the next unused slot is handed out. -/
theorem PoolInv.alloc_fresh (h : PoolInv start size c s m ps [] k) (hk : k < c) (u : N)
    (align : Nat) :
    ∃ s' m', (poolNAlloc u size align).alloc size align s m = .ok (start + k * size, s', m') ∧
      m'.node = Function.update m.node (start + k * size) (some u) ∧ m'.reg = m.reg ∧
      m'.dropped = m.dropped ∧ m.node (start + k * size) = none ∧ start + k * size ∉ ps ∧
      PoolInv start size c s' m' ((start + k * size) :: ps) [] (k + 1) ∧ m'.top = m.top := by
  have h0 : s.head = 0 := h.chain
  have hne : s.next ≠ s.capacity := by
    rw [h.next, h.cap]
    intro e
    have := Nat.eq_of_mul_eq_mul_right h.pos (Nat.add_left_cancel e)
    omega
  have hnp : start + k * size ∉ ps := by
    intro hm
    obtain ⟨j, hj, he⟩ := h.slot (List.mem_append_left _ hm)
    have := Nat.eq_of_mul_eq_mul_right h.pos (Nat.add_left_cancel he)
    omega
  have hb := slot_range start size hk
  have hpos := h.pos
  refine ⟨{ s with next := s.next + size }, m.setNode (start + k * size) (some u), ?_, rfl, rfl,
    rfl, h.dead _ (by omega) (by omega) hnp, hnp,
    ⟨h.pos, h.start0, hk, ?_, h.cap, h0, ?_, ?_, ?_⟩, rfl⟩
  · simp only [poolNAlloc, h0, ne_eq, not_true_eq_false, or_self, if_false]
    rw [if_pos hne, h.next]
  · simp only [h.next, Nat.add_mul, Nat.one_mul]; omega
  · have hp := h.perm
    simp only [List.append_nil, slots, List.range_succ, List.map_append, List.map_cons,
      List.map_nil] at hp ⊢
    exact (hp.cons _).trans (List.perm_append_singleton _ _).symm
  · intro p hp
    show Function.update m.node _ (some u) p ≠ none
    by_cases hpf : p = start + k * size
    · rw [hpf, Function.update_self]; simp
    · rw [Function.update_of_ne hpf]
      rcases List.mem_cons.1 hp with hp' | hp'
      · exact absurd hp' hpf
      · exact h.live p hp'
  · intro q hq1 hq2 hq
    simp only [List.mem_cons, not_or] at hq
    show Function.update m.node _ (some u) q = none
    rw [Function.update_of_ne hq.1]
    exact h.dead q hq1 hq2 hq.2

/-- An exhausted pool returns null. -/
theorem PoolInv.alloc_full (h : PoolInv start size c s m ps [] c) (u : N) (align : Nat) :
    (poolNAlloc u size align).alloc size align s m = .ok (0, s, m) := by
  have h0 : s.head = 0 := h.chain
  simp [poolNAlloc, h0, h.next, h.cap]

/-- Giving a node back. -/
theorem PoolInv.free (h : PoolInv start size c s m ps fs k) (u : N) (align b a : Nat) {p : Nat}
    (hp : p ∈ ps) :
    ∃ s' m', (poolNAlloc u size align).dealloc p b a s m = .ok (s', m') ∧
      m'.node = Function.update m.node p none ∧ m'.reg = m.reg ∧ m'.dropped = m.dropped ∧
      PoolInv start size c s' m' (ps.erase p) (p :: fs) k ∧ m'.top = m.top ∧
      s'.capacity = s.capacity := by
  have h0 := h.ne_zero (List.mem_append_left fs hp)
  have hl := h.live p hp
  have hnd := h.nodup
  rw [List.nodup_append] at hnd
  obtain ⟨n, hn⟩ := Option.ne_none_iff_exists'.1 hl
  refine ⟨{ s with head := p }, (m.setNode p none).setLink p (some s.head), ?_, rfl, rfl, rfl,
    ⟨h.pos, h.start0, h.le, h.next, h.cap, ⟨rfl, h0, s.head, ?_, ?_⟩, ?_, ?_, ?_⟩, rfl, rfl⟩
  · simp [poolNAlloc, h0, hn]
  · exact Function.update_self _ _ _
  · refine h.chain.frame fun g hg => ?_
    exact Function.update_of_ne (fun e => hnd.2.2 p hp g hg e.symm) _ _
  · refine List.Perm.trans ?_ h.perm
    exact List.perm_middle.trans ((List.perm_cons_erase hp).symm.append_right fs)
  · intro q hq
    rw [hnd.1.mem_erase_iff] at hq
    show Function.update m.node p none q ≠ none
    rw [Function.update_of_ne hq.1]
    exact h.live q hq.2
  · intro q hq1 hq2 hq
    rw [hnd.1.mem_erase_iff] at hq
    show Function.update m.node p none q = none
    by_cases hqp : q = p
    · rw [hqp, Function.update_self]
    · rw [Function.update_of_ne hqp]
      exact h.dead q hq1 hq2 fun hm => hq ⟨hqp, hm⟩

theorem PoolInv.frame (h : PoolInv start size c s m ps fs k) {m' : NMem N D}
    (h1 : ∀ q, m'.node q = none ↔ m.node q = none) (h2 : m'.link = m.link) :
    PoolInv start size c s m' ps fs k :=
  ⟨h.pos, h.start0, h.le, h.next, h.cap, h.chain.frame fun f _ => by rw [h2], h.perm,
    fun p hp e => h.live p hp ((h1 p).1 e), fun q hq1 hq2 hq => (h1 q).2 (h.dead q hq1 hq2 hq)⟩

theorem PoolInv.permute (h : PoolInv start size c s m ps fs k) {qs : List Nat} (hp : ps.Perm qs) :
    PoolInv start size c s m qs fs k :=
  ⟨h.pos, h.start0, h.le, h.next, h.cap, h.chain, (hp.symm.append_right fs).trans h.perm,
    fun p hq => h.live p (hp.mem_iff.2 hq),
    fun q hq1 hq2 hq => h.dead q hq1 hq2 fun hm => hq (hp.mem_iff.1 hm)⟩

end

/-- A pool just initialised. -/
theorem PoolInv.init {size align mem len : Nat} {s : Pool}
    (h : Pool.init size align mem len = .ok s) (hm : mem ≠ 0) {m : NMem N D}
    (hn : ∀ q, mem ≤ q → q < mem + len → m.node q = none) :
    PoolInv (roundUp align mem) size (roomFor size align mem len) s m [] [] 0 := by
  obtain ⟨⟨k, hk⟩, h2, h3, h4, h5, h6⟩ := Pool.init_ok h
  have hpos : 0 < align := by rw [hk]; exact Nat.pos_of_ne_zero (by simp)
  have hge := roundUp_ge hpos mem
  refine ⟨by omega, by omega, Nat.zero_le _, by rw [h5]; omega, h6, h4, List.Perm.refl _,
    by simp, ?_⟩
  intro q hq1 hq2 _
  refine hn q (by omega) ?_
  have : roomFor size align mem len * size ≤ mem + len - roundUp align mem :=
    Nat.div_mul_le_self _ _
  omega

end Verif
