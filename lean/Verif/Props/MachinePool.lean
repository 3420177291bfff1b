import Verif.Machine.Pool
import Verif.Props.Pool

/-!
# Fixed pools in both build modes (C157)

In a release build the assertions of the pool are absent and its arithmetic wraps.
-/

set_option autoImplicit false

namespace Verif
open Spec

variable {N D σ : Type} {size align mem len : Nat}

/-- A pool created on `len` bytes at `mem` and put through the calls `ops`, in the build `B`. -/
def poolHistoryM (B : Build) (u : N) (size align mem len : Nat) (ops : List PoolOp)
    (m0 : NMem N D) : Exec (List Nat × Pool × NMem N D × List Nat) := do
  let s ← Pool.initM B size align mem len
  poolRun (poolNAllocM B u size align) size align ops (s, m0, [])

/-- A pool with overflow created on `len` bytes at `mem` and put through the calls `ops`, in the
build `B`. -/
def opoolHistoryM (B : Build) (P : Placer N D) (u : N) (size align mem len : Nat)
    (ops : List PoolOp) (m0 : NMem N D) : Exec (List Nat × OPool × NMem N D × List Nat) := do
  let s ← OPool.initM B size align mem len
  poolRun (opoolNAllocM B u size align (defaultNAlloc P u false)) size align ops (s, m0, [])

/-- Two allocators that agree on nodes, except on freeing null. -/
theorem poolRun_agree {A A' : NAlloc N D σ}
    (ha : ∀ s m, A.alloc size align s m = A'.alloc size align s m)
    (hd : ∀ p s m, p ≠ 0 → A.dealloc p size align s m = A'.dealloc p size align s m)
    (ops : List PoolOp) : ∀ (s : σ) (m : NMem N D) (live : List Nat), (∀ p ∈ live, p ≠ 0) →
      poolRun A size align ops (s, m, live) = poolRun A' size align ops (s, m, live) := by
  induction ops with
  | nil => intro s m live _; rfl
  | cons op ops ih =>
    intro s m live h0
    cases op with
    | alloc =>
      simp only [poolRun, poolStep, ha]
      cases A'.alloc size align s m with
      | error e => rfl
      | ok r =>
        obtain ⟨p, s1, m1⟩ := r
        simp only [Exec.ok_bind]
        rw [ih]
        intro q hq
        split at hq
        · exact h0 q hq
        · rename_i hp
          rcases List.mem_cons.1 hq with rfl | hq
          · exact hp
          · exact h0 q hq
    | free j =>
      simp only [poolRun, poolStep]
      cases hj : live[j]? with
      | none => simp only [Exec.ok_bind]; rw [ih s m live h0]
      | some p =>
        simp only [hd p s m (h0 p (List.mem_of_getElem? hj))]
        cases A'.dealloc p size align s m with
        | error e => rfl
        | ok r =>
          obtain ⟨s1, m1⟩ := r
          simp only [Exec.ok_bind]
          rw [ih]
          exact fun q hq => h0 q (List.mem_of_mem_erase hq)

/-- C157, the part that holds.  A pool in memory that reaches the first aligned address, whose nodes
can hold a pointer, does the same in both builds, so that C41 and C42 hold of both.  Missing: other
memory and smaller nodes, see `C157_short_memory_release` and `C157_small_nodes_release`. -/
theorem C157_pool_builds_partial (B : Build) (u : N) (hk : ∃ k, align = 2 ^ k) (h8 : 8 ≤ size)
    (ho : mem + align ≤ 2 ^ 64) (hend : mem + len < 2 ^ 64) (hl : roundUp align mem ≤ mem + len)
    (ops : List PoolOp) (m0 : NMem N D) :
    poolHistoryM B u size align mem len ops m0 = poolHistory u size align mem len ops m0 := by
  unfold poolHistoryM poolHistory
  rw [Pool.initM_eq B hk h8 ho hend hl]
  cases Pool.init size align mem len with
  | error e => rfl
  | ok s =>
    exact poolRun_agree (poolNAllocM_alloc B u size align)
      (fun p s m hp => poolNAllocM_dealloc B u size align hp size align s m) ops s m0 []
      (fun p hp => nomatch hp)

/-- C157 for pools with overflow: as C157_pool_builds_partial, and what is missing is the same. -/
theorem C157_overflow_pool_builds_partial (B : Build) (P : Placer N D) (u : N)
    (hk : ∃ k, align = 2 ^ k) (h8 : 8 ≤ size) (ho : mem + align ≤ 2 ^ 64)
    (hend : mem + len < 2 ^ 64) (hl : roundUp align mem ≤ mem + len) (ops : List PoolOp)
    (m0 : NMem N D) :
    opoolHistoryM B P u size align mem len ops m0 = opoolHistory P u size align mem len ops m0 := by
  unfold opoolHistoryM opoolHistory OPool.initM OPool.init
  rw [Pool.initM_eq B hk h8 ho hend hl]
  cases Pool.init size align mem len with
  | error e => rfl
  | ok s =>
    exact poolRun_agree (opoolNAllocM_alloc B u size align _)
      (fun p s m hp => opoolNAllocM_dealloc B u size align _ hp size align s m) ops _ m0 []
      (fun p hp => nomatch hp)

/-- Non-vacuity: a misaligned pool of three nodes. -/
example (B : Build) : (do
    let (os, s, _, live) ← poolHistoryM (N := Unit) (D := Unit) B () 16 16 41 70
      [.alloc, .alloc, .free 1, .alloc] NMem.empty
    .ok (os, s, live)) = (.ok ([48, 64, 48], ⟨0, 80, 96⟩, [48, 64]) :
      Exec (List Nat × Pool × List Nat)) := by
  rw [C157_pool_builds_partial B () ⟨4, rfl⟩ (by decide) (by decide) (by decide) (by decide)]
  decide +kernel

/-- C157 fails for memory that does not reach the first aligned address: `init` panics in a debug
build; in a release build it makes a pool that says it has room, and the first node handed out lies
behind the memory it was given. -/
theorem C157_short_memory_release (u : N) (hk : ∃ k ≤ 29, align = 2 ^ k) (h8 : 8 ≤ size)
    (hs : size < 2 ^ 63) (ho : mem + align ≤ 2 ^ 64) (hl : mem + len < roundUp align mem)
    (m0 : NMem N D) :
    Pool.initM .debug size align mem len = .error .panic ∧
    ∃ s, Pool.initM .release size align mem len = .ok s ∧ s.canAllocate = true ∧
      ∃ p s' m', (poolNAllocM .release u size align).alloc size align s m0 = .ok (p, s', m') ∧
        p ≠ 0 ∧ mem + len < p := by
  obtain ⟨h1, c, h2, hne⟩ := Pool.initM_short hk h8 hs ho hl
  have hge : 0 < roundUp align mem := by omega
  refine ⟨h1, _, h2, ?_, roundUp align mem, ⟨0, roundUp align mem + size, c⟩,
    m0.setNode (roundUp align mem) (some u), ?_, by omega, hl⟩
  · simp only [Pool.canAllocate, ne_eq, hne, not_false_eq_true, decide_true, Bool.or_true]
  · rw [poolNAllocM_alloc]
    simp only [poolNAlloc, ne_eq, not_true, or_self, if_false, hne, not_false_eq_true, if_true]

/-- Non-vacuity: three bytes at address 17, for nodes that are aligned to 16. -/
example : Pool.initM .debug 16 16 17 3 = .error .panic ∧
    ∃ s, Pool.initM .release 16 16 17 3 = .ok s ∧ s.canAllocate = true ∧
      ∃ p s' m', (poolNAllocM .release () 16 16).alloc 16 16 s (NMem.empty : NMem Unit Unit) =
        .ok (p, s', m') ∧ p ≠ 0 ∧ 17 + 3 < p :=
  C157_short_memory_release () ⟨4, by decide, rfl⟩ (by decide) (by decide) (by decide) (by decide) _

/-- C157 fails for nodes smaller than a pointer: `init` panics in a debug build; a release build hands
out two nodes less than eight bytes apart, so that the link which freeing the first writes into its
first eight bytes reaches into the second. -/
theorem C157_small_nodes_release (u : N) (hk : ∃ k, align = 2 ^ k) (h0 : 0 < size) (h8 : size < 8)
    (hm : mem ≠ 0) (ho : mem + align ≤ 2 ^ 64) (hend : mem + len < 2 ^ 64)
    (hl : roundUp align mem + 2 * size ≤ mem + len) (m0 : NMem N D) :
    Pool.initM .debug size align mem len = .error .panic ∧
    ∃ p q s m, poolHistoryM .release u size align mem len [.alloc, .alloc] m0 =
        .ok ([p, q], s, m, [q, p]) ∧ p < q ∧ q < p + 8 := by
  obtain ⟨k, rfl⟩ := hk
  have hpos : 0 < 2 ^ k := Nat.pos_of_ne_zero (by simp)
  have hge := roundUp_ge hpos mem
  have hup : alignUp (2 ^ k) mem = roundUp (2 ^ k) mem := alignUp_eq (by omega)
  have hand : (2 ^ k &&& (2 ^ k - 1)) = 0 := by rw [and_pred_pow_two]
  obtain ⟨w, hw⟩ : ∃ w, w = len - (roundUp (2 ^ k) mem - mem) := ⟨_, rfl⟩
  have hstart : ∀ B : Build, Pool.initM B size (2 ^ k) mem len = (do
      B.debugAssert (8 ≤ size)
      let capacity ← B.wrapTo (2 ^ 64) ((roundUp (2 ^ k) mem + w / size * size : Nat) : Int)
      .ok ⟨0, roundUp (2 ^ k) mem, capacity⟩) := by
    intro B
    unfold Pool.initM
    rw [B.debugAssert_true hand, B.wrapTo_ok (n := mem + (2 ^ k - 1)) rfl (by omega)]
    simp only [Exec.ok_bind]
    rw [show (BitVec.ofNat 64 (mem + (2 ^ k - 1)) &&& ~~~BitVec.ofNat 64 (2 ^ k - 1)).toNat =
      roundUp (2 ^ k) mem from hup,
      B.wrapTo_ok (n := roundUp (2 ^ k) mem - mem) (by omega) (by omega)]
    simp only [Exec.ok_bind]
    rw [B.wrapTo_ok (n := w) (by omega) (by omega)]
    simp only [Exec.ok_bind, if_neg (show ¬ size = 0 by omega)]
  have hdiv : w / size * size ≤ w := Nat.div_mul_le_self _ _
  have htwo : 2 * size ≤ w / size * size :=
    Nat.mul_le_mul_right _ ((Nat.le_div_iff_mul_le h0).2 (by omega))
  generalize w / size * size = z at hstart hdiv htwo
  constructor
  · rw [hstart]
    simp only [Build.debugAssert, if_neg (show ¬ 8 ≤ size by omega), Exec.error_bind]
  · generalize hr : roundUp (2 ^ k) mem = r at *
    have hinit : Pool.initM .release size (2 ^ k) mem len = .ok ⟨0, r, r + z⟩ := by
      rw [hstart, Build.release.wrapTo_ok rfl (by omega)]
      rfl
    refine ⟨r, r + size, ⟨0, r + size + size, r + z⟩,
      (m0.setNode r (some u)).setNode (r + size) (some u), ?_, by omega, by omega⟩
    unfold poolHistoryM
    rw [hinit]
    simp only [Exec.ok_bind, poolRun, poolStep, poolNAllocM_alloc]
    simp only [poolNAlloc, ne_eq, not_true, or_self, if_false,
      show ¬ r = r + z by omega, not_false_eq_true, if_true, Exec.ok_bind,
      show ¬ r + size = r + z by omega, show ¬ r = 0 by omega, show ¬ r + size = 0 by omega]
    rfl

/-- Non-vacuity: nodes of four bytes. -/
example : Pool.initM .debug 4 4 64 16 = .error .panic ∧
    ∃ p q s m, poolHistoryM .release () 4 4 64 16 [.alloc, .alloc]
      (NMem.empty : NMem Unit Unit) = .ok ([p, q], s, m, [q, p]) ∧ p < q ∧ q < p + 8 :=
  C157_small_nodes_release () ⟨2, rfl⟩ (by decide) (by decide) (by decide) (by decide) (by decide)
    (by decide) _

/-- C157 fails for requests that are not for one node: a debug build panics, and a release build
hands out one node whatever the size and alignment asked for. -/
theorem C157_wrong_request_release (u : N) {bytes al : Nat} (h : bytes ≠ size ∨ al ≠ align)
    (s : Pool) (m : NMem N D) :
    (poolNAllocM .debug u size align).alloc bytes al s m = .error .panic ∧
    (poolNAllocM .release u size align).alloc bytes al s m =
      (poolNAllocM .release u size align).alloc size align s m := by
  refine ⟨?_, rfl⟩
  simp only [poolNAllocM, Build.debugAssert]
  by_cases h1 : bytes = size
  · have h2 : ¬ al = align := by rcases h with h | h
                                 · exact absurd h1 h
                                 · exact h
    simp only [if_pos h1, if_neg h2, Exec.ok_bind, Exec.error_bind]
  · simp only [if_neg h1, Exec.error_bind]

end Verif
