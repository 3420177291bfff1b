import Verif.LinkedList.Counter
import Verif.Pool.Overflow

/-! Fixed pools in both build modes.

`Verif.Pool.Model` takes every `debug_assert!` and every overflow for a panic.  In a release build
the assertions are absent and the arithmetic wraps. -/

set_option autoImplicit false

namespace Verif
open Spec

variable {N D : Type}

/-- A `debug_assert!`. -/
def Build.debugAssert (B : Build) (p : Prop) [Decidable p] : Exec Unit :=
  match B with
  | .debug => if p then .ok () else .error .panic
  | .release => .ok ()

/-- `FixedPool::init` on the `len` bytes at `mem` (src/fixed_pool/mod.rs:49-78), with `usize`
arithmetic.  `size_of::<Link>()` is 8; a division by zero panics in both builds.
Simplified: the alignment is not 0, which `align_of` never returns (lines 61-63). -/
def Pool.initM (B : Build) (size align mem len : Nat) : Exec Pool := do
  B.debugAssert (align &&& (align - 1) = 0)
  let sum ← B.wrapTo (2 ^ 64) ((mem + (align - 1) : Nat) : Int)
  let next := (BitVec.ofNat 64 sum &&& ~~~BitVec.ofNat 64 (align - 1)).toNat
  let waste ← B.wrapTo (2 ^ 64) ((next : Int) - mem)
  let memorySize ← B.wrapTo (2 ^ 64) ((len : Int) - waste)
  B.debugAssert (8 ≤ size)
  if size = 0 then .error .panic
  else do
    let memorySize := memorySize / size * size
    let capacity ← B.wrapTo (2 ^ 64) ((next + memorySize : Nat) : Int)
    .ok ⟨0, next, capacity⟩

/-- `FixedPool` as an allocator (src/fixed_pool/mod.rs:81-114). -/
def poolNAllocM (B : Build) (u : N) (size align : Nat) : NAlloc N D Pool where
  alloc bytes al s m := do
    B.debugAssert (bytes = size)
    B.debugAssert (al = align)
    if s.head ≠ 0 then
      match m.link s.head with
      | none => .error .ub
      | some nx =>
        .ok (s.head, { s with head := nx }, (m.setLink s.head none).setNode s.head (some u))
    else if s.next ≠ s.capacity then
      .ok (s.next, { s with next := s.next + size }, m.setNode s.next (some u))
    else .ok (0, s, m)
  dealloc p _ _ s m := do
    B.debugAssert (p ≠ 0)
    match m.node p with
    | none => .error .ub
    | some _ => .ok ({ s with head := p }, (m.setNode p none).setLink p (some s.head))

/-- `FixedPoolWithOverflow::init` (src/fixed_pool/with_overflow.rs:49-54). -/
def OPool.initM (B : Build) (size align mem len : Nat) : Exec OPool := do
  let pool ← Pool.initM B size align mem len
  .ok ⟨pool, mem⟩

/-- `FixedPoolWithOverflow` as an allocator (src/fixed_pool/with_overflow.rs:70-95). -/
def opoolNAllocM (B : Build) (u : N) (size align : Nat) (O : NAlloc N D Unit) :
    NAlloc N D OPool where
  alloc bytes al s m := do
    B.debugAssert (bytes = size)
    B.debugAssert (al = align)
    let (p, pool, m) ← (poolNAllocM B u size align).alloc bytes al s.pool m
    if p ≠ 0 then .ok (p, { s with pool := pool }, m)
    else
      let (p, _, m) ← O.alloc bytes al () m
      .ok (p, { s with pool := pool }, m)
  dealloc p bytes al s m :=
    if s.poolBegin ≤ p ∧ p ≤ s.pool.capacity then do
      let (pool, m) ← (poolNAllocM B u size align).dealloc p bytes al s.pool m
      .ok ({ s with pool := pool }, m)
    else do
      let (_, m) ← O.dealloc p bytes al () m
      .ok (s, m)

/-! ## Agreement -/

theorem Build.debugAssert_true (B : Build) {p : Prop} [Decidable p] (h : p) :
    B.debugAssert p = .ok () := by
  cases B
  · exact if_pos h
  · rfl

theorem Build.wrapTo_ok (B : Build) {M : Nat} {x : Int} {n : Nat} (hx : x = n) (h : n < M) :
    B.wrapTo M x = .ok n := by
  subst hx
  unfold Build.wrapTo
  rw [if_pos ⟨Int.natCast_nonneg n, by exact_mod_cast h⟩]
  rfl

/-- A release build wraps a negative result. -/
theorem Build.wrapTo_neg {M n : Nat} {x : Int} (hx : x = -(n : Int)) (h0 : 0 < n) (h : n < M) :
    Build.debug.wrapTo M x = .error .panic ∧ Build.release.wrapTo M x = .ok (M - n) := by
  subst hx
  have hn : ¬ (0 ≤ -(n : Int) ∧ -(n : Int) < M) := by omega
  constructor
  · unfold Build.wrapTo; rw [if_neg hn]
  · unfold Build.wrapTo
    rw [if_neg hn]
    simp only [Except.ok.injEq]
    have e : -(n : Int) % (M : Int) = ((M - n : Nat) : Int) := by
      rw [← Int.add_emod_right, Int.emod_eq_of_lt (by omega) (by omega)]
      omega
    rw [e]
    rfl

/-- A release build wraps a sum. -/
theorem Build.wrapTo_release {M n : Nat} :
    Build.release.wrapTo M (n : Int) = .ok (n % M) := by
  unfold Build.wrapTo
  split
  · rename_i h
    simp only [Except.ok.injEq, Int.toNat_natCast]
    exact (Nat.mod_eq_of_lt (by omega)).symm
  · simp only [Except.ok.injEq]
    rfl

/-- In memory that reaches the first aligned address, `init` does the same in both builds. -/
theorem Pool.initM_eq (B : Build) {size align mem len : Nat} (hk : ∃ k, align = 2 ^ k)
    (h8 : 8 ≤ size) (ho : mem + align ≤ 2 ^ 64) (hend : mem + len < 2 ^ 64)
    (hl : roundUp align mem ≤ mem + len) :
    Pool.initM B size align mem len = Pool.init size align mem len := by
  obtain ⟨k, rfl⟩ := hk
  have hpos : 0 < 2 ^ k := Nat.pos_of_ne_zero (by simp)
  have hge := roundUp_ge hpos mem
  have hup : alignUp (2 ^ k) mem = roundUp (2 ^ k) mem := alignUp_eq (by omega)
  have hand : (2 ^ k &&& (2 ^ k - 1)) = 0 := by rw [and_pred_pow_two]
  have hdiv : (len - (roundUp (2 ^ k) mem - mem)) / size * size ≤
      len - (roundUp (2 ^ k) mem - mem) := Nat.div_mul_le_self _ _
  unfold Pool.initM Pool.init
  rw [B.debugAssert_true hand, B.debugAssert_true h8,
    B.wrapTo_ok (n := mem + (2 ^ k - 1)) rfl (by omega)]
  simp only [Exec.ok_bind]
  rw [show (BitVec.ofNat 64 (mem + (2 ^ k - 1)) &&& ~~~BitVec.ofNat 64 (2 ^ k - 1)).toNat =
    roundUp (2 ^ k) mem from hup, hup,
    B.wrapTo_ok (n := roundUp (2 ^ k) mem - mem) (by omega) (by omega)]
  simp only [Exec.ok_bind]
  rw [B.wrapTo_ok (n := len - (roundUp (2 ^ k) mem - mem)) (by omega) (by omega)]
  simp only [Exec.ok_bind]
  rw [if_neg (by omega : ¬ size = 0), B.wrapTo_ok rfl (by omega), if_neg (by omega),
    if_neg (by rw [hand]; simp), if_neg (by omega), if_neg (by omega), if_neg (by omega)]
  rfl

theorem short_differs {M a z : Nat} (ha : a < M) (h0 : 0 < z) (hz : z < M) : ¬ a = (a + z) % M := by
  intro h
  rcases Nat.lt_or_ge (a + z) M with h1 | h1
  · rw [Nat.mod_eq_of_lt h1] at h; omega
  · rw [Nat.mod_eq_sub_mod h1, Nat.mod_eq_of_lt (by omega)] at h; omega

/-- `init` on memory that does not reach the first aligned address. -/
theorem Pool.initM_short {size align mem len : Nat} (hk : ∃ k ≤ 29, align = 2 ^ k) (h8 : 8 ≤ size)
    (hs : size < 2 ^ 63) (ho : mem + align ≤ 2 ^ 64) (hl : mem + len < roundUp align mem) :
    Pool.initM .debug size align mem len = .error .panic ∧
    ∃ c, Pool.initM .release size align mem len = .ok ⟨0, roundUp align mem, c⟩ ∧
      ¬ roundUp align mem = c := by
  obtain ⟨k, hk29, rfl⟩ := hk
  have hpos : 0 < 2 ^ k := Nat.pos_of_ne_zero (by simp)
  have hle : 2 ^ k ≤ 2 ^ 29 := Nat.pow_le_pow_right (by decide) hk29
  have hge := roundUp_ge hpos mem
  have hup : alignUp (2 ^ k) mem = roundUp (2 ^ k) mem := alignUp_eq (by omega)
  have hand : (2 ^ k &&& (2 ^ k - 1)) = 0 := by rw [and_pred_pow_two]
  have hlt : roundUp (2 ^ k) mem < mem + 2 ^ k := by
    unfold roundUp
    have := Nat.div_mul_le_self (mem + 2 ^ k - 1) (2 ^ k)
    omega
  have hstart : ∀ (B : Build) (r : Exec Nat),
      B.wrapTo (2 ^ 64) ((len : Int) - (roundUp (2 ^ k) mem - mem : Nat)) = r →
      Pool.initM B size (2 ^ k) mem len = (r >>= fun w => (do
        let capacity ← B.wrapTo (2 ^ 64) ((roundUp (2 ^ k) mem + w / size * size : Nat) : Int)
        .ok ⟨0, roundUp (2 ^ k) mem, capacity⟩)) := by
    clear hle hk29 hs
    intro B r hr
    unfold Pool.initM
    rw [B.debugAssert_true hand, B.debugAssert_true h8,
      B.wrapTo_ok (n := mem + (2 ^ k - 1)) rfl (by omega)]
    simp only [Exec.ok_bind]
    rw [show (BitVec.ofNat 64 (mem + (2 ^ k - 1)) &&& ~~~BitVec.ofNat 64 (2 ^ k - 1)).toNat =
      roundUp (2 ^ k) mem from hup,
      B.wrapTo_ok (n := roundUp (2 ^ k) mem - mem) (by omega) (by omega)]
    simp only [Exec.ok_bind]
    rw [hr]
    cases r with
    | error e => simp only [Exec.error_bind]
    | ok w => rw [Exec.ok_bind, Exec.ok_bind, if_neg (show ¬ size = 0 by omega)]
  obtain ⟨d, hd⟩ : ∃ d, d = roundUp (2 ^ k) mem - mem - len := ⟨_, rfl⟩
  have hx : (len : Int) - (roundUp (2 ^ k) mem - mem : Nat) = -(d : Int) := by omega
  obtain ⟨hw1, hw2⟩ := Build.wrapTo_neg (M := 2 ^ 64) hx (by omega) (by omega)
  constructor
  · rw [hstart _ _ hw1, Exec.error_bind]
  · have hdiv : (2 ^ 64 - d) / size * size ≤ 2 ^ 64 - d := Nat.div_mul_le_self _ _
    have hone : 1 * size ≤ (2 ^ 64 - d) / size * size :=
      Nat.mul_le_mul_right _ ((Nat.le_div_iff_mul_le (by omega)).2 (by omega))
    rw [hstart _ _ hw2, Exec.ok_bind]
    generalize (2 ^ 64 - d) / size * size = z at hdiv hone
    rw [Build.wrapTo_release]
    have hne := short_differs (M := 2 ^ 64) (a := roundUp (2 ^ k) mem) (z := z) (by omega) (by omega)
      (by omega)
    generalize (roundUp (2 ^ k) mem + z) % 2 ^ 64 = c at hne
    exact ⟨c, rfl, hne⟩

theorem poolNAllocM_alloc (B : Build) (u : N) (size align : Nat) (s : Pool) (m : NMem N D) :
    (poolNAllocM B u size align).alloc size align s m =
      (poolNAlloc u size align).alloc size align s m := by
  simp only [poolNAllocM, poolNAlloc, B.debugAssert_true trivial, Exec.ok_bind, ne_eq, not_true, or_self,
    if_false]
  cases m.link s.head <;> rfl

theorem poolNAllocM_dealloc (B : Build) (u : N) (size align : Nat) {p : Nat} (hp : p ≠ 0)
    (b a : Nat) (s : Pool) (m : NMem N D) :
    (poolNAllocM B u size align).dealloc p b a s m =
      (poolNAlloc u size align).dealloc p b a s m := by
  simp only [poolNAllocM, poolNAlloc, B.debugAssert_true hp, Exec.ok_bind, if_neg hp]
  cases m.node p <;> rfl

theorem opoolNAllocM_alloc (B : Build) (u : N) (size align : Nat) (O : NAlloc N D Unit) (s : OPool)
    (m : NMem N D) :
    (opoolNAllocM B u size align O).alloc size align s m =
      (opoolNAlloc u size align O).alloc size align s m := by
  simp only [opoolNAllocM, opoolNAlloc, B.debugAssert_true trivial, Exec.ok_bind, ne_eq, not_true,
    or_self, if_false, poolNAllocM_alloc]

theorem opoolNAllocM_dealloc (B : Build) (u : N) (size align : Nat) (O : NAlloc N D Unit) {p : Nat}
    (hp : p ≠ 0) (b a : Nat) (s : OPool) (m : NMem N D) :
    (opoolNAllocM B u size align O).dealloc p b a s m =
      (opoolNAlloc u size align O).dealloc p b a s m := by
  simp only [opoolNAllocM, opoolNAlloc, poolNAllocM_dealloc B u size align hp]

end Verif
