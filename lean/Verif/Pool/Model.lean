import Verif.LinkedList.Model

/-!
# Model of `FixedPool`, `FixedPoolWithOverflow` and `FixedList`
(src/fixed_pool/mod.rs, src/fixed_pool/with_overflow.rs, src/fixed_list/mod.rs,
src/fixed_list/conformant.rs)

Assertions (`debug_assert!`) and arithmetic overflow are modelled as panics, as in a debug
build.  `size` and `align` are `size_of::<Node>()` and `align_of::<Node>()`.
-/

set_option autoImplicit false

namespace Verif

/-- `FixedPool<Node>` (src/fixed_pool/mod.rs:22-27); `Default` (116-125) is all null; `new` (35-40)
is `Default` and `init`. -/
structure Pool where
  head : Nat
  next : Nat
  capacity : Nat
  deriving DecidableEq, Repr, Inhabited

/-- `Default for FixedPool` (src/fixed_pool/mod.rs:116-125). -/
def Pool.default : Pool := ⟨0, 0, 0⟩

/-- `(addr + (align - 1)) & !(align - 1)` on `usize` (src/fixed_pool/mod.rs:65), when the sum
does not overflow. -/
def alignUp (align addr : Nat) : Nat :=
  (BitVec.ofNat 64 (addr + (align - 1)) &&& ~~~BitVec.ofNat 64 (align - 1)).toNat

/-- `FixedPool::init` on the `len` bytes at `mem` (src/fixed_pool/mod.rs:49-78).
`size_of::<Link>()` is 8. -/
def Pool.init (size align mem len : Nat) : Exec Pool :=
  if align = 0 then .error .panic
  else if align &&& (align - 1) ≠ 0 then .error .panic
  else if 2 ^ 64 ≤ mem + (align - 1) then .error .panic
  else
    let next := alignUp align mem
    if len < next - mem then .error .panic
    else
      let len := len - (next - mem)
      if size < 8 then .error .panic
      else
        let len := len / size * size
        .ok ⟨0, next, next + len⟩

/-- `can_allocate` (src/fixed_pool/mod.rs:43-45). -/
def Pool.canAllocate (s : Pool) : Bool := decide (s.head ≠ 0) || decide (s.next ≠ s.capacity)

/-- `FixedPool` as an allocator (src/fixed_pool/mod.rs:81-114).  A node handed out holds
unspecified contents `u`; a node given back holds the link to the next free node and may not be
used as a node any more. -/
def poolNAlloc {N D : Type} (u : N) (size align : Nat) : NAlloc N D Pool where
  alloc bytes al s m :=
    if bytes ≠ size ∨ al ≠ align then .error .panic
    else if s.head ≠ 0 then
      match m.link s.head with
      | none => .error .ub
      | some nx =>
        .ok (s.head, { s with head := nx }, (m.setLink s.head none).setNode s.head (some u))
    else if s.next ≠ s.capacity then
      .ok (s.next, { s with next := s.next + size }, m.setNode s.next (some u))
    else .ok (0, s, m)
  dealloc p _ _ s m :=
    if p = 0 then .error .panic
    else match m.node p with
      | none => .error .ub
      | some _ => .ok ({ s with head := p }, (m.setNode p none).setLink p (some s.head))

/-- `FixedPoolWithOverflow<Node, DefaultAllocator>` (src/fixed_pool/with_overflow.rs:8-12).  The
overflow allocator has no state of its own. -/
structure OPool where
  pool : Pool
  poolBegin : Nat
  deriving DecidableEq, Repr

/-- `with_allocator` (src/fixed_pool/with_overflow.rs:30-36) and `Default` (97-107). -/
def OPool.withAllocator : OPool := ⟨Pool.default, 0⟩

/-- `init` (src/fixed_pool/with_overflow.rs:49-54; `new` 20-27 and `new_with_default_allocator` 65-67
are `with_allocator` and this). -/
def OPool.init (size align mem len : Nat) : Exec OPool := do
  let pool ← Pool.init size align mem len
  .ok ⟨pool, mem⟩

/-- `can_allocate` (src/fixed_pool/with_overflow.rs:41-43). -/
def OPool.canAllocate (s : OPool) : Bool := s.pool.canAllocate

/-- `FixedPoolWithOverflow` as an allocator (src/fixed_pool/with_overflow.rs:70-95). -/
def opoolNAlloc {N D : Type} (u : N) (size align : Nat) (O : NAlloc N D Unit) :
    NAlloc N D OPool where
  alloc bytes al s m :=
    if bytes ≠ size ∨ al ≠ align then .error .panic
    else do
      let (p, pool, m) ← (poolNAlloc u size align).alloc bytes al s.pool m
      if p ≠ 0 then .ok (p, { s with pool := pool }, m)
      else
        let (p, _, m) ← O.alloc bytes al () m
        .ok (p, { s with pool := pool }, m)
  dealloc p bytes al s m :=
    if s.poolBegin ≤ p ∧ p ≤ s.pool.capacity then do
      let (pool, m) ← (poolNAlloc u size align).dealloc p bytes al s.pool m
      .ok ({ s with pool := pool }, m)
    else do
      let (_, m) ← O.dealloc p bytes al () m
      .ok (s, m)

/-- `FixedList::new_in` (src/fixed_list/mod.rs:42-64, 74-76, src/fixed_list/conformant.rs:38-58, 160-162): the
sentinel is at `s`, the inline buffer of `len` bytes at `buf`.  For `FixedList<T, N, _>` of
src/fixed_list/mod.rs `len = N * size`; for the conformant one `len = (N + 1) * size - 1`.  All
other calls are those of the base list (src/fixed_list/mod.rs:87-103; for the conformant one see
`ConformantList.step`). -/
def fixedListNewIn {α : Type} (size align : Nat) (s buf len : Nat) (m : LMem α) :
    Exec (LList OPool × LMem α) := do
  let l : LList OPool := ⟨s, 0, OPool.withAllocator⟩
  let m ← l.initSentinel m
  let al ← OPool.init size align buf len
  .ok ({ l with al := al }, m)

end Verif
