import Verif.Mem

/-!
# `usize` arithmetic of a 64-bit build, and the typed methods of the `Allocator` trait

Everything else in the model measures memory in elements and computes with unbounded natural
numbers.  Here the machine level is modelled: byte sizes, alignment, `usize` overflow in both
build modes, and allocation failure.
-/

set_option autoImplicit false

namespace Verif

/-- How the crate was compiled: with overflow checks (the debug profile) or without (the
release profile). -/
inductive Build where
  | debug
  | release
  deriving DecidableEq, Repr

/-- The result of a `usize` operation whose mathematical value is `x`: overflow panics in a
debug build and wraps in a release build. -/
def Build.usize (B : Build) (x : Nat) : Exec Nat :=
  if x < 2 ^ 64 then .ok x else
    match B with
    | .debug => .error .panic
    | .release => .ok (x % 2 ^ 64)

/-- `std::alloc::Layout`. -/
structure Layout where
  size : Nat
  align : Nat
  deriving DecidableEq, Repr

/-- `Layout::array::<u8>(n).unwrap()` (src/allocator.rs:107 and 114): panics above
`isize::MAX`. -/
def Layout.bytes (n : Nat) : Exec Layout :=
  if n < 2 ^ 63 then .ok ⟨n, 1⟩ else .error .panic

/-- `layout.align_to(align).unwrap()` (src/allocator.rs:107 and 114): panics if `align` is not
a power of two, or if the size rounded up to the alignment exceeds `isize::MAX`. -/
def Layout.alignTo (l : Layout) (align : Nat) : Exec Layout :=
  if (∃ k ≤ 63, align = 2 ^ k) ∧ l.size ≤ 2 ^ 63 - max l.align align then
    .ok ⟨l.size, max l.align align⟩
  else .error .panic

/-- The layout `DefaultAllocator::allocate::<T>(n)` asks the system for, where `T` has this
size and alignment: the provided method `allocate` (src/allocator.rs:15-21) followed by
`DefaultAllocator::allocate_raw_aligned` (src/allocator.rs:101-110). -/
def Build.allocLayout (B : Build) (size align n : Nat) : Exec Layout := do
  let bytes ← B.usize (n * size)
  if bytes = 0 then .error .panic else do
    let l ← Layout.bytes bytes
    l.alignTo align

/-- The layout `DefaultAllocator::deallocate::<T>(p, n)` returns to the system: the provided
method `deallocate` (src/allocator.rs:47-53) followed by
`DefaultAllocator::deallocate_raw_aligned` (src/allocator.rs:112-117). -/
def Build.deallocLayout (B : Build) (size align n : Nat) : Exec Layout := do
  let bytes ← B.usize (n * size)
  let l ← Layout.bytes bytes
  l.alignTo align

/-- The system allocator behind `std::alloc::alloc`: it picks an unused block identifier, or
returns null when `fails` says so. -/
structure SysAlloc (α : Type) extends RawAlloc α where
  fails : Mem α → Layout → Bool

/-- A system allocator that never runs out of memory. -/
def RawAlloc.total {α : Type} (R : RawAlloc α) : SysAlloc α := { R with fails := fun _ _ => false }

/-- `DefaultAllocator` used for elements of the given size and alignment
(src/allocator.rs:15-21, 47-53, 101-117), at the byte level.  A block of `k` bytes has room
for `k / size` elements; a null pointer is returned unchecked (src/allocator.rs:105-109).  A
block is freed with the layout it was allocated with or the behaviour is undefined.
Simplified: a block whose byte size is not a multiple of the element size (only after a
wrapped multiplication) cannot be freed in the model. -/
def byteAllocator {α : Type} (B : Build) (size align : Nat) (S : SysAlloc α) : Allocator α where
  alloc n m := do
    let l ← B.allocLayout size align n
    if S.fails m l then .ok (.null, m) else .ok (S.toRawAlloc.alloc (l.size / size) m)
  dealloc p n m := do
    let l ← B.deallocLayout size align n
    match p with
    | .loc b 0 =>
      match m.live b with
      | none => .error .ub
      | some blk =>
        if blk.region = .heap ∧ l.size = blk.size * size then .ok (m.setBlock b none)
        else .error .ub
    | _ => .error .ub

end Verif
