import Mathlib.Logic.Function.Basic

/-!
# Memory model shared by the array-like containers

`/repo` is raw-pointer Rust.  The model keeps pointers and memory explicit: memory is a
collection of live blocks of cells, a cell is `none` when it was never written, and every
access is checked.  A failed check is `Fault.ub`; a Rust panic is `Fault.panic`.

Simplifications (also listed in DESIGN.md): a block is measured in elements, not in bytes
(`Allocator::allocate::<T>(n)` multiplies by `size_of::<T>()`, src/allocator.rs:15-21, and
`deallocate` by the same factor, src/allocator.rs:47-53, so for `size_of::<T>() > 0` equal
element counts mean equal layouts); allocation never fails; zero-sized `T` is excluded.
-/

set_option autoImplicit false

namespace Verif

/-- What can go wrong: a Rust panic, or undefined behaviour. -/
inductive Fault where
  | panic
  | ub
  deriving DecidableEq, Repr

/-- Result of running modelled code. -/
abbrev Exec := Except Fault

/-- `*mut T`: null, or an element offset into a block. -/
inductive Ptr where
  | null
  | loc (blk : Nat) (off : Nat)
  deriving DecidableEq, Repr

/-- Whether a block came from the (overflow/global) allocator or is storage embedded in an
object (`FixedVector::buffer`, src/fixed_vector/mod.rs). -/
inductive Region where
  | heap
  | inline
  deriving DecidableEq, Repr

/-- A live block: number of elements it was allocated for, origin, and its cells. -/
structure Block (α : Type) where
  size : Nat
  region : Region
  cells : Nat → Option α

/-- Memory.  `bound` only records that finitely many blocks are live, so that an allocator
always has a fresh block to return.  `dropped` logs destructor calls in order, `allocs`
counts allocator calls, `copied` counts elements moved by `ptr::copy`. -/
structure Mem (α : Type) where
  live : Nat → Option (Block α)
  bound : Nat
  bound_ok : ∀ b, bound ≤ b → live b = none
  dropped : List α
  allocs : Nat
  copied : Nat

namespace Mem
variable {α : Type}

/-- Memory in which nothing is live. -/
def empty : Mem α := ⟨fun _ => none, 0, fun _ _ => rfl, [], 0, 0⟩

/-- Replace the block stored under an identifier. -/
def setBlock (m : Mem α) (b : Nat) (o : Option (Block α)) : Mem α :=
  { m with
    live := Function.update m.live b o
    bound := max m.bound (b + 1)
    bound_ok := by
      intro b' h
      have h1 : m.bound ≤ b' := Nat.le_trans (Nat.le_max_left _ _) h
      have h2 : b' ≠ b := by
        have : b + 1 ≤ b' := Nat.le_trans (Nat.le_max_right _ _) h
        omega
      simp [Function.update, h2, m.bound_ok b' h1] }

/-- Raw cell access behind `*p`, bounds-checked. -/
def cell (m : Mem α) : Ptr → Exec (Option α)
  | .null => .error .ub
  | .loc b o =>
    match m.live b with
    | none => .error .ub
    | some blk => if o < blk.size then .ok (blk.cells o) else .error .ub

/-- `ptr::read`: the bits stay in memory; reading an uninitialised cell is UB. -/
def read (m : Mem α) (p : Ptr) : Exec α :=
  match m.cell p with
  | .error e => .error e
  | .ok none => .error .ub
  | .ok (some x) => .ok x

/-- `ptr::write`: stores without dropping what was there. -/
def write (m : Mem α) (p : Ptr) (x : α) : Exec (Mem α) :=
  match p with
  | .null => .error .ub
  | .loc b o =>
    match m.live b with
    | none => .error .ub
    | some blk =>
      if o < blk.size then
        .ok (m.setBlock b (some { blk with cells := Function.update blk.cells o (some x) }))
      else .error .ub

/-- `ptr::copy` (memmove) of `n` elements. -/
def copy (m : Mem α) (src dst : Ptr) (n : Nat) : Exec (Mem α) :=
  match src, dst with
  | .loc sb so, .loc db d =>
    match m.live sb, m.live db with
    | some s, some t =>
      if so + n ≤ s.size ∧ d + n ≤ t.size then
        let m' := m.setBlock db (some { t with
          cells := fun j => if d ≤ j ∧ j < d + n then s.cells (so + (j - d)) else t.cells j })
        .ok { m' with copied := m'.copied + n }
      else .error .ub
    | _, _ => .error .ub
  | _, _ => .error .ub

/-- `ptr.add(n)`: the result must stay inside the block or one past its end. -/
def ptrAdd (m : Mem α) (p : Ptr) (n : Nat) : Exec Ptr :=
  match p with
  | .null => if n = 0 then .ok .null else .error .ub
  | .loc b o =>
    match m.live b with
    | none => .error .ub
    | some blk => if o + n ≤ blk.size then .ok (.loc b (o + n)) else .error .ub

/-- `ptr.sub(n)`. -/
def ptrSub (m : Mem α) (p : Ptr) (n : Nat) : Exec Ptr :=
  match p with
  | .null => if n = 0 then .ok .null else .error .ub
  | .loc b o =>
    match m.live b with
    | none => .error .ub
    | some _ => if n ≤ o then .ok (.loc b (o - n)) else .error .ub

/-- `ptr::drop_in_place` on one element.  `nd` says whether the element type has a
destructor (`mem::needs_drop`); if not, nothing happens. -/
def dropCell (nd : Bool) (m : Mem α) (p : Ptr) : Exec (Mem α) :=
  if nd then do
    let x ← m.read p
    .ok { m with dropped := m.dropped ++ [x] }
  else .ok m

end Mem

/-- Pointer one element further, without a check (used by slice loops, whose every access is
checked). -/
def Ptr.next : Ptr → Ptr
  | .null => .null
  | .loc b o => .loc b (o + 1)

/-- `a.offset_from(b)` for `a` at or after `b`; anything else is a fault.  Simplified: Rust
would return a negative count for `a` before `b` in one block, which the callers then cast to
a huge `usize`; the model reports a fault instead. -/
def Ptr.offsetFrom : Ptr → Ptr → Exec Nat
  | .null, .null => .ok 0
  | .loc b o, .loc b' o' => if b = b' ∧ o' ≤ o then .ok (o - o') else .error .ub
  | _, _ => .error .ub

namespace Mem
variable {α : Type}

/-- Reading a slice `from_raw_parts(p, n)`. -/
def readRange (m : Mem α) (p : Ptr) : Nat → Exec (List α)
  | 0 => .ok []
  | n + 1 => do
    let x ← m.read p
    let xs ← m.readRange p.next n
    .ok (x :: xs)

/-- `ptr::drop_in_place` on a slice, in index order. -/
def dropRange (nd : Bool) (m : Mem α) (p : Ptr) : Nat → Exec (Mem α)
  | 0 => .ok m
  | n + 1 => do
    let m ← m.dropCell nd p
    dropRange nd m p.next n

/-- `slice.clone_from_slice(buf)`: element by element `*slot = buf[i].clone()`, which drops
the old value of the slot.  `Clone` is modelled as the identity on values.  For a type
without destructor (`nd = false`) this is a plain copy. -/
def cloneFrom (nd : Bool) (m : Mem α) (p : Ptr) : List α → Exec (Mem α)
  | [] => .ok m
  | x :: xs => do
    let m ← m.dropCell nd p
    let m ← m.write p x
    cloneFrom nd m p.next xs

end Mem

/-- The global allocator: any rule for choosing a block identifier that is not live.  An
identifier that was freed may be chosen again. -/
structure RawAlloc (α : Type) where
  pick : Mem α → Nat → Nat
  fresh : ∀ (m : Mem α) (n : Nat), m.live (pick m n) = none

/-- One such rule, used for concrete runs: never reuse an identifier. -/
def RawAlloc.bump {α : Type} : RawAlloc α :=
  ⟨fun m _ => m.bound, fun m _ => m.bound_ok _ (Nat.le_refl _)⟩

/-- The `Allocator` trait as used by the containers (src/allocator.rs:9-86), in elements. -/
structure Allocator (α : Type) where
  alloc : Nat → Mem α → Exec (Ptr × Mem α)
  dealloc : Ptr → Nat → Mem α → Exec (Mem α)

/-- Take a fresh block of `n` uninitialised cells. -/
def RawAlloc.alloc {α : Type} (R : RawAlloc α) (n : Nat) (m : Mem α) : Ptr × Mem α :=
  let b := R.pick m n
  let m' := m.setBlock b (some ⟨n, .heap, fun _ => none⟩)
  (.loc b 0, { m' with allocs := m'.allocs + 1 })

/-- Return a block: it must be live, from the heap, addressed at its start and freed with the
size it was allocated with. -/
def rawDealloc {α : Type} (p : Ptr) (n : Nat) (m : Mem α) : Exec (Mem α) :=
  match p with
  | .loc b 0 =>
    match m.live b with
    | none => .error .ub
    | some blk =>
      if blk.region = .heap ∧ blk.size = n then .ok (m.setBlock b none) else .error .ub
  | _ => .error .ub

/-- `DefaultAllocator` (src/allocator.rs:89-119). -/
def defaultAllocator {α : Type} (R : RawAlloc α) : Allocator α where
  alloc n m := if n = 0 then .error .panic else .ok (R.alloc n m)
  dealloc := rawDealloc

end Verif
