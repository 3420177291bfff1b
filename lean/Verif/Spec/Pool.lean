/-!
# What a pool does

This file does not mention the model of the pools.
-/

set_option autoImplicit false

namespace Verif.Spec

/-- Calls on an allocator of single nodes: ask for a node, or return the `k`-th of the nodes
currently handed out (counted from the most recent), if there is one. -/
inductive PoolOp where
  | alloc
  | free (k : Nat)

/-- The first multiple of `align` at or after `addr`. -/
def roundUp (align addr : Nat) : Nat := (addr + align - 1) / align * align

/-- How many nodes of `size` bytes at multiples of `align` fit one after another into the `len`
bytes at `mem`. -/
def roomFor (size align mem len : Nat) : Nat := (mem + len - roundUp align mem) / size

end Verif.Spec
