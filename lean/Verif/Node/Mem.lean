import Verif.Mem

/-!
# Memory model shared by the node-based containers

Lists, trees and hash-table chains allocate one node at a time.  Addresses are byte addresses
(`Nat`, 0 is null), so that alignment, pools and byte ranges can be stated.  A node is a record
`N` whose fields are only reached through a checked access: the address must currently be a
node.  `D` is the type of values that have destructors.

Simplifications (also in DESIGN.md): addresses are unbounded and allocation of a fresh block
never fails; the bytes of a node are one record, so the model never sees two overlapping nodes
(that nodes do not overlap is proved: C40, C41); the free-list link that a pool writes into a
freed node lives in `link`, and the node itself is inaccessible until handed out again.
-/

set_option autoImplicit false

namespace Verif

/-- A range of bytes in use: its layout, and whether it came from the global allocator (as
opposed to the storage of an object, such as the inline buffer of a fixed container). -/
structure Range where
  size : Nat
  align : Nat
  heap : Bool
  deriving DecidableEq, Repr

/-- Memory.  `node a` is the node at address `a`, if `a` may be dereferenced as one; `link a` is
the free-list link stored at `a`; `reg a` is the range starting at `a`; `top` bounds all ranges
(finitely many are in use). -/
structure NMem (N D : Type) where
  node : Nat → Option N
  link : Nat → Option Nat
  reg : Nat → Option Range
  top : Nat
  top_ok : ∀ a r, reg a = some r → a + r.size ≤ top
  dropped : List D

namespace NMem
variable {N D : Type}

/-- Memory in which nothing is in use. -/
def empty : NMem N D := ⟨fun _ => none, fun _ => none, fun _ => none, 0, nofun, []⟩

/-- `*p`. -/
def get (m : NMem N D) (p : Nat) : Exec N :=
  match m.node p with
  | none => .error .ub
  | some n => .ok n

/-- Write through `p`, which must be a node already. -/
def modify (m : NMem N D) (p : Nat) (f : N → N) : Exec (NMem N D) :=
  match m.node p with
  | none => .error .ub
  | some n => .ok { m with node := Function.update m.node p (some (f n)) }

/-- Change which node, if any, is at `p`. -/
def setNode (m : NMem N D) (p : Nat) (o : Option N) : NMem N D :=
  { m with node := Function.update m.node p o }

/-- Store a free-list link. -/
def setLink (m : NMem N D) (p : Nat) (o : Option Nat) : NMem N D :=
  { m with link := Function.update m.link p o }

/-- Start or end using a range. -/
def setReg (m : NMem N D) (p : Nat) (o : Option Range) : NMem N D :=
  { m with
    reg := Function.update m.reg p o
    top := max m.top (match o with | none => 0 | some r => p + r.size)
    top_ok := by
      intro a r h
      by_cases ha : a = p
      · subst ha
        rw [Function.update_self] at h
        subst h
        exact Nat.le_max_right _ _
      · rw [Function.update_of_ne ha] at h
        exact Nat.le_trans (m.top_ok a r h) (Nat.le_max_left _ _) }

/-- `ptr::drop_in_place` of a value with (`nd`) or without destructor. -/
def logDrop (m : NMem N D) (nd : Bool) (x : D) : NMem N D :=
  if nd then { m with dropped := m.dropped ++ [x] } else m

/-- Ranges in use do not overlap, and nodes lie inside ranges. -/
structure WF (m : NMem N D) : Prop where
  disj : ∀ a b r r', m.reg a = some r → m.reg b = some r' → a ≠ b →
    a + r.size ≤ b ∨ b + r'.size ≤ a
  cover : ∀ q, m.node q ≠ none → ∃ a r, m.reg a = some r ∧ a ≤ q ∧ q < a + r.size
  null : ∀ a r, m.reg a = some r → a ≠ 0

end NMem

/-- The global allocator: any placement of a block of the given size and alignment that does
not overlap a range in use.  A freed address may be used again. -/
structure Placer (N D : Type) where
  pick : NMem N D → Nat → Nat → Nat
  pos : ∀ (m : NMem N D) (b a : Nat), pick m b a ≠ 0
  aligned : ∀ (m : NMem N D) (b a : Nat), 0 < a → a ∣ pick m b a
  fresh : ∀ (m : NMem N D) (b a : Nat), m.reg (pick m b a) = none
  disj : ∀ (m : NMem N D) (b a x : Nat) (r : Range), m.reg x = some r → x + r.size ≤ pick m b a ∨ pick m b a + b ≤ x

/-- A container's `Allocator` (src/allocator.rs:9-84) with its own state `σ`, in bytes.  `alloc`
returns address 0 when the Rust code returns a null pointer. -/
structure NAlloc (N D σ : Type) where
  alloc : Nat → Nat → σ → NMem N D → Exec (Nat × σ × NMem N D)
  dealloc : Nat → Nat → Nat → σ → NMem N D → Exec (σ × NMem N D)

/-- `DefaultAllocator` (src/allocator.rs:101-119).  With `strict`, `dealloc` requires the layout
the block was allocated with, as `std::alloc::dealloc` documents; without, it ignores the
layout, as the system `free` underneath does.  `u` is what an uninitialised node looks like. -/
def defaultNAlloc {N D : Type} (P : Placer N D) (u : N) (strict : Bool) : NAlloc N D Unit where
  alloc bytes align _ m :=
    if bytes = 0 then .error .panic
    else
      let p := P.pick m bytes align
      .ok (p, (), (m.setReg p (some ⟨bytes, align, true⟩)).setNode p (some u))
  dealloc p bytes align _ m :=
    match m.reg p with
    | none => .error .ub
    | some r =>
      if r.heap = true ∧ (strict = true → r.size = bytes ∧ r.align = align) then
        .ok ((), (m.setReg p none).setNode p none)
      else .error .ub

/-- A concrete placement for examples: above everything in use. -/
def Placer.bump {N D : Type} : Placer N D where
  pick m _ a := (m.top + 1) * max a 1
  pos m b a := by
    have : 0 < (m.top + 1) * max a 1 := Nat.mul_pos (by omega) (by omega)
    omega
  aligned m b a h := by
    rw [Nat.max_eq_left h]; exact Nat.dvd_mul_left _ _
  fresh m b a := by
    have h1 : m.top + 1 ≤ (m.top + 1) * max a 1 := Nat.le_mul_of_pos_right _ (by omega)
    cases h : m.reg ((m.top + 1) * max a 1) with
    | none => rfl
    | some r => have := m.top_ok _ _ h; omega
  disj m b a x r h := by
    have h1 : m.top + 1 ≤ (m.top + 1) * max a 1 := Nat.le_mul_of_pos_right _ (by omega)
    have := m.top_ok _ _ h
    omega

end Verif
