import Verif.Spec.Borrow

/-!
# Who may use a piece of memory: Tree Borrows

The newer rules (Villani, Hostert, Dreyer, Jung, PLDI 2025), which Miri checks when asked to, without
protectors and interior mutability.  They mention no container.  Other than in Spec/Borrow.lean, a
pointer is not restricted to the cells its reference was made for, exclusiveness begins with the first
write, and a raw pointer is as good as the reference it was made of.
-/

set_option autoImplicit false

namespace Verif.Spec

/-- The state of a pointer at a cell: not written yet, written, only to be read, ended. -/
inductive Perm where
  | reserved
  | active
  | frozen
  | disabled
  deriving DecidableEq, Repr

/-- Whether a pointer in this state allows the access to itself and what was made of it. -/
def Perm.allows : Perm → Access → Bool
  | .disabled, .read => false
  | _, .read => true
  | .reserved, .write | .active, .write => true
  | _, .write => false

/-- After an access through the pointer or what was made of it. -/
def Perm.own : Perm → Access → Perm
  | p, .read => p
  | _, .write => .active

/-- After an access through any other pointer. -/
def Perm.foreign : Perm → Access → Perm
  | .active, .read => .frozen
  | p, .read => p
  | _, .write => .disabled

/-- The states of all pointers at every cell of every block; the pointers that a pointer was made of,
itself first; the next unused tag.  At a cell that is not part of a live block all are ended. -/
structure Lineage where
  line : Nat → List Nat
  perm : Nat → Nat → Nat → Perm
  next : Nat

namespace Lineage

/-- Nothing was allocated yet. -/
def start : Lineage := ⟨fun t => [t], fun _ _ _ => .disabled, 0⟩

/-- A pointer with tag `t` reads or writes `n` cells: it, and all it was made of, must allow that. -/
def access (S : Lineage) (t : Nat) (a : Access) (p : Ptr) (n : Nat) : Exec Lineage :=
  if n = 0 then .ok S else
    match p with
    | .null => .error .ub
    | .loc b o =>
      if ∀ k, k < n → ∀ u ∈ S.line t, (S.perm b (o + k) u).allows a = true then
        .ok { S with perm := fun c k u =>
          if c = b ∧ o ≤ k ∧ k < o + n then
            if u ∈ S.line t then (S.perm b k u).own a else (S.perm b k u).foreign a
          else S.perm c k u }
      else .error .ub

/-- A new pointer in the given state is made of one with tag `t`. -/
def child (S : Lineage) (t : Nat) (b : Nat) (q : Perm) : Lineage where
  line := Function.update S.line S.next (S.next :: S.line t)
  perm c k u := if u = S.next then (if c = b then q else .disabled) else S.perm c k u
  next := S.next + 1

/-- A pointer to `n` cells is made of one with tag `t`.  Making a reference reads them; making a raw
pointer does nothing. -/
def reborrow (S : Lineage) (k : Reborrow) (t : Nat) (p : Ptr) (n : Nat) : Exec (Nat × Lineage) :=
  match k with
  | .raw => .ok (t, S)
  | .mutable => make S .reserved
  | .shared => make S .frozen
where
  make (S : Lineage) (q : Perm) : Exec (Nat × Lineage) :=
    match p with
    | .null => if n = 0 then .ok (S.next, { S with next := S.next + 1 }) else .error .ub
    | .loc b _ => do
      let S' ← (S.child t b q).access S.next .read p n
      .ok (S.next, S')

/-- A block is allocated: the pointer that is returned may do everything with its cells. -/
def allocate (S : Lineage) (p : Ptr) (n : Nat) : Nat × Lineage :=
  (S.next,
    { line := Function.update S.line S.next [S.next]
      perm := match p with
        | .null => S.perm
        | .loc b _ => Function.update S.perm b fun o u =>
            if u = S.next ∧ o < n then .active else .disabled
      next := S.next + 1 })

/-- A block is freed through a pointer that must be allowed to write it. -/
def free (S : Lineage) (t : Nat) (p : Ptr) (n : Nat) : Exec Lineage := do
  let S ← S.access t .write p n
  match p with
  | .null => .ok S
  | .loc b _ => .ok { S with perm := Function.update S.perm b fun _ _ => .disabled }

/-- The pointer may be used in this way for the `n` cells of the block. -/
def Can (S : Lineage) (t : Nat) (a : Access) (b n : Nat) : Prop :=
  t < S.next ∧ (∀ u ∈ S.line t, u < S.next) ∧
    ∀ o, o < n → ∀ u ∈ S.line t, (S.perm b o u).allows a = true

end Lineage

/-- The rules of this file. -/
def treeBorrows : Rules Lineage := ⟨Lineage.access, Lineage.reborrow, Lineage.allocate, Lineage.free⟩

end Verif.Spec
