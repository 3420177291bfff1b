import Verif.LinkedList.Model
import Verif.Machine.Arith

/-! The list with its element count as it is, a `u32`.

`Verif.LinkedList.Model` counts with unbounded numbers.  Here the functions that touch the count are
modelled again for both build modes.  Loops get a bound on their iterations as argument, since the
count is none. -/

set_option autoImplicit false

namespace Verif
open Spec

variable {α σ : Type}

/-- The result of an operation on integers below `M` (a `u32` or a `usize`) whose mathematical value
is `x`: overflow panics in a debug build and wraps in a release build. -/
def Build.wrapTo (B : Build) (M : Nat) (x : Int) : Exec Nat :=
  if 0 ≤ x ∧ x < M then .ok x.toNat else
    match B with
    | .debug => .error .panic
    | .release => .ok (x % M).toNat

namespace LList

/-- `push_back` (src/list/mod.rs:169-175): the node is linked before the count changes. -/
def pushBackW (B : Build) (E : LEnv α σ) (l : LList σ) (x : α) (m : LMem α) :
    Exec (LList σ × LMem α) := do
  let (p, l, m) ← l.createNode E x m
  let m ← nodeInsert p l.head m
  let n ← B.wrapTo (2 ^ 32) (l.size + 1)
  .ok ({ l with size := n }, m)

/-- `push_front` (src/list/mod.rs:178-185). -/
def pushFrontW (B : Build) (E : LEnv α σ) (l : LList σ) (x : α) (m : LMem α) :
    Exec (LList σ × LMem α) := do
  let (p, l, m) ← l.createNode E x m
  let m ← nodeInsert p (← m.next l.head) m
  let n ← B.wrapTo (2 ^ 32) (l.size + 1)
  .ok ({ l with size := n }, m)

/-- `remove_node` (src/list/mod.rs:206-213). -/
def removeNodeW (B : Build) (E : LEnv α σ) (l : LList σ) (p : Nat) (m : LMem α) :
    Exec (α × LList σ × LMem α) := do
  let m ← nodeRemove p m
  let x ← m.val p
  let (al, m) ← E.A.dealloc p (E.size * baseSize) baseAlign l.al m
  let n ← B.wrapTo (2 ^ 32) (l.size - 1)
  .ok (x, { l with al := al, size := n }, m)

/-- `pop_back` (src/list/mod.rs:146-153). -/
def popBackW (B : Build) (E : LEnv α σ) (l : LList σ) (m : LMem α) :
    Exec (Option α × LList σ × LMem α) := do
  let p ← m.prev l.head
  if p ≠ l.head then
    let (x, l, m) ← l.removeNodeW B E p m
    .ok (some x, l, m)
  else .ok (none, l, m)

/-- `pop_front` (src/list/mod.rs:159-166). -/
def popFrontW (B : Build) (E : LEnv α σ) (l : LList σ) (m : LMem α) :
    Exec (Option α × LList σ × LMem α) := do
  let p ← m.next l.head
  if p ≠ l.head then
    let (x, l, m) ← l.removeNodeW B E p m
    .ok (some x, l, m)
  else .ok (none, l, m)

/-- `clear` (src/list/mod.rs:74-89), whose loop runs until it is back at the sentinel. -/
def clearW (E : LEnv α σ) (fuel : Nat) (l : LList σ) (m : LMem α) : Exec (LList σ × LMem α) := do
  let next ← m.next l.head
  let (l, m) ← clearLoop E fuel next l m
  let m ← l.initSentinel m
  .ok ({ l with size := 0 }, m)

/-- `extend` (src/list/mod.rs:238-250). -/
def extendW (B : Build) (E : LEnv α σ) : List α → LList σ → LMem α → Exec (LList σ × LMem α)
  | [], l, m => .ok (l, m)
  | x :: xs, l, m => do
    let (l, m) ← l.pushBackW B E x m
    extendW B E xs l m

/-- One public call; those that do not touch the count are as before. -/
def stepW (B : Build) (E : LEnv α σ) (fuel : Nat) :
    ListOp α → LList σ → LMem α → Exec (Out α × LList σ × LMem α)
  | .pushBack x, l, m => do let (l, m) ← l.pushBackW B E x m; .ok (.unit, l, m)
  | .pushFront x, l, m => do let (l, m) ← l.pushFrontW B E x m; .ok (.unit, l, m)
  | .popBack, l, m => do let (o, l, m) ← l.popBackW B E m; .ok (.elem o, l, m)
  | .popFront, l, m => do let (o, l, m) ← l.popFrontW B E m; .ok (.elem o, l, m)
  | .clear, l, m => do let (l, m) ← l.clearW E fuel m; .ok (.unit, l, m)
  | .extend ys, l, m => do let (l, m) ← l.extendW B E ys m; .ok (.unit, l, m)
  | op, l, m => l.step E op m

/-- A history of public calls. -/
def runW (B : Build) (E : LEnv α σ) (fuel : Nat) :
    List (ListOp α) → LList σ → LMem α → Exec (List (Out α) × LList σ × LMem α)
  | [], l, m => .ok ([], l, m)
  | op :: ops, l, m => do
    let (o, l, m) ← l.stepW B E fuel op m
    let (os, l, m) ← runW B E fuel ops l m
    .ok (o :: os, l, m)

end LList

/-- `next` (src/list/iter.rs:26-35, 64-73) with `len` a `usize`. -/
def LIter.nextW (B : Build) (it : LIter) (m : LMem α) : Exec (Option Nat × LIter) := do
  let n ← m.next it.current
  if n = it.sentinel then .ok (none, it)
  else do
    let k ← B.wrapTo (2 ^ 64) (it.len - 1)
    .ok (some n, { it with current := n, len := k })

/-- `k` calls of `next`: the values seen through the returned references. -/
def LIter.runW (B : Build) : Nat → LIter → LMem α → Exec (List (Option α) × LIter)
  | 0, it, _ => .ok ([], it)
  | k + 1, it, m => do
    let (p, it) ← it.nextW B m
    let o ← (match p with
      | none => .ok none
      | some p => do .ok (some (← m.val p)))
    let (os, it) ← LIter.runW B k it m
    .ok (o :: os, it)

end Verif
