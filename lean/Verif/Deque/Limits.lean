import Verif.Deque.Model
import Verif.LinkedList.Counter

/-! The deque with the size of its pointer array as it is, a `u32`.

`Verif.Deque.Model` computes with unbounded numbers.  Here the functions that make the array larger
are modelled again for both build modes, together with what a panic leaves behind: a call returns
`false` if it panicked. -/

set_option autoImplicit false

namespace Verif
open Spec

variable {α : Type}

/-- `self.ptr_array_size + self.ptr_array_size.max(additional_capacity as u32) + 2`
(src/deque/mod.rs:394-395), two `u32` additions. -/
def Build.growPtrs (B : Build) (size addl : Nat) : Exec Nat := do
  let n ← B.wrapTo (2 ^ 32) (size + max size addl)
  B.wrapTo (2 ^ 32) (n + 2)

/-- `realloc_ptr_array` (src/deque/mod.rs:348-421).  A panic of the addition happens before anything
was done; a panic of the slice index in `new_ptr_array[new_array_start..new_array_end]` after the new
array was allocated, which nobody frees. -/
def Deque.reallocW (B : Build) (E : DEnv α) (d : Deque) (m : DMem α) (addl : Nat) (front : Bool) :
    Exec (Bool × Deque × DMem α) := do
  let unusedFront ← d.b.arr.offsetFrom d.ptrs
  let used ← (do let n ← d.e.arr.offsetFrom d.b.arr; .ok (n + 1))
  let unusedBack := d.size - unusedFront - used
  let src ← m.p.ptrAdd d.ptrs unusedFront
  if (front = false ∧ addl ≤ unusedFront) ∨ (front = true ∧ addl ≤ unusedBack) then do
    let (d, m) ← d.realloc E m addl front
    .ok (true, d, m)
  else
    match B.growPtrs d.size addl with
    | .error _ => .ok (false, d, m)
    | .ok newSize => do
      let (a, m) ← m.allocPtrs E newSize
      let newStart := unusedFront + (if front then addl else 0)
      if newStart + used ≤ newSize then do
        let dst ← m.p.ptrAdd a newStart
        let p ← m.p.copy src dst used
        let m ← d.freePtrs E { m with p := p }
        let d := { d with ptrs := a, size := newSize }
        let bp ← m.p.ptrAdd d.ptrs newStart
        let b ← d.b.setSubarray E m bp
        let ep ← m.p.ptrAdd d.ptrs (newStart + used - 1)
        let e ← d.e.setSubarray E m ep
        .ok (true, { d with b := b, e := e }, m)
      else .ok (false, d, m)

/-- A value dropped because a panic unwinds. -/
def DMem.unwound (E : DEnv α) (m : DMem α) (x : α) : DMem α :=
  { m with t := { m.t with dropped := m.t.dropped ++ if E.nd then [x] else [] } }

/-- `push_back` (src/deque/mod.rs:171-195). -/
def Deque.pushBackW (B : Build) (E : DEnv α) (d : Deque) (x : α) (m : DMem α) :
    Exec (Bool × Deque × DMem α) := do
  let l ← m.t.ptrSub d.e.last 1
  if d.e.current ≠ l then do
    let t ← m.t.write d.e.current x
    let c ← t.ptrAdd d.e.current 1
    .ok (true, { d with e := { d.e with current := c } }, { m with t := t })
  else do
    let lastSlot ← m.p.ptrAdd d.ptrs (d.size - 1)
    let (ok, d, m) ← (if d.e.arr = lastSlot then d.reallocW B E m 1 false else .ok (true, d, m))
    if ok then do
      let t ← m.t.write d.e.current x
      let slot ← m.p.ptrAdd d.e.arr 1
      let (s, m) ← DMem.allocSub E { m with t := t }
      let p ← m.p.write slot s
      let m := { m with p := p }
      let e ← d.e.setSubarray E m slot
      .ok (true, { d with e := { e with current := e.first } }, m)
    else .ok (false, d, m.unwound E x)

/-- `push_front` (src/deque/mod.rs:202-226). -/
def Deque.pushFrontW (B : Build) (E : DEnv α) (d : Deque) (x : α) (m : DMem α) :
    Exec (Bool × Deque × DMem α) := do
  let (ok, d, m) ← (
    if d.b.current ≠ d.b.first then do
      let c ← m.t.ptrSub d.b.current 1
      .ok (true, { d with b := { d.b with current := c } }, m)
    else do
      let (ok, d, m) ← (if d.b.arr = d.ptrs then d.reallocW B E m 1 true else .ok (true, d, m))
      if ok then do
        let slot ← m.p.ptrSub d.b.arr 1
        let (s, m) ← m.allocSub E
        let p ← m.p.write slot s
        let m := { m with p := p }
        let b ← d.b.setSubarray E m slot
        let c ← m.t.ptrSub b.last 1
        .ok (true, { d with b := { b with current := c } }, m)
      else .ok (false, d, m))
  if ok then do
    let t ← m.t.write d.b.current x
    .ok (true, d, { m with t := t })
  else .ok (false, d, m.unwound E x)

/-- One public call: what it returned, or `none` if it panicked.  Calls that are no pushes are as
before. -/
def Deque.stepW (B : Build) (E : DEnv α) (op : DeqOp α) (d : Deque) (m : DMem α) :
    Exec (Option (Out α) × Deque × DMem α) :=
  match op with
  | .pushBack x => do
    let (ok, d, m) ← d.pushBackW B E x m
    .ok (if ok then some .unit else none, d, m)
  | .pushFront x => do
    let (ok, d, m) ← d.pushFrontW B E x m
    .ok (if ok then some .unit else none, d, m)
  | op => do
    let (o, d, m) ← d.step E op m
    .ok (some o, d, m)

/-- A history of public calls, each panic being caught. -/
def Deque.runW (B : Build) (E : DEnv α) : List (DeqOp α) → Deque → DMem α →
    Exec (List (Option (Out α)) × Deque × DMem α)
  | [], d, m => .ok ([], d, m)
  | op :: ops, d, m => do
    let (o, d, m) ← d.stepW B E op m
    let (os, d, m) ← Deque.runW B E ops d m
    .ok (o :: os, d, m)

end Verif
