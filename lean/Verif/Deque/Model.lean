import Verif.Mem
import Verif.Spec.Deque

/-!
# Model of `Deque` and `Queue` (src/deque/mod.rs, src/deque/iter.rs, src/util.rs, src/queue.rs)

Elements live in subarrays of `S` cells; an array of pointers says where the subarrays are.

Simplifications: subarrays and pointer arrays are two separate memories (`DMem`), so a block
of one kind can never be mistaken for the other; the allocator is the default one, with any
placement; `ptr_array_size` is a natural number, not a `u32`; loops carry fuel, and running
out of it is reported as a fault, so a theorem that the result is `ok` includes termination.
-/

set_option autoImplicit false

namespace Verif
open Spec

variable {α : Type}

/-- The two memories. -/
structure DMem (α : Type) where
  t : Mem α
  p : Mem Ptr

/-- What the code is compiled for: the subarray size, whether elements have a destructor, and
where the allocator places blocks. -/
structure DEnv (α : Type) where
  S : Nat
  nd : Bool
  Rt : RawAlloc α
  Rp : RawAlloc Ptr

/-- `calculate_subarray_size` (src/deque/mod.rs:294-307). -/
def subarraySize (elemSize : Nat) : Nat :=
  if elemSize ≤ 4 then 64 else if elemSize ≤ 8 then 32 else if elemSize ≤ 16 then 16
  else if elemSize ≤ 32 then 8 else 4

/-- `CompatIterMut` and `CompatIter` (src/deque/iter.rs:9-53; `clone` 60-68). -/
structure DIt where
  current : Ptr
  first : Ptr
  last : Ptr
  arr : Ptr
  deriving DecidableEq

/-- `CompatIterMut::default` (src/deque/iter.rs:88-98). -/
def DIt.null : DIt := ⟨.null, .null, .null, .null⟩

/-- `set_subarray` (src/deque/iter.rs:81-85). -/
def DIt.setSubarray (E : DEnv α) (m : DMem α) (it : DIt) (p : Ptr) : Exec DIt := do
  let b ← m.p.read p
  let e ← m.t.ptrAdd b E.S
  .ok { it with arr := p, first := b, last := e }

/-- `Deque` (src/deque/mod.rs:17-24); the allocator is in `DEnv`. -/
structure Deque where
  ptrs : Ptr
  size : Nat
  b : DIt
  e : DIt

/-- `allocate_subarray` (src/deque/mod.rs:271-273). -/
def DMem.allocSub (E : DEnv α) (m : DMem α) : Exec (Ptr × DMem α) := do
  let (p, t) ← (defaultAllocator E.Rt).alloc E.S m.t
  .ok (p, { m with t := t })

/-- `free_subarray` (src/deque/mod.rs:288-290). -/
def DMem.freeSub (E : DEnv α) (m : DMem α) (p : Ptr) : Exec (DMem α) := do
  let t ← (defaultAllocator E.Rt).dealloc p E.S m.t
  .ok { m with t := t }

/-- `allocate_ptr_array` (src/deque/mod.rs:261-268); the contents are not initialised. -/
def DMem.allocPtrs (E : DEnv α) (m : DMem α) (n : Nat) : Exec (Ptr × DMem α) := do
  let (p, q) ← (defaultAllocator E.Rp).alloc n m.p
  .ok (p, { m with p := q })

/-- `free_ptr_array` (src/deque/mod.rs:276-281). -/
def Deque.freePtrs (E : DEnv α) (d : Deque) (m : DMem α) : Exec (DMem α) := do
  let q ← (defaultAllocator E.Rp).dealloc d.ptrs d.size m.p
  .ok { m with p := q }

/-- `slice.fill_with(null_mut)` over `n` pointers (src/deque/mod.rs:315). -/
def Mem.fillNull (m : Mem Ptr) (p : Ptr) : Nat → Exec (Mem Ptr)
  | 0 => .ok m
  | n + 1 => do
    let m ← m.write p .null
    Mem.fillNull m p.next n

/-- `new`/`new_in` with `init` (src/deque/mod.rs:27-29, 101-111, 310-331, `Default` 430-434). -/
def Deque.newIn (E : DEnv α) (m : DMem α) : Exec (Deque × DMem α) := do
  let (a, m) ← m.allocPtrs E 8
  let p ← m.p.fillNull a 8
  let m := { m with p := p }
  let (s, m) ← m.allocSub E
  let slot ← m.p.ptrAdd a 3
  let p ← m.p.write slot s
  let m := { m with p := p }
  let b ← DIt.null.setSubarray E m slot
  let b := { b with current := b.first }
  let e ← DIt.null.setSubarray E m slot
  let e := { e with current := e.first }
  .ok (⟨a, 8, b, e⟩, m)

/-- `is_empty` (src/deque/mod.rs:57-59). -/
def Deque.isEmpty (d : Deque) : Bool := decide (d.b.current = d.e.current)

/-- `len` (src/deque/mod.rs:72-90).  The `isize` sum is computed as `full + end - begin`. -/
def Deque.len (E : DEnv α) (d : Deque) : Exec Nat :=
  if d.b.arr = d.e.arr then d.e.current.offsetFrom d.b.current
  else do
    let full ← d.e.arr.offsetFrom d.b.arr
    let bo ← d.b.current.offsetFrom d.b.first
    let eo ← d.e.current.offsetFrom d.e.first
    .ok (full * E.S + eo - bo)

/-- `pop_back` (src/deque/mod.rs:114-136). -/
def Deque.popBack (E : DEnv α) (d : Deque) (m : DMem α) : Exec (Option α × Deque × DMem α) :=
  if d.isEmpty then .ok (none, d, m)
  else if d.e.current ≠ d.e.first then do
    let c ← m.t.ptrSub d.e.current 1
    let x ← m.t.read c
    .ok (some x, { d with e := { d.e with current := c } }, m)
  else do
    let m ← m.freeSub E d.e.first
    let a ← m.p.ptrSub d.e.arr 1
    let e ← d.e.setSubarray E m a
    let c ← m.t.ptrSub e.last 1
    let x ← m.t.read c
    .ok (some x, { d with e := { e with current := c } }, m)

/-- `pop_front` (src/deque/mod.rs:139-164). -/
def Deque.popFront (E : DEnv α) (d : Deque) (m : DMem α) : Exec (Option α × Deque × DMem α) :=
  if d.isEmpty then .ok (none, d, m)
  else do
    let l ← m.t.ptrSub d.b.last 1
    if d.b.current ≠ l then do
      let x ← m.t.read d.b.current
      let c ← m.t.ptrAdd d.b.current 1
      .ok (some x, { d with b := { d.b with current := c } }, m)
    else do
      let x ← m.t.read d.b.current
      let m ← m.freeSub E d.b.first
      let a ← m.p.ptrAdd d.b.arr 1
      let b ← d.b.setSubarray E m a
      .ok (some x, { d with b := { b with current := b.first } }, m)

/-- How many extra pointers to make room for when the pointers are moved inside the array
(src/deque/mod.rs:373-376, 384-386). -/
def moreRoom (additional half : Nat) : Nat := if additional < half then half else additional

/-- `realloc_ptr_array` (src/deque/mod.rs:348-421).  `copy_within` and `copy_from_slice` are
memory moves whose index checks panic.  `addl as u32` is taken to be exact. -/
def Deque.realloc (E : DEnv α) (d : Deque) (m : DMem α) (addl : Nat) (front : Bool) :
    Exec (Deque × DMem α) := do
  let unusedFront ← d.b.arr.offsetFrom d.ptrs
  let used ← (do let n ← d.e.arr.offsetFrom d.b.arr; .ok (n + 1))
  let unusedBack := d.size - unusedFront - used
  let start := unusedFront
  let src ← m.p.ptrAdd d.ptrs start
  let (d, m, newStart) ← (
    if front = false ∧ addl ≤ unusedFront then do
      let addl := moreRoom addl ((unusedFront + 1) / 2)
      let newStart := unusedFront - addl
      let dst ← (if newStart + used ≤ d.size then m.p.ptrAdd d.ptrs newStart
        else .error .panic)
      let p ← m.p.copy src dst used
      .ok (d, { m with p := p }, newStart)
    else if front = true ∧ addl ≤ unusedBack then do
      let addl := moreRoom addl (unusedBack / 2)
      let newStart := start + addl
      let dst ← (if newStart + used ≤ d.size then m.p.ptrAdd d.ptrs newStart
        else .error .panic)
      let p ← m.p.copy src dst used
      .ok (d, { m with p := p }, newStart)
    else do
      let newSize := d.size + max d.size addl + 2
      let (a, m) ← m.allocPtrs E newSize
      let newStart := unusedFront + (if front then addl else 0)
      let dst ← (if newStart + used ≤ newSize then m.p.ptrAdd a newStart
        else .error .panic)
      let p ← m.p.copy src dst used
      let m ← d.freePtrs E { m with p := p }
      .ok ({ d with ptrs := a, size := newSize }, m, newStart))
  let bp ← m.p.ptrAdd d.ptrs newStart
  let b ← d.b.setSubarray E m bp
  let ep ← m.p.ptrAdd d.ptrs (newStart + used - 1)
  let e ← d.e.setSubarray E m ep
  .ok ({ d with b := b, e := e }, m)

/-- `push_back` (src/deque/mod.rs:171-195). -/
def Deque.pushBack (E : DEnv α) (d : Deque) (x : α) (m : DMem α) : Exec (Deque × DMem α) := do
  let l ← m.t.ptrSub d.e.last 1
  if d.e.current ≠ l then do
    let t ← m.t.write d.e.current x
    let c ← t.ptrAdd d.e.current 1
    .ok ({ d with e := { d.e with current := c } }, { m with t := t })
  else do
    let lastSlot ← m.p.ptrAdd d.ptrs (d.size - 1)
    let (d, m) ← (if d.e.arr = lastSlot then d.realloc E m 1 false else .ok (d, m))
    let t ← m.t.write d.e.current x
    let slot ← m.p.ptrAdd d.e.arr 1
    let (s, m) ← DMem.allocSub E { m with t := t }
    let p ← m.p.write slot s
    let m := { m with p := p }
    let e ← d.e.setSubarray E m slot
    .ok ({ d with e := { e with current := e.first } }, m)

/-- `push_front` (src/deque/mod.rs:202-226). -/
def Deque.pushFront (E : DEnv α) (d : Deque) (x : α) (m : DMem α) : Exec (Deque × DMem α) := do
  let (d, m) ← (
    if d.b.current ≠ d.b.first then do
      let c ← m.t.ptrSub d.b.current 1
      .ok ({ d with b := { d.b with current := c } }, m)
    else do
      let (d, m) ← (if d.b.arr = d.ptrs then d.realloc E m 1 true else .ok (d, m))
      let slot ← m.p.ptrSub d.b.arr 1
      let (s, m) ← m.allocSub E
      let p ← m.p.write slot s
      let m := { m with p := p }
      let b ← d.b.setSubarray E m slot
      let c ← m.t.ptrSub b.last 1
      .ok ({ d with b := { b with current := c } }, m))
  let t ← m.t.write d.b.current x
  .ok (d, { m with t := t })

/-- `RawIter` (src/deque/iter.rs:101-108). -/
structure DIter where
  cur : Ptr
  curArr : Ptr
  last : Ptr
  lastArr : Ptr
  size : Nat

/-- `RawIter::from_compat` and `from_compat_mut` (src/deque/iter.rs:206-237, 257-261, 300-304). -/
def DIter.fromCompat (b e : DIt) : Exec DIter := do
  let n ← b.last.offsetFrom b.first
  .ok ⟨b.current, b.arr, e.current, e.arr, n⟩

/-- `RawIter::into_compat` and `into_compat_mut` (src/deque/iter.rs:150-191, 242-246, 307-315). -/
def DIter.intoCompat (m : DMem α) (it : DIter) : Exec (DIt × DIt) := do
  let b ← m.p.read it.curArr
  let be ← m.t.ptrAdd b it.size
  let e ← m.p.read it.lastArr
  let ee ← m.t.ptrAdd e it.size
  .ok (⟨it.cur, b, be, it.curArr⟩, ⟨it.last, e, ee, it.lastArr⟩)

/-- `RawIter::next` (src/deque/iter.rs:113-127); returns the address of the element. -/
def DIter.next (m : DMem α) (it : DIter) : Exec (Option Ptr × DIter) :=
  if it.cur = it.last then .ok (none, it)
  else do
    let base ← m.p.read it.curArr
    let l ← m.t.ptrAdd base (it.size - 1)
    if it.cur = l then do
      let a ← m.p.ptrAdd it.curArr 1
      let c ← m.p.read a
      .ok (some it.cur, { it with cur := c, curArr := a })
    else do
      let c ← m.t.ptrAdd it.cur 1
      .ok (some it.cur, { it with cur := c })

/-- `RawIter::next_back` (src/deque/iter.rs:131-145). -/
def DIter.nextBack (m : DMem α) (it : DIter) : Exec (Option Ptr × DIter) :=
  if it.last = it.cur then .ok (none, it)
  else do
    let base ← m.p.read it.lastArr
    if it.last = base then do
      let a ← m.p.ptrSub it.lastArr 1
      let b ← m.p.read a
      let l ← m.t.ptrAdd b (it.size - 1)
      .ok (some l, { it with last := l, lastArr := a })
    else do
      let l ← m.t.ptrSub it.last 1
      .ok (some l, { it with last := l })

/-- `iter`, `iter_mut` and `iter_mut_unchecked` (src/deque/mod.rs:62-69, 337-339). -/
def Deque.iter (d : Deque) : Exec DIter := DIter.fromCompat d.b d.e

/-- `Iter::next`/`next_back` and the same of `IterMut` (src/deque/iter.rs:264-282, 317-331):
the element behind the reference. -/
def DIter.step (op : IterOp) (m : DMem α) (it : DIter) : Exec (Option α × DIter) := do
  let (p, it) ← (match op with
    | .next => it.next m
    | .nextBack => it.nextBack m)
  match p with
  | none => .ok (none, it)
  | some p => do
    let x ← m.t.read p
    .ok (some x, it)

/-- A history of iterator calls. -/
def DIter.run : List IterOp → DMem α → DIter → Exec (List (Option α) × DIter)
  | [], _, it => .ok ([], it)
  | op :: ops, m, it => do
    let (o, it) ← it.step op m
    let (os, it) ← DIter.run ops m it
    .ok (o :: os, it)

/-- The addresses `iter_mut` hands out, in order, until it returns `None`. -/
def DIter.addrs (m : DMem α) : Nat → DIter → Exec (List Ptr)
  | 0, _ => .error .ub
  | fuel + 1, it => do
    let (p, it) ← it.next m
    match p with
    | none => .ok []
    | some p => do
      let ps ← DIter.addrs m fuel it
      .ok (p :: ps)

/-- The addresses of the elements, front to back (`for r in d.iter_mut()`). -/
def Deque.addrs (E : DEnv α) (d : Deque) (m : DMem α) : Exec (List Ptr) := do
  let it ← d.iter
  it.addrs m (d.size * E.S + 1)

/-- Read the element an iterator call returned a reference to. -/
def readOpt (m : Mem α) : Option Ptr → Exec (Option α)
  | none => .ok none
  | some p => do let x ← m.read p; .ok (some x)

/-- `front` (src/deque/mod.rs:47-49). -/
def Deque.front (d : Deque) (m : DMem α) : Exec (Option α) := do
  let it ← d.iter
  let (p, _) ← it.next m
  readOpt m.t p

/-- `back` (src/deque/mod.rs:37-39). -/
def Deque.back (d : Deque) (m : DMem α) : Exec (Option α) := do
  let it ← d.iter
  let (p, _) ← it.nextBack m
  readOpt m.t p

/-- `*r = x` through an optional reference: drops the old value. -/
def assignOpt (E : DEnv α) (m : DMem α) (x : α) : Option Ptr → Exec (Bool × DMem α)
  | none => .ok (false, m)
  | some p => do
    let t ← m.t.dropCell E.nd p
    let t ← t.write p x
    .ok (true, { m with t := t })

/-- Assignment through `front_mut` (src/deque/mod.rs:52-54). -/
def Deque.setFront (E : DEnv α) (d : Deque) (x : α) (m : DMem α) : Exec (Bool × DMem α) := do
  let it ← d.iter
  let (p, _) ← it.next m
  assignOpt E m x p

/-- Assignment through `back_mut` (src/deque/mod.rs:42-44). -/
def Deque.setBack (E : DEnv α) (d : Deque) (x : α) (m : DMem α) : Exec (Bool × DMem α) := do
  let it ← d.iter
  let (p, _) ← it.nextBack m
  assignOpt E m x p

/-- One step of a deque iterator in a direction: `rev()` swaps `next` and `next_back`. -/
def DIter.move (rev : Bool) (m : DMem α) (it : DIter) : Exec (Option Ptr × DIter) :=
  if rev then it.nextBack m else it.next m

/-- `nth(n)` of the (possibly reversed) iterator, as called by `Skip` (standard library):
`n` steps, giving up at the first `None`, then one more. -/
def DIter.nth (rev : Bool) (m : DMem α) : Nat → DIter → Exec (Option Ptr × DIter)
  | 0, it => it.move rev m
  | n + 1, it => do
    let (p, it) ← it.move rev m
    match p with
    | none => .ok (none, it)
    | some _ => DIter.nth rev m n it

/-- `mem::swap` of two elements. -/
def Mem.swapCells (m : Mem α) (p q : Ptr) : Exec (Mem α) := do
  let x ← m.read p
  let y ← m.read q
  let m ← m.write p y
  m.write q x

/-- A `Skip` of a deque iterator: how many are still to be skipped. -/
structure DSkip where
  n : Nat
  it : DIter

/-- `Skip::next` (standard library): skips on the first call only. -/
def DSkip.next (rev : Bool) (m : DMem α) (s : DSkip) : Exec (Option Ptr × DSkip) := do
  let (p, it) ← DIter.nth rev m s.n s.it
  .ok (p, ⟨0, it⟩)

/-- `rotate` (src/util.rs:4-11), for any two iterators over references: `cn` and `nn` are
their `next` functions. -/
def rotateWith {σ τ : Type} (cn : DMem α → σ → Exec (Option Ptr × σ))
    (nn : DMem α → τ → Exec (Option Ptr × τ)) : Nat → σ → τ → DMem α → Exec (DMem α)
  | 0, _, _, _ => .error .ub
  | fuel + 1, c, n, m => do
    let (cp, c) ← cn m c
    let (np, n) ← nn m n
    match cp, np with
    | some cp, some np => do
      let t ← m.t.swapCells cp np
      rotateWith cn nn fuel c n { m with t := t }
    | _, _ => .ok m

/-- `rotate` for the iterators `Deque::remove` passes. -/
def rotate (rev : Bool) : Nat → DSkip → DSkip → DMem α → Exec (DMem α) :=
  rotateWith (DSkip.next rev) (DSkip.next rev)

/-- `remove` (src/deque/mod.rs:234-255). -/
def Deque.remove (E : DEnv α) (d : Deque) (index : Nat) (m : DMem α) :
    Exec (Option α × Deque × DMem α) := do
  let len ← d.len E
  if index ≥ len then .ok (none, d, m)
  else if index < len / 2 then do
    let it ← d.iter
    let m ← rotate true (len + 1) ⟨len - index - 1, it⟩ ⟨len - index, it⟩ m
    d.popFront E m
  else do
    let it ← d.iter
    let m ← rotate false (len + 1) ⟨index, it⟩ ⟨index + 1, it⟩ m
    d.popBack E m

/-- The `for elem in self.iter_mut()` loop of `drop` (src/deque/mod.rs:439-441). -/
def dropElems (E : DEnv α) : Nat → DIter → DMem α → Exec (DMem α)
  | 0, _, _ => .error .ub
  | fuel + 1, it, m => do
    let (p, it) ← it.next m
    match p with
    | none => .ok m
    | some p => do
      let t ← m.t.dropCell E.nd p
      dropElems E fuel it { m with t := t }

/-- Freeing the subarrays named by `n` consecutive pointers (src/deque/mod.rs:445-452). -/
def freeSubs (E : DEnv α) : Nat → Ptr → DMem α → Exec (DMem α)
  | 0, _, m => .ok m
  | n + 1, p, m => do
    let s ← m.p.read p
    let m ← m.freeSub E s
    freeSubs E n p.next m

/-- `Drop` (src/deque/mod.rs:436-457). -/
def Deque.drop (E : DEnv α) (d : Deque) (m : DMem α) : Exec (DMem α) := do
  let it ← d.iter
  let m ← dropElems E (d.size * E.S + 1) it m
  let n ← d.e.arr.offsetFrom d.b.arr
  let m ← (if d.b.arr = .null then .ok m else freeSubs E n d.b.arr m)
  d.freePtrs E m

/-- One call on the model: dispatches to the functions above. -/
def Deque.step (E : DEnv α) (op : DeqOp α) (d : Deque) (m : DMem α) :
    Exec (Out α × Deque × DMem α) :=
  match op with
  | .pushBack x => do let (d, m) ← d.pushBack E x m; .ok (.unit, d, m)
  | .pushFront x => do let (d, m) ← d.pushFront E x m; .ok (.unit, d, m)
  | .popBack => do let (o, d, m) ← d.popBack E m; .ok (.elem o, d, m)
  | .popFront => do let (o, d, m) ← d.popFront E m; .ok (.elem o, d, m)
  | .front => do let o ← d.front m; .ok (.elem o, d, m)
  | .back => do let o ← d.back m; .ok (.elem o, d, m)
  | .setFront x => do let (o, m) ← d.setFront E x m; .ok (.bool o, d, m)
  | .setBack x => do let (o, m) ← d.setBack E x m; .ok (.bool o, d, m)
  | .remove i => do let (o, d, m) ← d.remove E i m; .ok (.elem o, d, m)
  | .len => do let n ← d.len E; .ok (.nat n, d, m)
  | .isEmpty => .ok (.bool d.isEmpty, d, m)

/-- A history of calls on the model. -/
def Deque.run (E : DEnv α) : List (DeqOp α) → Deque → DMem α →
    Exec (List (Out α) × Deque × DMem α)
  | [], d, m => .ok ([], d, m)
  | op :: ops, d, m => do
    let (o, d, m) ← d.step E op m
    let (os, d, m) ← Deque.run E ops d m
    .ok (o :: os, d, m)

/-- `from_iter` (src/deque/mod.rs:459-465). -/
def Deque.fromIter (E : DEnv α) (xs : List α) (m : DMem α) : Exec (Deque × DMem α) := do
  let (d, m) ← Deque.newIn E m
  xs.foldlM (fun (s : Deque × DMem α) x => s.1.pushBack E x s.2) (d, m)

/-- `IntoIter` (src/deque/iter.rs:332-366): popping from either end. -/
def Deque.intoIterRun (E : DEnv α) : List IterOp → Deque → DMem α →
    Exec (List (Option α) × Deque × DMem α)
  | [], d, m => .ok ([], d, m)
  | op :: ops, d, m => do
    let (o, d, m) ← (match op with
      | .next => d.popFront E m
      | .nextBack => d.popBack E m)
    let (os, d, m) ← Deque.intoIterRun E ops d m
    .ok (o :: os, d, m)

/-- `Queue` forwards to its deque (src/queue.rs:34-80; `new` 20-24, `new_in` 60-64, `Default` 89-93). -/
def Queue.step (E : DEnv α) (op : QueueOp α) (d : Deque) (m : DMem α) :
    Exec (Out α × Deque × DMem α) :=
  match op with
  | .push x => do let (d, m) ← d.pushBack E x m; .ok (.unit, d, m)
  | .pop => do let (o, d, m) ← d.popFront E m; .ok (.elem o, d, m)
  | .top => do let o ← d.front m; .ok (.elem o, d, m)
  | .len => do let n ← d.len E; .ok (.nat n, d, m)
  | .isEmpty => .ok (.bool d.isEmpty, d, m)

def Queue.run (E : DEnv α) : List (QueueOp α) → Deque → DMem α →
    Exec (List (Out α) × Deque × DMem α)
  | [], d, m => .ok ([], d, m)
  | op :: ops, d, m => do
    let (o, d, m) ← Queue.step E op d m
    let (os, d, m) ← Queue.run E ops d m
    .ok (o :: os, d, m)

end Verif
