import Verif.Spec.Nested
import Verif.Vector.Run
import Verif.Deque.Inv
import Verif.LinkedList.Inv

/-!
# Containers of vectors

`Vector<Vector<T>>`, `Deque<Vector<T>>`, `List<Vector<T>>`: the elements are the three pointers of a
`Vector` (src/vector/mod.rs:24-30), kept in memory of their own, and dropping an element is
`Drop for Vector` (src/vector/mod.rs:329-336).  The containers are the models of the other files
with `Vec` as the type of elements; what is modelled here is the program that uses them.
-/

set_option autoImplicit false

namespace Verif
open Spec

variable {α : Type}

/-- A container as the program sees it: its state (with the memory it is in), its calls, the elements
it has dropped so far, mutable references, and its end. -/
structure Outer (k : Kind) (H : Type) where
  σ : Type
  step : k.Op H → σ → Exec (k.Res H × σ)
  dropped : σ → List H
  get : k.Pos → σ → Exec (Option H)
  /-- writing through the reference; what was there is not dropped, it is what has changed -/
  put : k.Pos → H → σ → Exec σ
  drop : σ → Exec σ

/-- The destructors of vectors that are dropped, in this order (src/vector/mod.rs:329-336). -/
def dropAll (A : Allocator α) (nd : Bool) : List Vec → Mem α → Exec (Mem α)
  | [], m => .ok m
  | v :: vs, m => do
    let (_, m) ← v.clear A nd m
    dropAll A nd vs m

/-- Reading the contents of vectors (`as_slice`, src/vector/mod.rs:67-73). -/
def readAll : List Vec → Mem α → Exec (List (List α))
  | [], _ => .ok []
  | v :: vs, m => do
    let xs ← v.asSlice m
    let xss ← readAll vs m
    .ok (xs :: xss)

/-- The contents of a vector, for one that can be read. -/
def contents (m : Mem α) (v : Vec) : List α :=
  match v.asSlice m with
  | .ok xs => xs
  | .error _ => []

/-- One item of a program.  A call is passed a vector that was built for it; elements the container
drops have their destructors run; the program reads the vectors in the result, and drops those it
owns.  Calls on a vector inside the container go through a mutable reference. -/
def Outer.item {k : Kind} (C : Outer k Vec) (A : Allocator α) (nd : Bool) :
    NestItem k α → C.σ → Mem α → Exec (NestOut k α × C.σ × Mem α)
  | .call op, s, m => do
    let (os, v, m) ← Vec.run A nd ((k.arg op).getD []) Vec.new m
    let op' := k.mapOp (fun _ => v) op
    let before := (C.dropped s).length
    let (r, s) ← C.step op' s
    let m ← dropAll A nd ((C.dropped s).drop before) m
    let _ ← readAll (k.shows r) m
    let r' := k.mapRes (contents m) r
    let m ← dropAll A nd (k.owned op' r) m
    .ok (.call os r', s, m)
  | .inside p ops, s, m => do
    let o ← C.get p s
    match o with
    | none => .ok (.inside none, s, m)
    | some v => do
      let (os, v, m) ← Vec.run A nd ops v m
      let s ← C.put p v s
      .ok (.inside (some os), s, m)

/-- A program. -/
def Outer.run {k : Kind} (C : Outer k Vec) (A : Allocator α) (nd : Bool) :
    List (NestItem k α) → C.σ → Mem α → Exec (List (NestOut k α) × C.σ × Mem α)
  | [], s, m => .ok ([], s, m)
  | i :: is, s, m => do
    let (o, s, m) ← C.item A nd i s m
    let (os, s, m) ← C.run A nd is s m
    .ok (o :: os, s, m)

/-- The end of the container: it drops its elements and gives back its own memory. -/
def Outer.finish {k : Kind} (C : Outer k Vec) (A : Allocator α) (nd : Bool) (s : C.σ) (m : Mem α) :
    Exec (C.σ × Mem α) := do
  let before := (C.dropped s).length
  let s ← C.drop s
  let m ← dropAll A nd ((C.dropped s).drop before) m
  .ok (s, m)

/-- `Vector<H>` (src/vector/mod.rs).  References: `get_mut` of the slice (`DerefMut` 351-355). -/
def vecOuter {H : Type} (R : RawAlloc H) : Outer Kind.vector H where
  σ := Vec × Mem H
  step op s := do
    let (o, v, m) ← s.1.step (defaultAllocator R) true op s.2
    .ok (o, v, m)
  dropped s := s.2.dropped
  get i s := do
    let xs ← s.1.asSlice s.2
    let j : Nat := i
    .ok xs[j]?
  put i x s := do
    let m ← s.1.setAt false i x s.2
    .ok (s.1, m)
  drop s := do
    let (v, m) ← s.1.clear (defaultAllocator R) true s.2
    .ok (v, m)

/-- `Deque<H>` (src/deque/mod.rs).  References: `front_mut`, `back_mut` (src/deque/mod.rs:42-44,
52-54).  `E.nd` is of no importance. -/
def dequeOuter {H : Type} (E : DEnv H) : Outer Kind.deque H where
  σ := Deque × DMem H
  step op s := do
    let (o, d, m) ← s.1.step { E with nd := true } op s.2
    .ok (o, d, m)
  dropped s := s.2.t.dropped
  get p s := do
    let (o, _, _) ← s.1.step { E with nd := true } (match p with | .front => .front | .back => .back) s.2
    match o with
    | .elem x => .ok x
    | _ => .ok none
  put p x s := do
    let (_, d, m) ← s.1.step { E with nd := false }
      (match p with | .front => .setFront x | .back => .setBack x) s.2
    .ok (d, m)
  drop s := do
    let m ← s.1.drop { E with nd := true } s.2
    .ok (s.1, m)

/-- `List<H>` (src/list/mod.rs).  References: `front_mut`, `back_mut` (src/list/mod.rs:64-76,
113-125).  `E.nd` is of no importance. -/
def listOuter {H σ : Type} (E : LEnv H σ) : Outer Kind.list H where
  σ := LList σ × LMem H
  step op s := do
    let (o, l, m) ← s.1.step { E with nd := true } op s.2
    .ok (o, l, m)
  dropped s := s.2.dropped
  get p s := do
    let (o, _, _) ← s.1.step { E with nd := true } (match p with | .front => .front | .back => .back) s.2
    match o with
    | .elem x => .ok x
    | _ => .ok none
  put p x s := do
    let (_, l, m) ← s.1.step { E with nd := false }
      (match p with | .front => .setFront x | .back => .setBack x) s.2
    .ok (l, m)
  drop s := do
    let m ← s.1.drop { E with nd := true } s.2
    .ok (s.1, m)

end Verif
