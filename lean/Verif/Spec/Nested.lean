import Verif.Spec.Sequence
import Verif.Spec.Deque
import Verif.Spec.LinkedList

/-!
Sequences whose elements are sequences: what a program that keeps vectors in a vector, deque or list
observes, as operations on a mathematical sequence of mathematical sequences.
-/

set_option autoImplicit false

namespace Verif.Spec

variable {α β : Type}

/-- A result with every element in it replaced. -/
def Out.map (f : α → β) : Out α → Out β
  | .unit => .unit
  | .elem x => .elem (x.map f)
  | .nat n => .nat n
  | .bool b => .bool b
  | .list xs => .list (xs.map f)

/-- The elements in a result. -/
def Out.elems : Out α → List α
  | .elem x => x.toList
  | .list xs => xs
  | _ => []

/-- A kind of container: its calls, what they return and do to the mathematical object that the
container stands for, and the places of which a program can get a mutable reference. -/
structure Kind where
  Op : Type → Type
  St : Type → Type
  Res : Type → Type
  Pos : Type
  mapOp : {α β : Type} → (α → β) → Op α → Op β
  mapSt : {α β : Type} → (α → β) → St α → St β
  mapRes : {α β : Type} → (α → β) → Res α → Res β
  /-- the element that is passed to a call -/
  arg : {α : Type} → Op α → Option α
  /-- the elements of the container -/
  elems : {α : Type} → St α → List α
  /-- the elements in a result -/
  shows : {α : Type} → Res α → List α
  step : {α : Type} → Op α → St α → Except Fault (Res α × St α)
  /-- the elements that the caller owns after a call returned this -/
  owned : {α : Type} → Op α → Res α → List α
  /-- the element at a place -/
  get : {α : Type} → Pos → St α → Option α
  set : {α : Type} → Pos → α → St α → St α
  /-- the empty container -/
  nil : {α : Type} → St α

/-- One item of a program that uses a container of vectors: a call, the vector passed to it, if any,
being the one that the calls given instead produce from an empty one; or calls on the vector at some
place of the container, through a mutable reference. -/
inductive NestItem (k : Kind) (α : Type) where
  | call (op : k.Op (List (SeqOp α)))
  | inside (p : k.Pos) (ops : List (SeqOp α))

/-- What the item yields: the results of the calls that built the argument, and the result of the
call itself; or the results of the calls on the element, if there is one. -/
inductive NestOut (k : Kind) (α : Type) where
  | call (built : List (Out α)) (r : k.Res (List α))
  | inside (outs : Option (List (Out α)))

/-- The contents of a vector that these calls produce from an empty one, and what they return. -/
def SeqOp.build (script : Option (List (SeqOp α))) : Except Fault (List (Out α) × List α) :=
  SeqOp.run (script.getD []) []

/-- One item. -/
def NestItem.step {k : Kind} : NestItem k α → k.St (List α) →
    Except Fault (NestOut k α × k.St (List α))
  | .call op, xss =>
    match SeqOp.build (k.arg op) with
    | .error e => .error e
    | .ok (os, ys) =>
      match k.step (k.mapOp (fun _ => ys) op) xss with
      | .error e => .error e
      | .ok (r, xss) => .ok (.call os r, xss)
  | .inside p ops, xss =>
    match k.get p xss with
    | none => .ok (.inside none, xss)
    | some xs =>
      match SeqOp.run ops xs with
      | .error e => .error e
      | .ok (os, ys) => .ok (.inside (some os), k.set p ys xss)

/-- A program. -/
def NestItem.run {k : Kind} : List (NestItem k α) → k.St (List α) →
    Except Fault (List (NestOut k α) × k.St (List α))
  | [], xss => .ok ([], xss)
  | i :: is, xss =>
    match i.step xss with
    | .error e => .error e
    | .ok (o, xss) =>
      match NestItem.run is xss with
      | .error e => .error e
      | .ok (os, xss) => .ok (o :: os, xss)

/-- The calls on vectors that are part of an item. -/
def NestItem.scripts {k : Kind} : NestItem k α → List (SeqOp α)
  | .call op => (k.arg op).getD []
  | .inside _ ops => ops

/-- An item whose call is one of those considered. -/
def NestItem.Ok {k : Kind} (ok : {α : Type} → k.Op α → Bool) : NestItem k α → Prop
  | .call op => ok op = true
  | .inside _ _ => True

/-- The calls of an item on vectors inside. -/
def NestItem.inner {k : Kind} : NestItem k α → NestOut k α → List (SeqOp α)
  | .call op, _ => (k.arg op).getD []
  | .inside _ ops, .inside (some _) => ops
  | _, _ => []

/-- What the calls of an item on vectors inside handed out. -/
def NestOut.handed {k : Kind} : NestOut k α → List α
  | .call os _ => os.flatMap Out.movedOut
  | .inside os => (os.getD []).flatMap Out.movedOut

/-- Everything a program moved into vectors inside. -/
def NestItem.movedIn {k : Kind} (is : List (NestItem k α)) (os : List (NestOut k α)) : List α :=
  (is.zip os).flatMap fun p => (p.1.inner p.2).flatMap SeqOp.movedIn

/-- Everything a program got out of vectors inside. -/
def NestOut.movedOut {k : Kind} (os : List (NestOut k α)) : List α := os.flatMap NestOut.handed

/-! ## The kinds -/

/-- A call with every element in it replaced. -/
def SeqOp.map (f : α → β) : SeqOp α → SeqOp β
  | .push x => .push (f x)
  | .pop => .pop
  | .insert i x => .insert i (f x)
  | .remove i => .remove i
  | .set i x => .set i (f x)
  | .reserve n => .reserve n
  | .append buf => .append (buf.map f)
  | .assign buf => .assign (buf.map f)
  | .clear => .clear
  | .len => .len
  | .isEmpty => .isEmpty
  | .slice => .slice

def SeqOp.arg : SeqOp α → Option α
  | .push x | .insert _ x | .set _ x => some x
  | _ => none

/-- Whether a result of the call is handed over; `slice` only lends. -/
def SeqOp.owned : SeqOp α → Out α → List α
  | .pop, .elem x | .remove _, .elem x => x.toList
  | _, _ => []

/-- Vectors: a mutable reference to every element. -/
def Kind.vector : Kind where
  Op := SeqOp
  St := List
  Res := Out
  Pos := Nat
  mapOp := SeqOp.map
  mapSt := List.map
  mapRes := Out.map
  arg := SeqOp.arg
  elems := id
  shows := Out.elems
  step := SeqOp.step
  owned := SeqOp.owned
  get i xs := xs[i]?
  set i x xs := xs.set i x
  nil := []

def DeqOp.map (f : α → β) : DeqOp α → DeqOp β
  | .pushBack x => .pushBack (f x)
  | .pushFront x => .pushFront (f x)
  | .popBack => .popBack
  | .popFront => .popFront
  | .front => .front
  | .back => .back
  | .setFront x => .setFront (f x)
  | .setBack x => .setBack (f x)
  | .remove i => .remove i
  | .len => .len
  | .isEmpty => .isEmpty

def DeqOp.arg : DeqOp α → Option α
  | .pushBack x | .pushFront x | .setFront x | .setBack x => some x
  | _ => none

/-- `front` and `back` only lend; what could not be assigned to the front or back stays with the
caller. -/
def DeqOp.owned : DeqOp α → Out α → List α
  | .popBack, .elem x | .popFront, .elem x | .remove _, .elem x => x.toList
  | .setFront x, .bool false | .setBack x, .bool false => [x]
  | _, _ => []

/-- The front or the back of a sequence. -/
inductive End where
  | front
  | back
  deriving DecidableEq, Repr

def End.get : End → List α → Option α
  | .front, xs => xs.head?
  | .back, xs => xs.getLast?

def End.set : End → α → List α → List α
  | .front, x, xs => if xs = [] then [] else x :: xs.tail
  | .back, x, xs => if xs = [] then [] else xs.dropLast ++ [x]

/-- Deques: mutable references to the front and back. -/
def Kind.deque : Kind where
  Op := DeqOp
  St := List
  Res := Out
  Pos := End
  mapOp := DeqOp.map
  mapSt := List.map
  mapRes := Out.map
  arg := DeqOp.arg
  elems := id
  shows := Out.elems
  step op xs := .ok (op.step xs)
  owned := DeqOp.owned
  get := End.get
  set := End.set
  nil := []

def ListOp.map (f : α → β) : ListOp α → ListOp β
  | .pushBack x => .pushBack (f x)
  | .pushFront x => .pushFront (f x)
  | .popBack => .popBack
  | .popFront => .popFront
  | .front => .front
  | .back => .back
  | .setFront x => .setFront (f x)
  | .setBack x => .setBack (f x)
  | .len => .len
  | .isEmpty => .isEmpty
  | .clear => .clear
  | .extend ys => .extend (ys.map f)

def ListOp.arg : ListOp α → Option α
  | .pushBack x | .pushFront x | .setFront x | .setBack x => some x
  | _ => none

def ListOp.owned : ListOp α → Out α → List α
  | .popBack, .elem x | .popFront, .elem x => x.toList
  | .setFront x, .bool false | .setBack x, .bool false => [x]
  | _, _ => []

/-- Lists: mutable references to the front and back. -/
def Kind.list : Kind where
  Op := ListOp
  St := List
  Res := Out
  Pos := End
  mapOp := ListOp.map
  mapSt := List.map
  mapRes := Out.map
  arg := ListOp.arg
  elems := id
  shows := Out.elems
  step op xs := .ok (op.step xs)
  owned := ListOp.owned
  get := End.get
  set := End.set
  nil := []

/-- Calls with at most one element as argument. -/
def SeqOp.single : SeqOp α → Bool
  | .append _ | .assign _ => false
  | _ => true

def ListOp.single : ListOp α → Bool
  | .extend _ => false
  | _ => true

end Verif.Spec
