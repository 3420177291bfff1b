import Verif.Spec.NestedMap
import Verif.Spec.Tree

/-! Ordered maps whose values are sequences. -/

set_option autoImplicit false

namespace Verif.Spec

variable {K V W : Type}

/-- Calls on an ordered map that only look. -/
inductive LookOp (K : Type) where
  | get (k : K)
  | contains (k : K)
  | len
  | isEmpty
  /-- everything an iterator yields -/
  | iter

/-- The call among those of Spec/Tree.lean. -/
def LookOp.toTree : LookOp K → TreeOp K V
  | .get k => .get k
  | .contains k => .contains k
  | .len => .len
  | .isEmpty => .isEmpty
  | .iter => .iter

def TreeOut.map (f : V → W) : TreeOut K V → TreeOut K W
  | .val v => .val (v.map f)
  | .bool b => .bool b
  | .nat n => .nat n
  | .pairs l => .pairs (l.map fun p => (p.1, f p.2))

/-- The values in a result. -/
def TreeOut.vals : TreeOut K V → List V
  | .val v => v.toList
  | .pairs l => l.map Prod.snd
  | _ => []

/-- Ordered maps that were handed over: nothing can be inserted or removed; there is a mutable reference
to the value of every key (`get_mut`). -/
def Kind.ordered (lt : K → K → Bool) : Kind where
  Op _ := LookOp K
  St V := List (K × V)
  Res := TreeOut K
  Pos := K
  mapOp _ op := op
  mapSt f s := s.map fun p => (p.1, f p.2)
  mapRes := TreeOut.map
  arg _ := none
  elems s := s.map Prod.snd
  shows := TreeOut.vals
  step op s := .ok (op.toTree.step lt s)
  owned _ _ := []
  get k s := (lookup (equiv lt) s k).map Prod.snd
  set := setFirst (equiv lt)
  nil := []

end Verif.Spec
