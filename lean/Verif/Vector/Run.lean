import Verif.Vector.Model
import Verif.Spec.Sequence

/-! Histories of calls on the model of `Vector`. -/

set_option autoImplicit false

namespace Verif
open Spec

variable {α : Type}

/-- One call on the model: dispatches to the modelled functions of src/vector/mod.rs. -/
def Vec.step (A : Allocator α) (nd : Bool) (op : SeqOp α) (v : Vec) (m : Mem α) :
    Exec (Out α × Vec × Mem α) :=
  match op with
  | .push x => do let (v, m) ← v.push A x m; .ok (.unit, v, m)
  | .pop => do let (o, v) ← v.pop m; .ok (.elem o, v, m)
  | .insert i x => do let (v, m) ← v.insert A i x m; .ok (.unit, v, m)
  | .remove i => do let (o, v, m) ← v.remove i m; .ok (.elem o, v, m)
  | .set i x => do let m ← v.setAt nd i x m; .ok (.unit, v, m)
  | .reserve n => do let (v, m) ← v.reserve A n m; .ok (.unit, v, m)
  | .append buf => do let (v, m) ← v.append A nd buf m; .ok (.unit, v, m)
  | .assign buf => do let (v, m) ← v.assign A nd buf m; .ok (.unit, v, m)
  | .clear => do let (v, m) ← v.clear A nd m; .ok (.unit, v, m)
  | .len => do let n ← v.len; .ok (.nat n, v, m)
  | .isEmpty => do let b ← v.isEmpty; .ok (.bool b, v, m)
  | .slice => do let s ← v.asSlice m; .ok (.list s, v, m)

/-- A history of calls on the model. -/
def Vec.run (A : Allocator α) (nd : Bool) : List (SeqOp α) → Vec → Mem α →
    Exec (List (Out α) × Vec × Mem α)
  | [], v, m => .ok ([], v, m)
  | op :: ops, v, m => do
    let (o, v, m) ← v.step A nd op m
    let (os, v, m) ← Vec.run A nd ops v m
    .ok (o :: os, v, m)

/-- `n` calls of `IntoIter::next`/`next_back`. -/
def VIntoIter.run : List IterOp → VIntoIter → Mem α → Exec (List (Option α) × VIntoIter)
  | [], it, _ => .ok ([], it)
  | op :: ops, it, m => do
    let (o, it) ← (match op with
      | .next => it.next m
      | .nextBack => it.nextBack m)
    let (os, it) ← VIntoIter.run ops it m
    .ok (o :: os, it)

end Verif
