import Verif.Spec.Borrow

/-! Iterating over a sequence and looking at what is left in between. -/

set_option autoImplicit false

namespace Verif.Spec

variable {α : Type}

/-- A call of `next` or `next_back`, or of `as_slice`. -/
inductive PeekOp where
  | step (op : IterOp)
  | look
  deriving DecidableEq, Repr

inductive PeekOut (α : Type) where
  | item (o : Option α)
  | rest (xs : List α)
  deriving DecidableEq, Repr

/-- Iterating over the elements of a block of `cap` places, the first `taken` of which are used up.
Looking at a rest whose length is not `fine` is undefined behaviour, and so is looking at what lies
behind the block. -/
def PeekOp.run (fine : Nat → Bool) (cap : Nat) : List PeekOp → Nat → List α →
    Except Fault (List (PeekOut α) × Nat × List α)
  | [], taken, xs => .ok ([], taken, xs)
  | .look :: ops, taken, xs =>
    if fine xs.length = true ∧ taken < cap then do
      let (os, r) ← PeekOp.run fine cap ops taken xs
      .ok (.rest xs :: os, r)
    else .error .ub
  | .step op :: ops, taken, xs => do
    let (os, r) ← PeekOp.run fine cap ops (taken + IterOp.taken [op] xs) (op.step xs).2
    .ok (.item (op.step xs).1 :: os, r)

end Verif.Spec
