import Verif.Spec.Sequence

/-! What it means for a history to stay within the address space. -/

set_option autoImplicit false

namespace Verif.Spec

variable {α : Type}

/-- The capacities a growable sequence has after each call of a history, starting with
contents `xs` and capacity `cap`; it ends at the first call that panics. -/
def SeqOp.caps : List (SeqOp α) → List α → Nat → List Nat
  | [], _, _ => []
  | op :: ops, xs, cap =>
    match op.step xs with
    | .error _ => []
    | .ok (_, ys) =>
      op.capAfter xs.length cap :: SeqOp.caps ops ys (op.capAfter xs.length cap)

/-- How much room the caller asks for: the argument of `reserve`, or the length of a slice. -/
def SeqOp.wanted : SeqOp α → Nat
  | .reserve n => n
  | .append buf | .assign buf => buf.length
  | _ => 0

/-- An array of `n` elements of this size and alignment can exist: rounded up to the
alignment it has at most `isize::MAX` bytes. -/
def Representable (size align n : Nat) : Prop := n * size ≤ 2 ^ 63 - align

/-- A possible size and alignment of a Rust type that is not zero-sized. -/
structure TypeLayout (size align : Nat) : Prop where
  pos : 0 < size
  pow : ∃ k ≤ 29, align = 2 ^ k
  dvd : align ∣ size
  small : size < 2 ^ 63

end Verif.Spec
