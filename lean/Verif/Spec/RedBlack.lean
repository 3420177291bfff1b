import Verif.Spec.Tree

/-!
# Red-black trees

This file does not mention the model of the code.
-/

set_option autoImplicit false

namespace Verif.Spec.Tree

variable {α : Type}

/-- Nodes on the longest way down. -/
def height : Tree α → Nat
  | nil => 0
  | node l _ r => max l.height r.height + 1

/-- The root is black (an empty tree counts as black). -/
def RootBlack (red : α → Bool) : Tree α → Prop
  | nil => True
  | node _ x _ => red x = false

/-- No red node has a red child. -/
def NoRedRed (red : α → Bool) : Tree α → Prop
  | nil => True
  | node l x r => l.NoRedRed red ∧ r.NoRedRed red ∧
      (red x = true → l.RootBlack red ∧ r.RootBlack red)

/-- Every way down to a missing child passes `h` black nodes. -/
def BlackHeight (red : α → Bool) : Tree α → Nat → Prop
  | nil, h => h = 0
  | node l x r, h => ∃ b, h = b + (if red x then 0 else 1) ∧ l.BlackHeight red b ∧
      r.BlackHeight red b

/-- A red-black tree with the colours `red`. -/
structure RedBlack (red : α → Bool) (t : Tree α) : Prop where
  root : t.RootBlack red
  noRedRed : t.NoRedRed red
  black : ∃ h, t.BlackHeight red h

end Verif.Spec.Tree
