import Verif.Spec.Sequence

/-! How many elements a call on a vector moves, and how many blocks of memory it asks for. -/

set_option autoImplicit false

namespace Verif.Spec

variable {α : Type}

/-- Elements moved by a call on a vector of the given length and capacity: all, if there is no room
or room was asked for; and those behind the place of an insertion or removal. -/
def SeqOp.moves : SeqOp α → (length cap : Nat) → Nat
  | .push _, length, cap => if length = cap then length else 0
  | .insert i _, length, cap => (if length = cap then length else 0) + (length - i)
  | .remove i, length, _ => length - 1 - i
  | .reserve n, length, _ => if n = 0 then 0 else length
  | .append buf, length, cap => if cap < length + buf.length then length else 0
  | .assign buf, length, cap => if cap < buf.length then length else 0
  | _, _, _ => 0

/-- Blocks of memory asked for by a call on a vector of the given length and capacity. -/
def SeqOp.asks : SeqOp α → (length cap : Nat) → Nat
  | .push _, length, cap | .insert _ _, length, cap => if length = cap then 1 else 0
  | .reserve n, _, _ => if n = 0 then 0 else 1
  | .append buf, length, cap => if cap < length + buf.length then 1 else 0
  | .assign buf, _, cap => if cap < buf.length then 1 else 0
  | _, _, _ => 0

end Verif.Spec
