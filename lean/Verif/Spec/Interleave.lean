/-!
# Interleaved calls on two objects

A call `(b, op)` goes to object `b`; a result `(b, o)` comes from it.
-/

set_option autoImplicit false

namespace Verif.Spec

/-- The calls that go to object `b`, or the results that come from it, in order. -/
def sentTo {α : Type} (b : Bool) (l : List (Bool × α)) : List α :=
  l.filterMap fun x => if x.1 = b then some x.2 else none

end Verif.Spec
