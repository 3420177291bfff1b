/-!
# Which types threads may hand over and share

A Rust type as far as threads are concerned: may a value of it be handed over to another thread
(`Send`), and may two threads hold references to one value of it (`Sync`)?  The rules are those of
the Rust reference ("auto traits") and of the standard library's documentation.
-/

set_option autoImplicit false

namespace Verif.Spec

/-- What threads may do with a type. -/
structure Auto where
  send : Prop
  sync : Prop

namespace Auto

/-- A type of which nobody has promised anything: raw pointers. -/
def raw : Auto := ⟨False, False⟩

/-- Integers, floating-point numbers, `bool`, `()`. -/
def word : Auto := ⟨True, True⟩

/-- A type made of parts of the given types (structs, enums, tuples, arrays, `MaybeUninit`,
`PhantomData`), if nothing else is said about it: what all of the parts permit. -/
def all (parts : List Auto) : Auto := ⟨∀ t ∈ parts, t.send, ∀ t ∈ parts, t.sync⟩

/-- `&T`: whoever receives one shares the value. -/
def ref (t : Auto) : Auto := ⟨t.sync, t.sync⟩

/-- `&mut T`: whoever receives one has the value to themselves. -/
def refMut (t : Auto) : Auto := ⟨t.send, t.sync⟩

/-- Everything that `s` permits, `t` does. -/
def Within (s t : Auto) : Prop := (s.send → t.send) ∧ (s.sync → t.sync)

/-- `s` and `t` permit the same. -/
def Same (s t : Auto) : Prop := (s.send ↔ t.send) ∧ (s.sync ↔ t.sync)

/-- Nothing is permitted. -/
def Confined (t : Auto) : Prop := ¬ t.send ∧ ¬ t.sync

end Auto

end Verif.Spec
