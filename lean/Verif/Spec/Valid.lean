import Verif.Mem

/-!
# Which bytes are a value of a type

A byte of memory is either initialised or not.  Integers and pointers consist of initialised bytes;
a `MaybeUninit` of any type may have any bytes, an array is valid if its elements are.  Making a
value that is not valid is undefined behaviour, whether it is used or not (The Rust Reference,
"Behavior considered undefined", invalid values).
-/

set_option autoImplicit false

namespace Verif.Spec

/-- Types, as far as they matter here.  A pair stands for the fields of a struct (padding left out). -/
inductive Ty where
  | scalar (bytes : Nat)
  | maybeUninit (inner : Ty)
  | array (elem : Ty) (n : Nat)
  | pair (a b : Ty)

/-- Number of bytes. -/
def Ty.size : Ty → Nat
  | .scalar n => n
  | .maybeUninit t => t.size
  | .array t n => n * t.size
  | .pair a b => a.size + b.size

/-- Whether these bytes (`none`: not initialised) are a value of the type. -/
def Ty.valid : Ty → List (Option UInt8) → Prop
  | .scalar n, bs => bs.length = n ∧ ∀ b ∈ bs, b ≠ none
  | .maybeUninit t, bs => bs.length = t.size
  | .array t n, bs => bs.length = n * t.size ∧
      ∀ i, i < n → t.valid ((bs.drop (i * t.size)).take t.size)
  | .pair a b, bs => a.valid (bs.take a.size) ∧ b.valid (bs.drop a.size)

/-- Fresh memory. -/
def uninit (n : Nat) : List (Option UInt8) := List.replicate n none

end Verif.Spec
