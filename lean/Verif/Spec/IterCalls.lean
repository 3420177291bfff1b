/-!
# What a consumer that stops anywhere does to the values

Used by C61.
-/

set_option autoImplicit false

namespace Verif.Spec

variable {K V : Type}

/-- The entries after the first of them had its value replaced by the first function of its key and
value, the second by the second function, and so on: entries past the last function are as they
were, functions past the last entry are not used. -/
def alter : List (K → V → V) → List (K × V) → List (K × V)
  | [], es => es
  | _ :: _, [] => []
  | g :: gs, e :: es => (e.1, g e.1 e.2) :: alter gs es

end Verif.Spec
