import Verif.Mem

/-! The project's own unit tests, run on the model.  They settle no property: they are a check
that the model behaves as the code is known to. -/

set_option autoImplicit false

namespace Verif.Replay

/-- `assert!`. -/
def check (b : Bool) : Exec Unit := if b then .ok () else .error .panic

/-- The test runs to its end without a failed assertion and without undefined behaviour. -/
abbrev Passes (t : Exec Unit) : Prop := t = .ok ()

instance (t : Exec Unit) : Decidable (Passes t) :=
  match t with
  | .ok () => isTrue rfl
  | .error _ => isFalse (fun h => nomatch h)

/-- `#[should_panic]`. -/
abbrev Panics (t : Exec Unit) : Prop := t = .error .panic

instance (t : Exec Unit) : Decidable (Panics t) :=
  match t with
  | .ok () => isFalse (fun h => nomatch h)
  | .error .panic => isTrue rfl
  | .error .ub => isFalse (fun h => nomatch h)

end Verif.Replay
