import Verif.Spec.Panic

/-!
# A map whose calls may be interrupted without trace

`Called op out s s' d` says that a call either returned and kept its books (`Honest`), or was left by
a panic: then the pairs held are those held before, in the same order, and what the call owned is
dropped.
-/

set_option autoImplicit false

namespace Verif.Spec

variable {K V : Type}

/-- One call. -/
inductive Called : MapOp K V → Option (MapOut K V) → List (K × V) → List (K × V) →
    List (K ⊕ V) → Prop
  | returns {op : MapOp K V} {o : MapOut K V} {s s' : List (K × V)} {d : List (K ⊕ V)} :
    Honest op o s s' d → Called op (some o) s s' d
  | panics {op : MapOp K V} {s : List (K × V)} : op.whole = false → Called op none s s op.owns

/-- A history of calls. -/
inductive CalledRun : List (MapOp K V) → List (Option (MapOut K V)) → List (K × V) →
    List (K × V) → List (K ⊕ V) → Prop
  | nil {s : List (K × V)} : CalledRun [] [] s s []
  | cons {op : MapOp K V} {o : Option (MapOut K V)} {ops : List (MapOp K V)}
    {os : List (Option (MapOut K V))} {s s' s'' : List (K × V)} {d d' : List (K ⊕ V)} :
    Called op o s s' d → CalledRun ops os s' s'' d' →
    CalledRun (op :: ops) (o :: os) s s'' (d ++ d')

/-- The calls that returned. -/
def returned (ops : List (MapOp K V)) (outs : List (Option (MapOut K V))) : List (MapOp K V) :=
  ((ops.zip outs).filter fun x => x.2.isSome).map Prod.fst

/-- What the calls left by a panic owned. -/
def interruptedOwns (ops : List (MapOp K V)) (outs : List (Option (MapOut K V))) : List (K ⊕ V) :=
  ((ops.zip outs).filter fun x => x.2.isNone).flatMap fun x => x.1.owns

end Verif.Spec
