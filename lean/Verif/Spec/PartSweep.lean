import Verif.Spec.HashTable

/-! Histories of a finite map in which, between calls, a program iterates over the map by `iter_mut`,
as far as it likes, and assigns to the values it is given. -/

set_option autoImplicit false

namespace Verif.Spec

variable {K V : Type}

/-- One item of such a history: a call, or a loop that assigns `ys` to the first values in the order
of iteration. -/
inductive MapWrite (K V : Type) where
  | call (op : MapOp K V)
  | sweep (ys : List V)

/-- What one item yields: the result of the call, or the entries seen. -/
inductive MapSeen (K V : Type) where
  | out (o : MapOut K V)
  | saw (os : List (Option (K × V)))
  deriving DecidableEq

/-- `MapWritten eq is s os s' d`: the items `is` may take the map `s` to `s'`, yielding `os` and
dropping `d`.  The order of iteration is not determined. -/
inductive MapWritten (eq : K → K → Bool) : List (MapWrite K V) → List (K × V) →
    List (MapSeen K V) → List (K × V) → List (K ⊕ V) → Prop
  | nil (s : List (K × V)) : MapWritten eq [] s [] s []
  | call {op : MapOp K V} {is : List (MapWrite K V)} {s s' : List (K × V)}
      {os : List (MapSeen K V)} {d : List (K ⊕ V)}
      (h : MapWritten eq is (op.step eq s).2 os s' d) :
      MapWritten eq (.call op :: is) s (.out (op.step eq s).1 :: os) s' (op.drops eq s ++ d)
  | sweep {ys : List V} {is : List (MapWrite K V)} {s es s' : List (K × V)}
      {os : List (MapSeen K V)} {d : List (K ⊕ V)} (hp : es.Perm s)
      (h : MapWritten eq is
        (List.zipWith (fun e y => (e.1, y)) es ys ++ es.drop ys.length) os s' d) :
      MapWritten eq (.sweep ys :: is) s (.saw ((List.range ys.length).map fun i => es[i]?) :: os) s'
        ((es.take ys.length).map (fun e => .inr e.2) ++ d)

end Verif.Spec
