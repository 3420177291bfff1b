import Verif.Spec.Honest

/-!
# What a map may do when its keys' functions panic

`Shaken op out s l s' l' g d` says that a call `op` of a map that held the pairs `s`, and counted
`l` more that it cannot reach, either returned `some out` and kept its books (`Honest`), or was left
by a panic (`none`).  A panic may lose pairs `g`: they stay in memory, counted, but neither found nor
ever dropped.  Only calls that may add a pair lose any.  `d` is what was dropped.
-/

set_option autoImplicit false

namespace Verif.Spec

variable {K V : Type}

/-- The keys and values a call is given to own. -/
def MapOp.owns : MapOp K V → List (K ⊕ V)
  | .insert k v | .entry k _ v => [.inl k, .inr v]
  | .entryKey k => [.inl k]
  | _ => []

/-- May the call add a pair? -/
def MapOp.adds : MapOp K V → Bool
  | .insert _ _ | .entry _ _ _ => true
  | _ => false

/-- Does the call look at the number of pairs, or at all of them? -/
def MapOp.whole : MapOp K V → Bool
  | .len | .isEmpty | .clear => true
  | _ => false

/-- One call. -/
inductive Shaken : MapOp K V → Option (MapOut K V) → List (K × V) → Nat → List (K × V) → Nat →
    List (K × V) → List (K ⊕ V) → Prop
  | returns {op : MapOp K V} {o : MapOut K V} {s s' : List (K × V)} {l : Nat} {d : List (K ⊕ V)} :
    op.whole = false → Honest op o s s' d → Shaken op (some o) s l s' l [] d
  | len {s : List (K × V)} {l : Nat} : Shaken .len (some (.nat (s.length + l))) s l s l [] []
  | isEmpty {s : List (K × V)} {l : Nat} :
    Shaken .isEmpty (some (.bool (decide (s.length + l = 0)))) s l s l [] []
  | clear {s : List (K × V)} {l : Nat} : Shaken .clear (some .unit) s l [] 0 [] (contents s)
  | panics {op : MapOp K V} {s s' g : List (K × V)} {l : Nat} {d : List (K ⊕ V)} :
    s.Perm (s' ++ g) → (op.adds = false → g = []) → d.Sublist op.owns →
    Shaken op none s l s' (l + g.length) g d

/-- A history of calls. -/
inductive ShakenRun : List (MapOp K V) → List (Option (MapOut K V)) → List (K × V) → Nat →
    List (K × V) → Nat → List (K × V) → List (K ⊕ V) → Prop
  | nil {s : List (K × V)} {l : Nat} : ShakenRun [] [] s l s l [] []
  | cons {op : MapOp K V} {o : Option (MapOut K V)} {ops : List (MapOp K V)}
    {os : List (Option (MapOut K V))} {s s' s'' g g' : List (K × V)} {l l' l'' : Nat}
    {d d' : List (K ⊕ V)} : Shaken op o s l s' l' g d → ShakenRun ops os s' l' s'' l'' g' d' →
    ShakenRun (op :: ops) (o :: os) s l s'' l'' (g' ++ g) (d ++ d')

end Verif.Spec
