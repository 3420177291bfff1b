import Verif.Spec.HashTable

/-!
# What a map may do when its keys misbehave

If the comparator is no order, `==` no equivalence, or the hash function does not fit `==`, a map
cannot find keys reliably.  It still has to keep its books: every pair it holds was put in, and
leaves only by being handed out, replaced or cleared.  `Honest op out s s' d` says that a call `op`
that returned `out`, changed the pairs held from `s` to `s'` (in any order) and dropped the keys and
values `d` did so.  What a call is given and what it held is at the end held, returned, consumed by
a closure, or dropped.
-/

set_option autoImplicit false

namespace Verif.Spec

variable {K V : Type}

/-- One call. -/
inductive Honest : MapOp K V → MapOut K V → List (K × V) → List (K × V) → List (K ⊕ V) → Prop
  /-- a pair was added -/
  | insertNew {k : K} {v : V} {s s' : List (K × V)} : s'.Perm ((k, v) :: s) →
    Honest (.insert k v) (.val none) s s' []
  /-- a value was replaced and is returned, the key stored stays -/
  | insertOld {k k' : K} {v old : V} {s s' r : List (K × V)} : s.Perm ((k', old) :: r) →
    s'.Perm ((k', v) :: r) → Honest (.insert k v) (.val (some old)) s s' [.inl k]
  | removeNone {k : K} {s s' : List (K × V)} : s'.Perm s → Honest (.remove k) (.val none) s s' []
  | removeSome {k k' : K} {v : V} {s s' : List (K × V)} : s.Perm ((k', v) :: s') →
    Honest (.remove k) (.val (some v)) s s' [.inl k']
  | removeEntryNone {k : K} {s s' : List (K × V)} : s'.Perm s →
    Honest (.removeEntry k) (.pair none) s s' []
  | removeEntrySome {k : K} {p : K × V} {s s' : List (K × V)} : s.Perm (p :: s') →
    Honest (.removeEntry k) (.pair (some p)) s s' []
  | getNone {k : K} {s s' : List (K × V)} : s'.Perm s → Honest (.get k) (.val none) s s' []
  | getSome {k k' : K} {v : V} {s s' : List (K × V)} : s'.Perm s → (k', v) ∈ s →
    Honest (.get k) (.val (some v)) s s' []
  | modifyNone {k : K} {f : V → V} {s s' : List (K × V)} : s'.Perm s →
    Honest (.modify k f) (.val none) s s' []
  | modifySome {k k' : K} {f : V → V} {v : V} {s s' r : List (K × V)} : s.Perm ((k', v) :: r) →
    s'.Perm ((k', f v) :: r) → Honest (.modify k f) (.val (some v)) s s' []
  | contains {k : K} {b : Bool} {s s' : List (K × V)} : s'.Perm s → (b = true → s ≠ []) →
    Honest (.contains k) (.bool b) s s' []
  | entryNew {k : K} {f : V → V} {v : V} {s s' : List (K × V)} : s'.Perm ((k, v) :: s) →
    Honest (.entry k f v) (.val (some v)) s s' []
  | entryOld {k k' : K} {f : V → V} {v old : V} {s s' r : List (K × V)} :
    s.Perm ((k', old) :: r) → s'.Perm ((k', f old) :: r) →
    Honest (.entry k f v) (.val (some (f old))) s s' [.inl k, .inr v]
  | entryKeyNew {k : K} {s s' : List (K × V)} : s'.Perm s → Honest (.entryKey k) (.key k) s s' [.inl k]
  | entryKeyOld {k k' : K} {v : V} {s s' : List (K × V)} : s'.Perm s → (k', v) ∈ s →
    Honest (.entryKey k) (.key k') s s' [.inl k]
  | len {s s' : List (K × V)} : s'.Perm s → Honest .len (.nat s.length) s s' []
  | isEmpty {s s' : List (K × V)} : s'.Perm s → Honest .isEmpty (.bool s.isEmpty) s s' []
  | clear {s : List (K × V)} : Honest .clear .unit s [] (contents s)

/-- A history of calls. -/
inductive HonestRun : List (MapOp K V) → List (MapOut K V) → List (K × V) → List (K × V) →
    List (K ⊕ V) → Prop
  | nil {s : List (K × V)} : HonestRun [] [] s s []
  | cons {op : MapOp K V} {o : MapOut K V} {ops : List (MapOp K V)} {os : List (MapOut K V)}
    {s s' s'' : List (K × V)} {d d' : List (K ⊕ V)} : Honest op o s s' d →
    HonestRun ops os s' s'' d' → HonestRun (op :: ops) (o :: os) s s'' (d ++ d')

end Verif.Spec
