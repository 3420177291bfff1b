import Verif.Nested.Model
import Verif.Spec.NestedMap
import Verif.HashTable.Model
import Verif.VectorMap.Drops

/-!
# Maps whose values are vectors

`HashMap<K, Vector<T>>` and `VectorMap<K, Vector<T>>`: the models of the maps with `Vec` as the type
of values.  The third component of the state is the list of the values dropped so far; the models
have their own logs, of keys and values.
-/

set_option autoImplicit false

namespace Verif
open Spec

variable {K H σ : Type}

/-- `HashMap<K, H>` (src/hash_map/mod.rs).  References: `get_mut` (src/hash_map/mod.rs:80-82,
src/internal/hash_table/mod.rs:110-113). -/
def hashOuter (E : HEnv K H σ) : Outer (Kind.table E.eq) H where
  σ := HTable σ × HMem K H × List H
  step op s := do
    let (r, t, m) ← s.1.step E op.toMap { s.2.1 with n := { s.2.1.n with dropped := [] } }
    .ok (r, t, m, s.2.2 ++ m.n.dropped.filterMap Sum.getRight?)
  dropped s := s.2.2
  get k s := do
    let p ← s.1.get E k s.2.1
    .ok (p.map Prod.snd)
  put k x s := do
    let (_, m) ← s.1.modify E k (fun _ => x) s.2.1
    .ok (s.1, m, s.2.2)
  drop s := do
    let (_, m) ← s.1.drop E { s.2.1 with n := { s.2.1.n with dropped := [] } }
    .ok (s.1, m, s.2.2 ++ m.n.dropped.filterMap Sum.getRight?)

/-- A comparator and `==` that are functions. -/
def KeyFns.pure (lt eq : K → K → Bool) : KeyFns Unit K where
  lt s a b := (some (lt a b), s)
  eq s a b := (some (eq a b), s)

/-- `VectorMap<K, H>` (src/vector_map/mod.rs).  References: `get_mut` (src/vector_map/mod.rs:118-133). -/
def vmapOuter (R : RawAlloc (K × H)) (lt eq : K → K → Bool) : Outer (Kind.table eq) H where
  σ := Vec × Mem (K × H) × List H
  step op s := do
    let (o, _, v, m, l) ← VMap.stepD (defaultAllocator R) (KeyFns.pure lt eq) true op.toMap s.1 s.2.1 ()
    match o with
    | none => .error .panic
    | some r => .ok (r, v, m, s.2.2 ++
        (l ++ Spec.contents (m.dropped.drop s.2.1.dropped.length)).filterMap Sum.getRight?)
  dropped s := s.2.2
  get k s := VMap.get lt eq k s.1 s.2.1
  put k x s := do
    let (_, m) ← VMap.modify lt eq k (fun _ => x) s.1 s.2.1
    .ok (s.1, m, s.2.2)
  drop s := do
    let (v, m) ← s.1.clear (defaultAllocator R) true s.2.1
    .ok (v, m, s.2.2 ++ (Spec.contents (m.dropped.drop s.2.1.dropped.length)).filterMap Sum.getRight?)

end Verif
