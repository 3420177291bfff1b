import Verif.VectorMap.Drops

/-! Building a vector map from an iterator whose `next` panics after some pairs. -/

set_option autoImplicit false

namespace Verif

variable {σ K V : Type}

/-- `VectorMap::from_iter` (src/vector_map/mod.rs:281-289) when the iterator yields `items` and then
panics: unwinding drops the local `vec`, whose `Drop` is the vector's (src/vector/mod.rs:332-335).
If the comparator or `==` panics before that, the iterator, which keeps the rest of `items`, is
dropped too. -/
def VMap.collectP (A : Allocator (K × V)) (F : KeyFns σ K) (nd : Bool) (items : List (K × V))
    (m : Mem (K × V)) (s : σ) : Exec (Mem (K × V) × List (K ⊕ V)) := do
  let (r, _, m, l) ← VMap.fromIterD A F nd items m s
  match r with
  | none => .ok (m, l)
  | some v => do
    let (_, m) ← v.clear A nd m
    .ok (m, l)

end Verif
