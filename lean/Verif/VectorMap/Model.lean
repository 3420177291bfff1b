import Verif.Vector.Model
import Verif.Spec.FiniteMap

/-!
# Model of `VectorMap` (src/vector_map/mod.rs, src/vector_map/entry.rs)

A `VectorMap` is a `Vector` of pairs; the model works on the same memory.  `lt` is
`C::compare`, `eq` is `==` on keys.  The key passed to `insert` or `entry` and not stored is
dropped by Rust; the drop log records pairs only, so that drop is not logged (VectorMap/Drops.lean
adds those).  `new_in`, `new`,
`with_capacity`, `capacity`, `Default`, `AsRef` and `Deref` (src/vector_map/mod.rs:25-58, 203-207,
223-234) are those of the vector.
-/

set_option autoImplicit false

namespace Verif
open Spec

/-- `get_unchecked`: outside the slice it is undefined. -/
def sliceAt {α : Type} (xs : List α) (i : Nat) : Exec α :=
  match xs[i]? with
  | some x => .ok x
  | none => .error .ub

/-- The loop of `superslice::Ext::lower_bound_by` (crate superslice 1.0, used at
src/vector_map/mod.rs:190-200):
`while size > 1 { half = size/2; mid = base+half; base = if f(s[mid]) == Less {mid} else {base};
size -= half }`.  `fuel` bounds the iterations; running out is reported as a fault, so a
theorem that says `.ok` says that the loop ends. -/
def lowerLoop {α : Type} (xs : List α) (less : α → Bool) : Nat → Nat → Nat → Exec Nat
  | 0, _, _ => .error .ub
  | fuel + 1, size, base =>
    if 1 < size then do
      let half := size / 2
      let mid := base + half
      let x ← sliceAt xs mid
      lowerLoop xs less fuel (size - half) (if less x then mid else base)
    else .ok base

/-- `superslice::Ext::lower_bound_by`. -/
def lowerBoundBy {α : Type} (xs : List α) (less : α → Bool) : Exec Nat :=
  if xs.length = 0 then .ok 0 else do
    let base ← lowerLoop xs less xs.length xs.length 0
    let x ← sliceAt xs base
    .ok (if less x then base + 1 else base)

namespace VMap

variable {K V : Type}

/-- `VectorMap::lower_bound` (src/vector_map/mod.rs:190-200). -/
def lowerBound (lt : K → K → Bool) (key : K) (v : Vec) (m : Mem (K × V)) : Exec Nat := do
  let xs ← v.asSlice m
  lowerBoundBy xs (fun p => lt p.1 key)

/-- `self.base[i]` (`Deref` to a slice, src/vector/mod.rs:343-349, then a checked index). -/
def index (i : Nat) (v : Vec) (m : Mem (K × V)) : Exec (K × V) := do
  let xs ← v.asSlice m
  match xs[i]? with
  | some x => .ok x
  | none => .error .panic

/-- The test `lower_bound < self.len() && self.base[lower_bound].0 == key`
(src/vector_map/mod.rs:79, 100-108, 120-128, 145, 182): the entry of the key, if present, and
the lower bound. -/
def find (lt eq : K → K → Bool) (key : K) (v : Vec) (m : Mem (K × V)) :
    Exec (Option (K × V) × Nat) := do
  let i ← lowerBound lt key v m
  let n ← v.len
  if i < n then do
    let p ← index i v m
    .ok (if eq p.1 key then some p else none, i)
  else .ok (none, i)

/-- `VectorMap::get` (src/vector_map/mod.rs:96-111). -/
def get (lt eq : K → K → Bool) (key : K) (v : Vec) (m : Mem (K × V)) : Exec (Option V) := do
  let (p, _) ← find lt eq key v m
  .ok (p.map Prod.snd)

/-- `VectorMap::get_mut` (src/vector_map/mod.rs:118-133), then assigning `f x` through the
reference. -/
def modify (lt eq : K → K → Bool) (key : K) (f : V → V) (v : Vec) (m : Mem (K × V)) :
    Exec (Option V × Mem (K × V)) := do
  let (p, i) ← find lt eq key v m
  match p with
  | some p => do
    let m ← v.setAt false i (p.1, f p.2) m
    .ok (some p.2, m)
  | none => .ok (none, m)

/-- `VectorMap::insert` (src/vector_map/mod.rs:142-157): the `swap` stores the new value and
returns the old one. -/
def insert (A : Allocator (K × V)) (lt eq : K → K → Bool) (key : K) (value : V) (v : Vec)
    (m : Mem (K × V)) : Exec (Option V × Vec × Mem (K × V)) := do
  let (p, i) ← find lt eq key v m
  match p with
  | some p => do
    let m ← v.setAt false i (p.1, value) m
    .ok (some p.2, v, m)
  | none => do
    let (v, m) ← v.insert A i (key, value) m
    .ok (none, v, m)

/-- `VectorMap::remove_entry` (src/vector_map/mod.rs:177-187). -/
def removeEntry (lt eq : K → K → Bool) (key : K) (v : Vec) (m : Mem (K × V)) :
    Exec (Option (K × V) × Vec × Mem (K × V)) := do
  let (p, i) ← find lt eq key v m
  match p with
  | some _ => v.remove i m
  | none => .ok (none, v, m)

/-- `VectorMap::remove` (src/vector_map/mod.rs:171-173). -/
def remove (lt eq : K → K → Bool) (key : K) (v : Vec) (m : Mem (K × V)) :
    Exec (Option V × Vec × Mem (K × V)) := do
  let (p, v, m) ← removeEntry lt eq key v m
  .ok (p.map Prod.snd, v, m)

/-- `VectorMap::contains_key` (src/vector_map/mod.rs:68-70). -/
def containsKey (lt eq : K → K → Bool) (key : K) (v : Vec) (m : Mem (K × V)) : Exec Bool := do
  let r ← get lt eq key v m
  .ok r.isSome

/-- `VectorMap::entry` (src/vector_map/mod.rs:74-89).  An occupied entry is modified through
`OccupiedEntry::get_mut` (src/vector_map/entry.rs:10-17); a vacant one is filled by
`VacantEntry::insert` (39-43), whose result is the stored value. -/
def entry (A : Allocator (K × V)) (lt eq : K → K → Bool) (key : K) (f : V → V) (value : V)
    (v : Vec) (m : Mem (K × V)) : Exec (V × Vec × Mem (K × V)) := do
  let (p, i) ← find lt eq key v m
  match p with
  | some p => do
    let m ← v.setAt false i (p.1, f p.2) m
    let q ← index i v m
    .ok (q.2, v, m)
  | none => do
    let (v, m) ← v.insert A i (key, value) m
    let q ← index i v m
    .ok (q.2, v, m)

/-- `entry(key).key()` (src/vector_map/entry.rs:20-22, 46-48, `into_key` 34-36). -/
def entryKey (lt eq : K → K → Bool) (key : K) (v : Vec) (m : Mem (K × V)) : Exec K := do
  let (p, _) ← find lt eq key v m
  match p with
  | some p => .ok p.1
  | none => .ok key

/-- One call; `len`, `is_empty`, `clear` are the vector's (src/vector_map/mod.rs:166-168, 161-163,
61-63). -/
def step (A : Allocator (K × V)) (lt eq : K → K → Bool) (nd : Bool) (op : MapOp K V) (v : Vec)
    (m : Mem (K × V)) : Exec (MapOut K V × Vec × Mem (K × V)) :=
  match op with
  | .insert k x => do let (r, v, m) ← insert A lt eq k x v m; .ok (.val r, v, m)
  | .remove k => do let (r, v, m) ← remove lt eq k v m; .ok (.val r, v, m)
  | .removeEntry k => do let (r, v, m) ← removeEntry lt eq k v m; .ok (.pair r, v, m)
  | .get k => do let r ← get lt eq k v m; .ok (.val r, v, m)
  | .modify k f => do let (r, m) ← modify lt eq k f v m; .ok (.val r, v, m)
  | .contains k => do let r ← containsKey lt eq k v m; .ok (.bool r, v, m)
  | .entry k f x => do let (r, v, m) ← entry A lt eq k f x v m; .ok (.val (some r), v, m)
  | .entryKey k => do let r ← entryKey lt eq k v m; .ok (.key r, v, m)
  | .len => do let n ← v.len; .ok (.nat n, v, m)
  | .isEmpty => do let b ← v.isEmpty; .ok (.bool b, v, m)
  | .clear => do let (v, m) ← v.clear A nd m; .ok (.unit, v, m)

/-- A history of calls. -/
def run (A : Allocator (K × V)) (lt eq : K → K → Bool) (nd : Bool) : List (MapOp K V) → Vec →
    Mem (K × V) → Exec (List (MapOut K V) × Vec × Mem (K × V))
  | [], v, m => .ok ([], v, m)
  | op :: ops, v, m => do
    let (o, v, m) ← step A lt eq nd op v m
    let (os, v, m) ← run A lt eq nd ops v m
    .ok (o :: os, v, m)

/-- The loop of inserts in `From<&[..]>`, `From<[..; N]>`, `FromIterator`. -/
def insertAll (A : Allocator (K × V)) (lt eq : K → K → Bool) : List (K × V) → Vec →
    Mem (K × V) → Exec (Vec × Mem (K × V))
  | [], v, m => .ok (v, m)
  | p :: ps, v, m => do
    let (_, v, m) ← insert A lt eq p.1 p.2 v m
    insertAll A lt eq ps v m

/-- `From<&[(K, V)]>`, `From<[(K, V); N]>` and their variants (src/vector_map/mod.rs:236-276). -/
def fromPairs (A : Allocator (K × V)) (lt eq : K → K → Bool) (ps : List (K × V))
    (m : Mem (K × V)) : Exec (Vec × Mem (K × V)) := do
  let (v, m) ← Vec.withCapacity A ps.length m
  insertAll A lt eq ps v m

/-- `FromIterator` (src/vector_map/mod.rs:278-290). -/
def fromIter (A : Allocator (K × V)) (lt eq : K → K → Bool) (ps : List (K × V))
    (m : Mem (K × V)) : Exec (Vec × Mem (K × V)) :=
  insertAll A lt eq ps Vec.new m

end VMap

end Verif
