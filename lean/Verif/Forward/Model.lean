import Verif.Pool.Model
import Verif.Deque.Model
import Verif.HashTable.Model

/-! Types that wrap another container and forward to it, as far as the models of the containers do
not already speak about them: the conformant `FixedList`, conversions from and to `Queue`, `HashSet`
built from an iterator and its iterator. -/

set_option autoImplicit false

namespace Verif
open Spec

variable {α σ K : Type}

namespace ConformantList

/-- One public call on the conformant `FixedList` (src/fixed_list/conformant.rs:61-147).  The
arms in order: 135-137 (`push_back`), 140-142 (`push_front`), 122-124 (`pop_back`), 130-132
(`pop_front`), 65-67 (`back`), 96-98 (`front`), 73-75 (`back_mut`), 104-106 (`front_mut`), 83-85 and
145-147 (`len`, `size`), 88-90 (`is_empty`, by way of `List::empty`), 78-80 (`clear`).  It has no
`extend`; that call is a loop of `push_back` by the caller here. -/
def step (E : LEnv α σ) : ListOp α → LList σ → LMem α → Exec (Out α × LList σ × LMem α)
  | .pushBack x, l, m => do let (l, m) ← l.pushBack E x m; .ok (.unit, l, m)
  | .pushFront x, l, m => do let (l, m) ← l.pushFront E x m; .ok (.unit, l, m)
  | .popBack, l, m => do let (o, l, m) ← l.popBack E m; .ok (.elem o, l, m)
  | .popFront, l, m => do let (o, l, m) ← l.popFront E m; .ok (.elem o, l, m)
  | .back, l, m => do .ok (.elem (← l.back m), l, m)
  | .front, l, m => do .ok (.elem (← l.front m), l, m)
  | .setBack x, l, m => do let (o, m) ← l.setBack E x m; .ok (.bool o, l, m)
  | .setFront x, l, m => do let (o, m) ← l.setFront E x m; .ok (.bool o, l, m)
  | .len, l, m => .ok (.nat l.size, l, m)
  | .isEmpty, l, m => .ok (.bool (decide (l.size = 0)), l, m)
  | .clear, l, m => do let (l, m) ← l.clear E m; .ok (.unit, l, m)
  | .extend xs, l, m => do let (l, m) ← LList.extend E xs l m; .ok (.unit, l, m)

/-- A history of public calls. -/
def run (E : LEnv α σ) : List (ListOp α) → LList σ → LMem α →
    Exec (List (Out α) × LList σ × LMem α)
  | [], l, m => .ok ([], l, m)
  | op :: ops, l, m => do
    let (o, l, m) ← step E op l m
    let (os, l, m) ← run E ops l m
    .ok (o :: os, l, m)

end ConformantList

/-- `Queue::from_iter` (src/queue.rs:97-101). -/
def Queue.fromIter (E : DEnv α) (xs : List α) (m : DMem α) : Exec (Deque × DMem α) :=
  Deque.fromIter E xs m

/-- `Queue::into_inner` (src/queue.rs:29-31). -/
def Queue.intoInner (q : Deque) : Deque := q

/-- `HashSet::from_iter` (src/hash_set/mod.rs:138-142). -/
def HTable.collectSet (E : HEnv K Unit σ) (a : σ) (ks : List K) (m : HMem K Unit) :
    Exec (HTable σ × HMem K Unit) :=
  HTable.insertAll E (ks.map fun k => (k, ())) (HTable.newIn E a) m

/-- `n` calls of `next` of the iterator of a `HashSet` (src/hash_set/iter.rs:49-60). -/
def HIter.runSet (m : HMem K Unit) : Nat → HIter → Exec (List (Option K) × HIter)
  | 0, it => .ok ([], it)
  | n + 1, it => do
    let (p, it) ← it.next m
    let o ← (match p with
      | none => .ok none
      | some p => do .ok (some (← m.node p).key))
    let (os, it) ← HIter.runSet m n it
    .ok (o :: os, it)

/-- `into_compat` of the iterator of a `HashSet` (src/hash_set/iter.rs:19-21). -/
def HIter.intoCompatSet (it : HIter) (m : HMem K Unit) : Exec (HCompat × HCompat) := it.intoCompat m

/-- `from_compat` of the iterator of a `HashSet` (src/hash_set/iter.rs:36-40). -/
def HIter.fromCompatSet (b e : HCompat) : Exec HIter := HIter.fromCompat b e

end Verif
