import Verif.Deque.Model
import Verif.HashTable.Model
import Verif.LinkedList.Model
import Verif.Unwind.Model

/-! Building a container from an iterator whose `next` panics after some items.  No element is on
its way at that moment, so what unwinding sees is the container after those items. -/

set_option autoImplicit false

namespace Verif

variable {α K V σ : Type}

/-- `Vector::from_iter` (src/vector/mod.rs:392-402) when the iterator yields `items` and then panics:
unwinding drops the local `v` (src/vector/mod.rs:332-335). -/
def Vec.collectP (A : Allocator α) (nd : Bool) (lower : Nat) (items : List α) (m : Mem α) :
    Exec (Mem α) := do
  let (v, m) ← Vec.fromIter A lower items m
  let (_, m) ← v.clear A nd m
  .ok m

/-- `Deque::from_iter` (src/deque/mod.rs:459-465) likewise; unwinding drops the local deque
(src/deque/mod.rs:436-457).  `Queue::from_iter` (src/queue.rs:90-94) forwards to it. -/
def Deque.collectP (E : DEnv α) (items : List α) (m : DMem α) : Exec (DMem α) := do
  let (d, m) ← Deque.fromIter E items m
  d.drop E m

/-- `HashTable::from_iter` (src/internal/hash_table/mod.rs:442-448) likewise, hence
`HashMap::from_iter` and `HashSet::from_iter`; unwinding drops the local table
(src/internal/hash_table/mod.rs:431-435). -/
def HTable.collectP (E : HEnv K V σ) (a : σ) (items : List (K × V)) (m : HMem K V) :
    Exec (HMem K V) := do
  let (t, m) ← HTable.insertAll E items (HTable.newIn E a) m
  let (_, m) ← t.drop E m
  .ok m

/-- `List::extend` (src/list/mod.rs:238-250) likewise: the list is borrowed, not local, and the
caller finds it with the items so far. -/
def LList.extendP (E : LEnv α σ) (items : List α) (l : LList σ) (m : LMem α) :
    Exec (Ends (LList σ × LMem α)) := do
  let (l, m) ← l.extend E items m
  .ok (.unwinds (l, m))

end Verif
