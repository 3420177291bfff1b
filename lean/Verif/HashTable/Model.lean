import Verif.Node.Mem
import Verif.HashTable.Policy
import Verif.Spec.KeySet

/-!
# Model of `HashTable` (src/internal/hash_table/mod.rs, node.rs, iter.rs, entry.rs)

Simplifications: chain nodes and bucket arrays are two memories, so a node is never mistaken for
a bucket array; bucket arrays come from the default allocator, nodes from any allocator that
keeps the law of `Node/Law.lean`; `bucket_count` and `element_count` are natural numbers, but the
overflow of `element_count + 1` is a panic in the policy; loops and recursions carry fuel, and
running out of it is reported as a fault.
-/

set_option autoImplicit false

namespace Verif
open Spec

variable {K V σ : Type}

/-- `Node<K, V>` (src/internal/hash_table/node.rs:3-51), once written. -/
structure HCell (K V : Type) where
  key : K
  val : V
  next : Nat

/-- Node memory; `none` is a node not yet written.  Keys and values have destructors. -/
abbrev HNMem (K V : Type) := NMem (Option (HCell K V)) (K ⊕ V)

/-- The two memories.  A cell of a bucket array holds the address of a node. -/
structure HMem (K V : Type) where
  n : HNMem K V
  b : Mem Nat

/-- What `HashTable<K, V, A, H, E>` depends on: `H::hash`, `E::equals`, the layout of a node,
whether keys and values have destructors, the allocator, and where the static
`EMPTY_BUCKET_ARR` is. -/
structure HEnv (K V σ : Type) where
  hash : K → Nat
  eq : K → K → Bool
  size : Nat
  align : Nat
  ndK : Bool
  ndV : Bool
  A : NAlloc (Option (HCell K V)) (K ⊕ V) σ
  R : RawAlloc Nat
  stat : Nat

/-- The sentinel `!0` (src/internal/hash_table/mod.rs:49, 398). -/
def sentinel : Nat := 2 ^ 64 - 1

/-- `HashTable` (src/internal/hash_table/mod.rs:30-45). -/
structure HTable (σ : Type) where
  buckets : Ptr
  bucketCount : Nat
  count : Nat
  nextResize : Nat
  al : σ

/-- `*p` of a node pointer. -/
def HMem.node (m : HMem K V) (p : Nat) : Exec (HCell K V) := do
  match ← m.n.get p with
  | none => .error .ub
  | some c => .ok c

/-- Change a node in place. -/
def HMem.modify (m : HMem K V) (p : Nat) (f : HCell K V → HCell K V) : Exec (HMem K V) := do
  let c ← m.node p
  let n ← m.n.modify p (fun _ => some (f c))
  .ok { m with n := n }

/-- `ptr::drop_in_place` of a key, or the end of an owned key's scope. -/
def HMem.dropKey (E : HEnv K V σ) (m : HMem K V) (k : K) : HMem K V :=
  { m with n := m.n.logDrop E.ndK (.inl k) }

/-- `ptr::drop_in_place` of a value, or the end of an owned value's scope. -/
def HMem.dropVal (E : HEnv K V σ) (m : HMem K V) (v : V) : HMem K V :=
  { m with n := m.n.logDrop E.ndV (.inr v) }

/-- Write a bucket.  The static array is immutable: writing it is undefined behaviour. -/
def HMem.writeBucket (E : HEnv K V σ) (m : HMem K V) (p : Ptr) (x : Nat) : Exec (HMem K V) :=
  match p with
  | .null => .error .ub
  | .loc b o =>
    if b = E.stat then .error .ub
    else do
      let b ← m.b.write (.loc b o) x
      .ok { m with b := b }

/-- `*mut *mut Node<K, V>`: a slot of a bucket array, or the `next` field of a node. -/
inductive HSlot where
  | bucket (p : Ptr)
  | next (p : Nat)

/-- Read through a slot. -/
def HSlot.read (m : HMem K V) : HSlot → Exec Nat
  | .bucket p => m.b.read p
  | .next p => do .ok (← m.node p).next

/-- Write through a slot. -/
def HSlot.write (E : HEnv K V σ) (m : HMem K V) (x : Nat) : HSlot → Exec (HMem K V)
  | .bucket p => m.writeBucket E p x
  | .next p => m.modify p fun c => { c with next := x }

/-- `bucket_index` (src/internal/hash_table/mod.rs:251-254). -/
def bucketIndex (E : HEnv K V σ) (bucketCount : Nat) (k : K) : Exec Nat :=
  if bucketCount = 0 then .error .panic else .ok (E.hash k % bucketCount)

/-- `find_in_bucket`, `find_in_bucket_mut` (src/internal/hash_table/mod.rs:289-319): the address
of the node found. -/
def findInBucket (E : HEnv K V σ) : Nat → Nat → K → HMem K V → Exec (Option Nat)
  | 0, _, _, _ => .error .ub
  | fuel + 1, p, k, m =>
    if p = 0 then .ok none
    else do
      let c ← m.node p
      if E.eq c.key k then .ok (some p) else findInBucket E fuel c.next k m

/-- Read a slice of `n` buckets at `p` (`buckets`, `buckets_imut`, `buckets_mut`,
src/internal/hash_table/mod.rs:257-282). -/
def readBuckets (m : HMem K V) (p : Ptr) (n : Nat) : Exec (List Nat) := m.b.readRange p n

/-- `buckets.fill_with(ptr::null_mut)` over `n` buckets. -/
def fillNull (E : HEnv K V σ) : Ptr → Nat → HMem K V → Exec (HMem K V)
  | _, 0, m => .ok m
  | p, n + 1, m => do
    let m ← m.writeBucket E p 0
    fillNull E p.next n m

namespace HTable

/-- `new_in` (src/internal/hash_table/mod.rs:167-179). -/
def newIn (E : HEnv K V σ) (a : σ) : HTable σ := ⟨.loc E.stat 0, 1, 0, 0, a⟩

/-- `bucket_for_key`, `bucket_for_key_mut` (src/internal/hash_table/mod.rs:227-241). -/
def bucketForKey (E : HEnv K V σ) (t : HTable σ) (k : K) (m : HMem K V) : Exec Ptr := do
  let i ← bucketIndex E t.bucketCount k
  m.b.ptrAdd t.buckets i

/-- The search shared by `get`, `get_mut`, `insert` and `entry`: the bucket of `k` and the node
with key `k` in it.  The fuel is the number of elements: a chain can be no longer. -/
def find (E : HEnv K V σ) (t : HTable σ) (k : K) (m : HMem K V) : Exec (Ptr × Option Nat) := do
  let b ← t.bucketForKey E k m
  let p ← m.b.read b
  let o ← findInBucket E (t.count + 1) p k m
  .ok (b, o)

/-- `get` (src/internal/hash_table/mod.rs:100-103). -/
def get (E : HEnv K V σ) (t : HTable σ) (k : K) (m : HMem K V) : Exec (Option (K × V)) := do
  let (_, o) ← t.find E k m
  match o with
  | none => .ok none
  | some p => do let c ← m.node p; .ok (some (c.key, c.val))

/-- `get_mut` (src/internal/hash_table/mod.rs:110-113), then `mem::replace` of the value `x`
found by `f x`; returns `x`. -/
def modify (E : HEnv K V σ) (t : HTable σ) (k : K) (f : V → V) (m : HMem K V) :
    Exec (Option V × HMem K V) := do
  let (_, o) ← t.find E k m
  match o with
  | none => .ok (none, m)
  | some p => do
    let c ← m.node p
    let m ← m.modify p fun c => { c with val := f c.val }
    .ok (some c.val, m)

/-- `free_bucket` (src/internal/hash_table/mod.rs:322-332): the rest of the chain first. -/
def freeBucket (E : HEnv K V σ) : Nat → Nat → σ → HMem K V → Exec (σ × HMem K V)
  | 0, _, _, _ => .error .ub
  | fuel + 1, p, a, m => do
    let c ← m.node p
    let (a, m) ← (if c.next = 0 then .ok (a, m) else freeBucket E fuel c.next a m)
    let c ← m.node p
    let m := (m.dropKey E c.key).dropVal E c.val
    let (a, n) ← E.A.dealloc p E.size E.align a m.n
    .ok (a, { m with n := n })

/-- The loop of `free_buckets` over the non-null buckets
(src/internal/hash_table/mod.rs:342-344). -/
def freeChains (E : HEnv K V σ) (fuel : Nat) : Ptr → Nat → σ → HMem K V → Exec (σ × HMem K V)
  | _, 0, a, m => .ok (a, m)
  | p, n + 1, a, m => do
    let h ← m.b.read p
    let (a, m) ← (if h = 0 then .ok (a, m) else freeBucket E fuel h a m)
    freeChains E fuel p.next n a m

/-- `free_buckets` (src/internal/hash_table/mod.rs:335-348). -/
def freeBuckets (E : HEnv K V σ) (t : HTable σ) (m : HMem K V) : Exec (HTable σ × HMem K V) :=
  if 1 < t.bucketCount then do
    let (a, m) ← freeChains E (t.count + 1) t.buckets t.bucketCount t.al m
    let m ← fillNull E t.buckets t.bucketCount m
    .ok ({ t with al := a }, m)
  else .ok (t, m)

/-- `clear` (src/internal/hash_table/mod.rs:63-66). -/
def clear (E : HEnv K V σ) (t : HTable σ) (m : HMem K V) : Exec (HTable σ × HMem K V) := do
  let (t, m) ← t.freeBuckets E m
  .ok ({ t with count := 0 }, m)

/-- `drop` (src/internal/hash_table/mod.rs:431-435). -/
def drop (E : HEnv K V σ) (t : HTable σ) (m : HMem K V) : Exec (σ × HMem K V) := do
  let (t, m) ← t.freeBuckets E m
  .ok (t.al, m)

/-- The `while` loop of `rehash` (src/internal/hash_table/mod.rs:405-411), moving one chain to
the new bucket array at `nb`. -/
def moveChain (E : HEnv K V σ) (nb : Ptr) (bc : Nat) : Nat → Nat → HMem K V → Exec (HMem K V)
  | 0, _, _ => .error .ub
  | fuel + 1, p, m =>
    if p = 0 then .ok m
    else do
      let c ← m.node p
      let i ← bucketIndex E bc c.key
      let nextNode := c.next
      let slot ← m.b.ptrAdd nb i
      let h ← m.b.read slot
      let m ← m.modify p fun c => { c with next := h }
      let m ← m.writeBucket E slot p
      moveChain E nb bc fuel nextNode m

/-- The loop of `rehash` over the old buckets (src/internal/hash_table/mod.rs:400-413). -/
def moveChains (E : HEnv K V σ) (fuel : Nat) (nb : Ptr) (bc : Nat) :
    Ptr → Nat → HMem K V → Exec (HMem K V)
  | _, 0, m => .ok m
  | p, n + 1, m => do
    let h ← m.b.read p
    let m ← (if h = 0 then .ok m else do
      let m ← moveChain E nb bc fuel h m
      m.writeBucket E p 0)
    moveChains E fuel nb bc p.next n m

/-- `rehash` (src/internal/hash_table/mod.rs:388-418).  The old array is not deallocated. -/
def rehash (E : HEnv K V σ) (t : HTable σ) (bc : Nat) (m : HMem K V) :
    Exec (HTable σ × HMem K V) := do
  let (nb, b) ← (defaultAllocator E.R).alloc (bc + 1) m.b
  let m := { m with b := b }
  let m ← fillNull E nb (bc + 1) m
  let s ← m.b.ptrAdd nb bc
  let m ← m.writeBucket E s sentinel
  let m ← moveChains E (t.count + 1) nb bc t.buckets t.bucketCount m
  let (t, m) ← t.freeBuckets E m
  .ok ({ t with buckets := nb, bucketCount := bc }, m)

/-- `insert_impl` (src/internal/hash_table/mod.rs:357-381): the address of the new node. -/
def insertImpl (E : HEnv K V σ) (t : HTable σ) (target : Ptr) (k : K) (v : V) (m : HMem K V) :
    Exec (Nat × HTable σ × HMem K V) := do
  let (r, nr) ← getRehashRequired t.nextResize t.bucketCount t.count 1
  let t := { t with nextResize := nr }
  let (target, t, m) ← (match r with
    | some bc => do
      let (t, m) ← t.rehash E bc m
      let target ← t.bucketForKey E k m
      .ok (target, t, m)
    | none => .ok (target, t, m))
  let (p, a, n) ← E.A.alloc E.size E.align t.al m.n
  let m := { m with n := n }
  let h ← m.b.read target
  let n ← m.n.modify p fun _ => some ⟨k, v, h⟩
  let m := { m with n := n }
  let m ← m.writeBucket E target p
  .ok (p, { t with al := a, count := t.count + 1 }, m)

/-- `insert` (src/internal/hash_table/mod.rs:122-133).  When the key is present, the key passed
in is dropped on return. -/
def insert (E : HEnv K V σ) (t : HTable σ) (k : K) (v : V) (m : HMem K V) :
    Exec (Option V × HTable σ × HMem K V) := do
  let (b, o) ← t.find E k m
  match o with
  | some p => do
    let c ← m.node p
    let m ← m.modify p fun c => { c with val := v }
    .ok (some c.val, t, m.dropKey E k)
  | none => do
    let (_, t, m) ← t.insertImpl E b k v m
    .ok (none, t, m)

/-- The loop of `remove_entry` (src/internal/hash_table/mod.rs:202-204). -/
def removeLoop (E : HEnv K V σ) (k : K) : Nat → HSlot → HMem K V → Exec (HSlot × Nat)
  | 0, _, _ => .error .ub
  | fuel + 1, s, m => do
    let p ← s.read m
    if p = 0 then .ok (s, p)
    else do
      let c ← m.node p
      if E.eq c.key k then .ok (s, p) else removeLoop E k fuel (.next p) m

/-- `remove_entry` (src/internal/hash_table/mod.rs:197-220). -/
def removeEntry (E : HEnv K V σ) (t : HTable σ) (k : K) (m : HMem K V) :
    Exec (Option (K × V) × HTable σ × HMem K V) := do
  let b ← t.bucketForKey E k m
  let (s, p) ← removeLoop E k (t.count + 1) (.bucket b) m
  if p = 0 then .ok (none, t, m)
  else do
    let c ← m.node p
    let m ← s.write E m c.next
    let (a, n) ← E.A.dealloc p E.size E.align t.al m.n
    if t.count = 0 then .error .panic
    else .ok (some (c.key, c.val), { t with al := a, count := t.count - 1 }, { m with n := n })

/-- `remove` (src/internal/hash_table/mod.rs:187-189): the key found is dropped. -/
def remove (E : HEnv K V σ) (t : HTable σ) (k : K) (m : HMem K V) :
    Exec (Option V × HTable σ × HMem K V) := do
  let (o, t, m) ← t.removeEntry E k m
  match o with
  | none => .ok (none, t, m)
  | some (k, v) => .ok (some v, t, m.dropKey E k)

/-- `contains_key` (src/internal/hash_table/mod.rs:73-75). -/
def containsKey (E : HEnv K V σ) (t : HTable σ) (k : K) (m : HMem K V) : Exec Bool := do
  .ok (← t.get E k m).isSome

end HTable

/-- `Entry` (src/internal/hash_table/entry.rs:8-21; src/hash_map/entry.rs:7-9 wraps it): the node
found, or the bucket and key for a new node. -/
inductive HEntry (K : Type) where
  | occupied (p : Nat)
  | vacant (target : Ptr) (key : K)

namespace HTable

/-- `entry` (src/internal/hash_table/mod.rs:80-93).  If occupied, the key passed in is
dropped. -/
def entry (E : HEnv K V σ) (t : HTable σ) (k : K) (m : HMem K V) :
    Exec (HEntry K × HMem K V) := do
  let (b, o) ← t.find E k m
  match o with
  | some p => .ok (.occupied p, m.dropKey E k)
  | none => .ok (.vacant b k, m)

end HTable

/-- `and_modify` (src/internal/hash_table/entry.rs:28-34), `f` replacing the value. -/
def HEntry.andModify (e : HEntry K) (f : V → V) (m : HMem K V) : Exec (HMem K V) :=
  match e with
  | .occupied p => m.modify p fun c => { c with val := f c.val }
  | .vacant _ _ => .ok m

/-- `or_insert_with` (src/internal/hash_table/entry.rs:50-62): `default` may have an effect on the
caller's state `S`.  Returns the node whose value the reference refers to. -/
def HEntry.orInsertWith {S : Type} (E : HEnv K V σ) (e : HEntry K) (default : S → V × S) (s : S)
    (t : HTable σ) (m : HMem K V) : Exec (Nat × S × HTable σ × HMem K V) :=
  match e with
  | .occupied p => .ok (p, s, t, m)
  | .vacant b k => do
    let (v, s) := default s
    let (p, t, m) ← t.insertImpl E b k v m
    .ok (p, s, t, m)

/-- `or_insert` (src/internal/hash_table/entry.rs:41-43): a default not used is dropped. -/
def HEntry.orInsert (E : HEnv K V σ) (e : HEntry K) (v : V) (t : HTable σ) (m : HMem K V) :
    Exec (Nat × HTable σ × HMem K V) := do
  let (p, used, t, m) ← e.orInsertWith E (fun _ => (v, true)) false t m
  .ok (p, t, if used then m else m.dropVal E v)

/-- An entry that is dropped without being used drops its key
(src/internal/hash_table/entry.rs:8-12). -/
def HEntry.discard (E : HEnv K V σ) (e : HEntry K) (m : HMem K V) : HMem K V :=
  match e with
  | .occupied _ => m
  | .vacant _ k => m.dropKey E k

/-- `RawIter`, `Iter`, `IterMut` (src/internal/hash_table/iter.rs:38-42, 187-200, 277-290): the
remaining buckets, as pointer and number, and the current node. -/
structure HIter where
  bucket : Ptr
  rest : Nat
  node : Nat
  deriving DecidableEq

/-- `next_bucket` (src/internal/hash_table/iter.rs:157-162): the next non-null bucket, or 0. -/
def nextBucket (m : HMem K V) : Ptr → Nat → Exec (Nat × Ptr × Nat)
  | p, 0 => .ok (0, p, 0)
  | p, n + 1 => do
    let h ← m.b.read p
    if h = 0 then nextBucket m p.next n else .ok (h, p.next, n)

/-- `iter`, `iter_mut` (src/internal/hash_table/mod.rs:142-151,
src/internal/hash_table/iter.rs:146-154, 255-259, 327-331). -/
def HTable.iter (t : HTable σ) (m : HMem K V) : Exec HIter := do
  let (h, p, n) ← nextBucket m t.buckets t.bucketCount
  .ok ⟨p, n, h⟩

/-- `next` (src/internal/hash_table/iter.rs:168-184, 265-267, 337-339): the node whose key and value are
referenced. -/
def HIter.next (it : HIter) (m : HMem K V) : Exec (Option Nat × HIter) :=
  if it.node = 0 then .ok (none, it)
  else do
    let c ← m.node it.node
    if c.next = 0 then do
      let (h, p, n) ← nextBucket m it.bucket it.rest
      .ok (some it.node, ⟨p, n, h⟩)
    else .ok (some it.node, { it with node := c.next })

/-- `k` calls of `next`: the entries seen. -/
def HIter.run (m : HMem K V) : Nat → HIter → Exec (List (Option (K × V)) × HIter)
  | 0, it => .ok ([], it)
  | k + 1, it => do
    let (p, it) ← it.next m
    let o ← (match p with
      | none => .ok none
      | some p => do let c ← m.node p; .ok (some (c.key, c.val)))
    let (os, it) ← HIter.run m k it
    .ok (o :: os, it)

/-- A loop `for (_, v) in it { *v = f(*v) }` over `iter_mut`.  The first argument bounds the
number of iterations. -/
def HIter.updateAll (f : K → V → V) : Nat → HIter → HMem K V → Exec (HMem K V)
  | 0, _, _ => .error .ub
  | fuel + 1, it, m => do
    let (p, it) ← it.next m
    match p with
    | none => .ok m
    | some p => do
      let m ← m.modify p fun c => { c with val := f c.key c.val }
      HIter.updateAll f fuel it m

/-- `CompatIter`, `CompatIterMut` (src/internal/hash_table/iter.rs:8-25). -/
structure HCompat where
  node : Nat
  bucket : Ptr
  deriving DecidableEq

/-- `into_compat`, `into_compat_mut` (src/internal/hash_table/iter.rs:47-90, 206-208, 291-299). -/
def HIter.intoCompat (it : HIter) (m : HMem K V) : Exec (HCompat × HCompat) := do
  let e ← m.b.ptrAdd it.bucket it.rest
  .ok (⟨it.node, it.bucket⟩, ⟨0, e⟩)

/-- `from_compat`, `from_compat_mut` (src/internal/hash_table/iter.rs:104-137, 223-246, 314-318). -/
def HIter.fromCompat (b e : HCompat) : Exec HIter := do
  let n ← e.bucket.offsetFrom b.bucket
  .ok ⟨b.bucket, n, b.node⟩

/-- `HashTable::from_iter` (src/internal/hash_table/mod.rs:442-448) after the creation: the value
replaced by a duplicate key is dropped. -/
def HTable.insertAll (E : HEnv K V σ) :
    List (K × V) → HTable σ → HMem K V → Exec (HTable σ × HMem K V)
  | [], t, m => .ok (t, m)
  | (k, v) :: kvs, t, m => do
    let (o, t, m) ← t.insert E k v m
    HTable.insertAll E kvs t (match o with | none => m | some v => m.dropVal E v)

/-- One public call on a `HashMap` (src/hash_map/mod.rs:37-180, which forwards to the table, and the
wrapped `Entry` of src/hash_map/entry.rs:17-46).
`MapOp.entry k f v` is `*map.entry(k).and_modify(f).or_insert(v)`; `MapOp.entryKey`, which
`HashMap` does not offer, creates an entry and drops it. -/
def HTable.step (E : HEnv K V σ) :
    MapOp K V → HTable σ → HMem K V → Exec (MapOut K V × HTable σ × HMem K V)
  | .insert k v, t, m => do let (o, t, m) ← t.insert E k v m; .ok (.val o, t, m)
  | .remove k, t, m => do let (o, t, m) ← t.remove E k m; .ok (.val o, t, m)
  | .removeEntry k, t, m => do let (o, t, m) ← t.removeEntry E k m; .ok (.pair o, t, m)
  | .get k, t, m => do .ok (.val ((← t.get E k m).map Prod.snd), t, m)
  | .modify k f, t, m => do let (o, m) ← t.modify E k f m; .ok (.val o, t, m)
  | .contains k, t, m => do .ok (.bool (← t.containsKey E k m), t, m)
  | .entry k f v, t, m => do
    let (e, m) ← t.entry E k m
    let m ← e.andModify f m
    let (p, t, m) ← e.orInsert E v t m
    let c ← m.node p
    .ok (.val (some c.val), t, m)
  | .entryKey k, t, m => do
    let (e, m) ← t.entry E k m
    let k' ← (match e with
      | .occupied p => do .ok (← m.node p).key
      | .vacant _ k => .ok k)
    .ok (.key k', t, e.discard E m)
  | .len, t, m => .ok (.nat t.count, t, m)
  | .isEmpty, t, m => .ok (.bool (decide (t.count = 0)), t, m)
  | .clear, t, m => do let (t, m) ← t.clear E m; .ok (.unit, t, m)

/-- A history of public calls. -/
def HTable.run (E : HEnv K V σ) :
    List (MapOp K V) → HTable σ → HMem K V → Exec (List (MapOut K V) × HTable σ × HMem K V)
  | [], t, m => .ok ([], t, m)
  | op :: ops, t, m => do
    let (o, t, m) ← t.step E op m
    let (os, t, m) ← HTable.run E ops t m
    .ok (o :: os, t, m)

/-- An observer for stating properties: the nodes of a chain, with their addresses. -/
def walkChain (m : HMem K V) : Nat → Nat → Exec (List (Nat × K × V))
  | 0, _ => .error .ub
  | fuel + 1, p =>
    if p = 0 then .ok []
    else do
      let c ← m.node p
      let ns ← walkChain m fuel c.next
      .ok ((p, c.key, c.val) :: ns)

/-- An observer for stating properties: the chains of `n` buckets from `p` on. -/
def walkBuckets (m : HMem K V) (fuel : Nat) : Ptr → Nat → Exec (List (List (Nat × K × V)))
  | _, 0 => .ok []
  | p, n + 1 => do
    let h ← m.b.read p
    let c ← walkChain m fuel h
    let cs ← walkBuckets m fuel p.next n
    .ok (c :: cs)

/-- An observer for stating properties: the chains of the table, bucket by bucket. -/
def HTable.dump (t : HTable σ) (m : HMem K V) : Exec (List (List (Nat × K × V))) :=
  walkBuckets m (t.count + 1) t.buckets t.bucketCount

/-- One public call on a `HashSet` (src/hash_set/mod.rs:33-131), a table whose values are
`()`. -/
def HTable.stepSet {K σ : Type} (E : HEnv K Unit σ) :
    SetOp K → HTable σ → HMem K Unit → Exec (SetOut K × HTable σ × HMem K Unit)
  | .insert k, t, m => do let (o, t, m) ← t.insert E k () m; .ok (.bool o.isSome, t, m)
  | .remove k, t, m => do
    let (o, t, m) ← t.removeEntry E k m
    .ok (.key (o.map Prod.fst), t, m)
  | .get k, t, m => do .ok (.key ((← t.get E k m).map Prod.fst), t, m)
  | .contains k, t, m => do .ok (.bool (← t.containsKey E k m), t, m)
  | .len, t, m => .ok (.nat t.count, t, m)
  | .isEmpty, t, m => .ok (.bool (decide (t.count = 0)), t, m)
  | .clear, t, m => do let (t, m) ← t.clear E m; .ok (.unit, t, m)

/-- A history of public calls on a `HashSet`. -/
def HTable.runSet {K σ : Type} (E : HEnv K Unit σ) :
    List (SetOp K) → HTable σ → HMem K Unit → Exec (List (SetOut K) × HTable σ × HMem K Unit)
  | [], t, m => .ok ([], t, m)
  | op :: ops, t, m => do
    let (o, t, m) ← t.stepSet E op m
    let (os, t, m) ← HTable.runSet E ops t m
    .ok (o :: os, t, m)

end Verif
