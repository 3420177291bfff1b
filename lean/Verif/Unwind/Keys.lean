import Verif.HashTable.Model

/-!
# Hash tables whose hash function or equality panics

The functions of `HashTable/Model.lean` again, for a call during which the hash function or the
equality panics.  `n` is the number of calls of either that return before one panics, so every
point at which a call of the crate can be interrupted is some `n`; it is passed along, and the
panic reported by `none`, with the state the table is in when the panic leaves the call.  Values
the interrupted call owns are dropped by the unwinding.

Not modelled: panics of closures passed to entries (they run outside any change of the table).
-/

set_option autoImplicit false

namespace Verif
open Spec

variable {K V σ : Type}

/-- `find_in_bucket`, `find_in_bucket_mut` (src/internal/hash_table/mod.rs:289-319).  The result is
the node found and what is left of `n`. -/
def findInBucketU (E : HEnv K V σ) : Nat → Nat → K → Nat → HMem K V →
    Exec (Option (Option Nat × Nat))
  | 0, _, _, _, _ => .error .ub
  | fuel + 1, p, k, n, m =>
    if p = 0 then .ok (some (none, n))
    else do
      let c ← m.node p
      match n with
      | 0 => .ok none
      | n + 1 =>
        if E.eq c.key k then .ok (some (some p, n)) else findInBucketU E fuel c.next k n m

namespace HTable

/-- The search shared by `get`, `get_mut`, `insert` and `entry`
(src/internal/hash_table/mod.rs:80-133): one call of the hash function, then the bucket. -/
def findU (E : HEnv K V σ) (t : HTable σ) (k : K) (n : Nat) (m : HMem K V) :
    Exec (Option (Ptr × Option Nat × Nat)) :=
  match n with
  | 0 => .ok none
  | n + 1 => do
    let b ← t.bucketForKey E k m
    let p ← m.b.read b
    match ← findInBucketU E (t.count + 1) p k n m with
    | none => .ok none
    | some (o, n) => .ok (some (b, o, n))

/-- The loop of `remove_entry` (src/internal/hash_table/mod.rs:202-204). -/
def removeLoopU (E : HEnv K V σ) (k : K) : Nat → HSlot → Nat → HMem K V →
    Exec (Option (HSlot × Nat))
  | 0, _, _, _ => .error .ub
  | fuel + 1, s, n, m => do
    let p ← s.read m
    if p = 0 then .ok (some (s, p))
    else do
      let c ← m.node p
      match n with
      | 0 => .ok none
      | n + 1 => if E.eq c.key k then .ok (some (s, p)) else removeLoopU E k fuel (.next p) n m

/-- The `while` loop of `rehash` (src/internal/hash_table/mod.rs:405-411). -/
def moveChainU (E : HEnv K V σ) (nb : Ptr) (bc : Nat) : Nat → Nat → Nat → HMem K V →
    Exec (Option Nat × HMem K V)
  | 0, _, _, _ => .error .ub
  | fuel + 1, p, n, m =>
    if p = 0 then .ok (some n, m)
    else do
      let c ← m.node p
      match n with
      | 0 => .ok (none, m)
      | n + 1 => do
        let i ← bucketIndex E bc c.key
        let nextNode := c.next
        let slot ← m.b.ptrAdd nb i
        let h ← m.b.read slot
        let m ← m.modify p fun c => { c with next := h }
        let m ← m.writeBucket E slot p
        moveChainU E nb bc fuel nextNode n m

/-- The loop of `rehash` over the old buckets (src/internal/hash_table/mod.rs:400-413). -/
def moveChainsU (E : HEnv K V σ) (fuel : Nat) (nb : Ptr) (bc : Nat) :
    Ptr → Nat → Nat → HMem K V → Exec (Option Nat × HMem K V)
  | _, 0, n, m => .ok (some n, m)
  | p, l + 1, n, m => do
    let h ← m.b.read p
    if h = 0 then moveChainsU E fuel nb bc p.next l n m
    else do
      let (o, m) ← moveChainU E nb bc fuel h n m
      match o with
      | none => .ok (none, m)
      | some n => do
        let m ← m.writeBucket E p 0
        moveChainsU E fuel nb bc p.next l n m

/-- `rehash` (src/internal/hash_table/mod.rs:388-418).  If a panic leaves it, the new array is
leaked and the table keeps the old one. -/
def rehashU (E : HEnv K V σ) (t : HTable σ) (bc n : Nat) (m : HMem K V) :
    Exec (Option Nat × HTable σ × HMem K V) := do
  let (nb, b) ← (defaultAllocator E.R).alloc (bc + 1) m.b
  let m := { m with b := b }
  let m ← fillNull E nb (bc + 1) m
  let s ← m.b.ptrAdd nb bc
  let m ← m.writeBucket E s sentinel
  let (o, m) ← moveChainsU E (t.count + 1) nb bc t.buckets t.bucketCount n m
  match o with
  | none => .ok (none, t, m)
  | some n => do
    let (t, m) ← t.freeBuckets E m
    .ok (some n, { t with buckets := nb, bucketCount := bc }, m)

/-- `insert_impl` (src/internal/hash_table/mod.rs:357-381).  A panic drops key and value. -/
def insertImplU (E : HEnv K V σ) (t : HTable σ) (target : Ptr) (k : K) (v : V) (n : Nat)
    (m : HMem K V) : Exec (Option Nat × HTable σ × HMem K V) := do
  let (r, nr) ← getRehashRequired t.nextResize t.bucketCount t.count 1
  let t := { t with nextResize := nr }
  let (o, t, m) ← (match r with
    | some bc => do
      let (o, t, m) ← t.rehashU E bc n m
      match o with
      | none | some 0 => .ok (none, t, m)
      | some (_ + 1) => do
        let target ← t.bucketForKey E k m
        .ok (some target, t, m)
    | none => .ok (some target, t, m))
  match o with
  | none => .ok (none, t, (m.dropKey E k).dropVal E v)
  | some target => do
    let (p, a, n) ← E.A.alloc E.size E.align t.al m.n
    let m := { m with n := n }
    let h ← m.b.read target
    let n ← m.n.modify p fun _ => some ⟨k, v, h⟩
    let m := { m with n := n }
    let m ← m.writeBucket E target p
    .ok (some p, { t with al := a, count := t.count + 1 }, m)

/-- `insert` (src/internal/hash_table/mod.rs:122-133).  A panic drops key and value. -/
def insertU (E : HEnv K V σ) (t : HTable σ) (k : K) (v : V) (n : Nat) (m : HMem K V) :
    Exec (Option (Option V) × HTable σ × HMem K V) := do
  match ← t.findU E k n m with
  | none => .ok (none, t, (m.dropKey E k).dropVal E v)
  | some (_, some p, _) => do
    let c ← m.node p
    let m ← m.modify p fun c => { c with val := v }
    .ok (some (some c.val), t, m.dropKey E k)
  | some (b, none, n) => do
    let (o, t, m) ← t.insertImplU E b k v n m
    .ok (o.map fun _ => none, t, m)

/-- `remove_entry` (src/internal/hash_table/mod.rs:197-220). -/
def removeEntryU (E : HEnv K V σ) (t : HTable σ) (k : K) (n : Nat) (m : HMem K V) :
    Exec (Option (Option (K × V)) × HTable σ × HMem K V) :=
  match n with
  | 0 => .ok (none, t, m)
  | n + 1 => do
    let b ← t.bucketForKey E k m
    match ← removeLoopU E k (t.count + 1) (.bucket b) n m with
    | none => .ok (none, t, m)
    | some (s, p) =>
      if p = 0 then .ok (some none, t, m)
      else do
        let c ← m.node p
        let m ← s.write E m c.next
        let (a, n) ← E.A.dealloc p E.size E.align t.al m.n
        if t.count = 0 then .error .panic
        else .ok (some (some (c.key, c.val)), { t with al := a, count := t.count - 1 },
          { m with n := n })

/-- `entry` (src/internal/hash_table/mod.rs:80-93).  A panic drops the key. -/
def entryU (E : HEnv K V σ) (t : HTable σ) (k : K) (n : Nat) (m : HMem K V) :
    Exec (Option (HEntry K × Nat) × HMem K V) := do
  match ← t.findU E k n m with
  | none => .ok (none, m.dropKey E k)
  | some (_, some p, n) => .ok (some (.occupied p, n), m.dropKey E k)
  | some (b, none, n) => .ok (some (.vacant b k, n), m)

/-- One public call during which the hash function or the equality panics after `n` calls
(compare `HTable.step`; src/hash_map/mod.rs:44-140). -/
def stepU (E : HEnv K V σ) (op : MapOp K V) (n : Nat) (t : HTable σ) (m : HMem K V) :
    Exec (Option (MapOut K V) × HTable σ × HMem K V) :=
  match op with
  | .insert k v => do
    let (o, t, m) ← t.insertU E k v n m
    .ok (o.map .val, t, m)
  | .remove k => do
    let (o, t, m) ← t.removeEntryU E k n m
    match o with
    | none => .ok (none, t, m)
    | some none => .ok (some (.val none), t, m)
    | some (some (k, v)) => .ok (some (.val (some v)), t, m.dropKey E k)
  | .removeEntry k => do
    let (o, t, m) ← t.removeEntryU E k n m
    .ok (o.map .pair, t, m)
  | .get k => do
    match ← t.findU E k n m with
    | none => .ok (none, t, m)
    | some (_, none, _) => .ok (some (.val none), t, m)
    | some (_, some p, _) => do
      let c ← m.node p
      .ok (some (.val (some c.val)), t, m)
  | .modify k f => do
    match ← t.findU E k n m with
    | none => .ok (none, t, m)
    | some (_, none, _) => .ok (some (.val none), t, m)
    | some (_, some p, _) => do
      let c ← m.node p
      let m ← m.modify p fun c => { c with val := f c.val }
      .ok (some (.val (some c.val)), t, m)
  | .contains k => do
    match ← t.findU E k n m with
    | none => .ok (none, t, m)
    | some (_, o, _) => .ok (some (.bool o.isSome), t, m)
  | .entry k f v => do
    let (o, m) ← t.entryU E k n m
    match o with
    | none => .ok (none, t, m)
    | some (.occupied p, _) => do
      let m ← m.modify p fun c => { c with val := f c.val }
      let m := m.dropVal E v
      let c ← m.node p
      .ok (some (.val (some c.val)), t, m)
    | some (.vacant b k, n) => do
      let (o, t, m) ← t.insertImplU E b k v n m
      match o with
      | none => .ok (none, t, m)
      | some p => do
        let c ← m.node p
        .ok (some (.val (some c.val)), t, m)
  | .entryKey k => do
    let (o, m) ← t.entryU E k n m
    match o with
    | none => .ok (none, t, m)
    | some (.occupied p, _) => do
      let c ← m.node p
      .ok (some (.key c.key), t, m)
    | some (.vacant _ k, _) => .ok (some (.key k), t, m.dropKey E k)
  | .len => .ok (some (.nat t.count), t, m)
  | .isEmpty => .ok (some (.bool (decide (t.count = 0))), t, m)
  | .clear => do
    let (t, m) ← t.clear E m
    .ok (some .unit, t, m)

/-- A history of calls.  In each, hash function and equality are any functions, and panic after
any number of calls; the program catches the panic and goes on. -/
def runU (E : HEnv K V σ) :
    List ((K → Nat) × (K → K → Bool) × Nat × MapOp K V) → HTable σ → HMem K V →
    Exec (List (Option (MapOut K V)) × HTable σ × HMem K V)
  | [], t, m => .ok ([], t, m)
  | (hash, eq, n, op) :: ops, t, m => do
    let (o, t, m) ← t.stepU { E with hash := hash, eq := eq } op n m
    let (os, t, m) ← HTable.runU E ops t m
    .ok (o :: os, t, m)

end HTable
end Verif
