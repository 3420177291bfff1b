import Verif.HashTable.Model

/-!
# Hash tables whose hash function and equality have a state and may panic

The functions of `HashTable/Model.lean` again.  Hash function and equality are run on a state, which
they may change, and return `none` if they panic.  So they may answer differently each time they are
called, also within one call of the table.  A panic leaves the call at once with the table as it is
then; the values the call owns are dropped by the unwinding.
-/

set_option autoImplicit false

namespace Verif
open Spec

variable {τ K V σ : Type}

/-- A hash function and an equality with state. -/
structure HashFns (τ K : Type) where
  hash : τ → K → Option Nat × τ
  eq : τ → K → K → Option Bool × τ

/-- `find_in_bucket`, `find_in_bucket_mut` (src/internal/hash_table/mod.rs:289-319). -/
def findInBucketO (F : HashFns τ K) : Nat → Nat → K → τ → HMem K V → Exec (Option (Option Nat) × τ)
  | 0, _, _, _, _ => .error .ub
  | fuel + 1, p, k, s, m =>
    if p = 0 then .ok (some none, s)
    else do
      let c ← m.node p
      match F.eq s c.key k with
      | (none, s) => .ok (none, s)
      | (some true, s) => .ok (some (some p), s)
      | (some false, s) => findInBucketO F fuel c.next k s m

namespace HTable

/-- `bucket_for_key` once the hash `h` is known (src/internal/hash_table/mod.rs:229-250). -/
def bucketAt (t : HTable σ) (h : Nat) (m : HMem K V) : Exec Ptr :=
  if t.bucketCount = 0 then .error .panic else m.b.ptrAdd t.buckets (h % t.bucketCount)

/-- The search shared by `get`, `get_mut`, `insert` and `entry`
(src/internal/hash_table/mod.rs:80-133). -/
def findO (F : HashFns τ K) (t : HTable σ) (k : K) (s : τ) (m : HMem K V) :
    Exec (Option (Ptr × Option Nat) × τ) :=
  match F.hash s k with
  | (none, s) => .ok (none, s)
  | (some h, s) => do
    let b ← t.bucketAt h m
    let p ← m.b.read b
    let (o, s) ← findInBucketO F (t.count + 1) p k s m
    .ok (o.map fun o => (b, o), s)

/-- The loop of `remove_entry` (src/internal/hash_table/mod.rs:202-204). -/
def removeLoopO (F : HashFns τ K) (k : K) : Nat → HSlot → τ → HMem K V →
    Exec (Option (HSlot × Nat) × τ)
  | 0, _, _, _ => .error .ub
  | fuel + 1, sl, s, m => do
    let p ← sl.read m
    if p = 0 then .ok (some (sl, p), s)
    else do
      let c ← m.node p
      match F.eq s c.key k with
      | (none, s) => .ok (none, s)
      | (some true, s) => .ok (some (sl, p), s)
      | (some false, s) => removeLoopO F k fuel (.next p) s m

/-- The `while` loop of `rehash` (src/internal/hash_table/mod.rs:405-411).  The first result tells
whether the loop came to its end. -/
def moveChainO (E : HEnv K V σ) (F : HashFns τ K) (nb : Ptr) (bc : Nat) : Nat → Nat → τ → HMem K V →
    Exec (Bool × τ × HMem K V)
  | 0, _, _, _ => .error .ub
  | fuel + 1, p, s, m =>
    if p = 0 then .ok (true, s, m)
    else do
      let c ← m.node p
      match F.hash s c.key with
      | (none, s) => .ok (false, s, m)
      | (some h, s) =>
        if bc = 0 then .error .panic
        else do
          let nextNode := c.next
          let slot ← m.b.ptrAdd nb (h % bc)
          let x ← m.b.read slot
          let m ← m.modify p fun c => { c with next := x }
          let m ← m.writeBucket E slot p
          moveChainO E F nb bc fuel nextNode s m

/-- The loop of `rehash` over the old buckets (src/internal/hash_table/mod.rs:400-413). -/
def moveChainsO (E : HEnv K V σ) (F : HashFns τ K) (fuel : Nat) (nb : Ptr) (bc : Nat) :
    Ptr → Nat → τ → HMem K V → Exec (Bool × τ × HMem K V)
  | _, 0, s, m => .ok (true, s, m)
  | p, l + 1, s, m => do
    let h ← m.b.read p
    if h = 0 then moveChainsO E F fuel nb bc p.next l s m
    else do
      let (o, s, m) ← moveChainO E F nb bc fuel h s m
      match o with
      | false => .ok (false, s, m)
      | true => do
        let m ← m.writeBucket E p 0
        moveChainsO E F fuel nb bc p.next l s m

/-- `rehash` (src/internal/hash_table/mod.rs:388-418).  If a panic leaves it, the new array is leaked
and the table keeps the old one. -/
def rehashO (E : HEnv K V σ) (F : HashFns τ K) (t : HTable σ) (bc : Nat) (s : τ) (m : HMem K V) :
    Exec (Bool × τ × HTable σ × HMem K V) := do
  let (nb, b) ← (defaultAllocator E.R).alloc (bc + 1) m.b
  let m := { m with b := b }
  let m ← fillNull E nb (bc + 1) m
  let q ← m.b.ptrAdd nb bc
  let m ← m.writeBucket E q sentinel
  let (o, s, m) ← moveChainsO E F (t.count + 1) nb bc t.buckets t.bucketCount s m
  match o with
  | false => .ok (false, s, t, m)
  | true => do
    let (t, m) ← t.freeBuckets E m
    .ok (true, s, { t with buckets := nb, bucketCount := bc }, m)

/-- `insert_impl` (src/internal/hash_table/mod.rs:357-381).  A panic drops key and value. -/
def insertImplO (E : HEnv K V σ) (F : HashFns τ K) (t : HTable σ) (target : Ptr) (k : K) (v : V)
    (s : τ) (m : HMem K V) : Exec (Option Nat × τ × HTable σ × HMem K V) := do
  let (r, nr) ← getRehashRequired t.nextResize t.bucketCount t.count 1
  let t := { t with nextResize := nr }
  let (o, s, t, m) ← (match r with
    | some bc => do
      let (o, s, t, m) ← t.rehashO E F bc s m
      match o with
      | false => .ok (none, s, t, m)
      | true =>
        match F.hash s k with
        | (none, s) => .ok (none, s, t, m)
        | (some h, s) => do
          let target ← t.bucketAt h m
          .ok (some target, s, t, m)
    | none => .ok (some target, s, t, m))
  match o with
  | none => .ok (none, s, t, (m.dropKey E k).dropVal E v)
  | some target => do
    let (p, a, n) ← E.A.alloc E.size E.align t.al m.n
    let m := { m with n := n }
    let x ← m.b.read target
    let n ← m.n.modify p fun _ => some ⟨k, v, x⟩
    let m := { m with n := n }
    let m ← m.writeBucket E target p
    .ok (some p, s, { t with al := a, count := t.count + 1 }, m)

/-- `insert` (src/internal/hash_table/mod.rs:122-133).  A panic drops key and value. -/
def insertO (E : HEnv K V σ) (F : HashFns τ K) (t : HTable σ) (k : K) (v : V) (s : τ) (m : HMem K V) :
    Exec (Option (Option V) × τ × HTable σ × HMem K V) := do
  match ← t.findO F k s m with
  | (none, s) => .ok (none, s, t, (m.dropKey E k).dropVal E v)
  | (some (_, some p), s) => do
    let c ← m.node p
    let m ← m.modify p fun c => { c with val := v }
    .ok (some (some c.val), s, t, m.dropKey E k)
  | (some (b, none), s) => do
    let (o, s, t, m) ← t.insertImplO E F b k v s m
    .ok (o.map fun _ => none, s, t, m)

/-- `remove_entry` (src/internal/hash_table/mod.rs:197-220). -/
def removeEntryO (E : HEnv K V σ) (F : HashFns τ K) (t : HTable σ) (k : K) (s : τ) (m : HMem K V) :
    Exec (Option (Option (K × V)) × τ × HTable σ × HMem K V) :=
  match F.hash s k with
  | (none, s) => .ok (none, s, t, m)
  | (some h, s) => do
    let b ← t.bucketAt h m
    match ← removeLoopO F k (t.count + 1) (.bucket b) s m with
    | (none, s) => .ok (none, s, t, m)
    | (some (sl, p), s) =>
      if p = 0 then .ok (some none, s, t, m)
      else do
        let c ← m.node p
        let m ← sl.write E m c.next
        let (a, n) ← E.A.dealloc p E.size E.align t.al m.n
        if t.count = 0 then .error .panic
        else .ok (some (some (c.key, c.val)), s, { t with al := a, count := t.count - 1 },
          { m with n := n })

/-- `entry` (src/internal/hash_table/mod.rs:80-93).  A panic drops the key. -/
def entryO (E : HEnv K V σ) (F : HashFns τ K) (t : HTable σ) (k : K) (s : τ) (m : HMem K V) :
    Exec (Option (HEntry K) × τ × HMem K V) := do
  match ← t.findO F k s m with
  | (none, s) => .ok (none, s, m.dropKey E k)
  | (some (_, some p), s) => .ok (some (.occupied p), s, m.dropKey E k)
  | (some (b, none), s) => .ok (some (.vacant b k), s, m)

/-- One public call (compare `HTable.step`; src/hash_map/mod.rs:44-140). -/
def stepO (E : HEnv K V σ) (F : HashFns τ K) (op : MapOp K V) (s : τ) (t : HTable σ) (m : HMem K V) :
    Exec (Option (MapOut K V) × τ × HTable σ × HMem K V) :=
  match op with
  | .insert k v => do
    let (o, s, t, m) ← t.insertO E F k v s m
    .ok (o.map .val, s, t, m)
  | .remove k => do
    let (o, s, t, m) ← t.removeEntryO E F k s m
    match o with
    | none => .ok (none, s, t, m)
    | some none => .ok (some (.val none), s, t, m)
    | some (some (k, v)) => .ok (some (.val (some v)), s, t, m.dropKey E k)
  | .removeEntry k => do
    let (o, s, t, m) ← t.removeEntryO E F k s m
    .ok (o.map .pair, s, t, m)
  | .get k => do
    match ← t.findO F k s m with
    | (none, s) => .ok (none, s, t, m)
    | (some (_, none), s) => .ok (some (.val none), s, t, m)
    | (some (_, some p), s) => do
      let c ← m.node p
      .ok (some (.val (some c.val)), s, t, m)
  | .modify k f => do
    match ← t.findO F k s m with
    | (none, s) => .ok (none, s, t, m)
    | (some (_, none), s) => .ok (some (.val none), s, t, m)
    | (some (_, some p), s) => do
      let c ← m.node p
      let m ← m.modify p fun c => { c with val := f c.val }
      .ok (some (.val (some c.val)), s, t, m)
  | .contains k => do
    match ← t.findO F k s m with
    | (none, s) => .ok (none, s, t, m)
    | (some (_, none), s) => .ok (some (.bool false), s, t, m)
    | (some (_, some p), s) => do
      let _ ← m.node p
      .ok (some (.bool true), s, t, m)
  | .entry k f v => do
    let (o, s, m) ← t.entryO E F k s m
    match o with
    | none => .ok (none, s, t, m)
    | some (.occupied p) => do
      let m ← m.modify p fun c => { c with val := f c.val }
      let m := m.dropVal E v
      let c ← m.node p
      .ok (some (.val (some c.val)), s, t, m)
    | some (.vacant b k) => do
      let (o, s, t, m) ← t.insertImplO E F b k v s m
      match o with
      | none => .ok (none, s, t, m)
      | some p => do
        let c ← m.node p
        .ok (some (.val (some c.val)), s, t, m)
  | .entryKey k => do
    let (o, s, m) ← t.entryO E F k s m
    match o with
    | none => .ok (none, s, t, m)
    | some (.occupied p) => do
      let c ← m.node p
      .ok (some (.key c.key), s, t, m)
    | some (.vacant _ k) => .ok (some (.key k), s, t, m.dropKey E k)
  | .len => .ok (some (.nat t.count), s, t, m)
  | .isEmpty => .ok (some (.bool (decide (t.count = 0))), s, t, m)
  | .clear => do
    let (t, m) ← t.clear E m
    .ok (some .unit, s, t, m)

/-- A history of calls; the program catches panics and goes on. -/
def runO (E : HEnv K V σ) (F : HashFns τ K) : List (MapOp K V) → τ → HTable σ → HMem K V →
    Exec (List (Option (MapOut K V)) × τ × HTable σ × HMem K V)
  | [], s, t, m => .ok ([], s, t, m)
  | op :: ops, s, t, m => do
    let (o, s, t, m) ← t.stepO E F op s m
    let (os, s, t, m) ← HTable.runO E F ops s t m
    .ok (o :: os, s, t, m)

end HTable

end Verif
