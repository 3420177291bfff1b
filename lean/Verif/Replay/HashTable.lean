import Verif.Replay.Basic
import Verif.Forward.Model
import Verif.Hash.Model
import Verif.Text.Model

/-! Tests of the hash table, `HashMap`, `HashSet` and the hash function
(src/internal/hash_table/mod.rs:492-617, src/internal/hash_table/entry.rs:65-124,
src/internal/hash_table/iter.rs:344-431, src/hash_map/mod.rs:192-224, src/hash_set/mod.rs:154-164,
src/hash.rs:127-151). -/

set_option autoImplicit false

namespace Verif.Replay
open Spec

/-- A `DefaultHashTable` with the given hash function and comparison. -/
abbrev hashHeap {K V : Type} (hash : K → Nat) (eq : K → K → Bool) : HEnv K V Unit where
  hash := hash
  eq := eq
  size := 24
  align := 8
  ndK := true
  ndV := true
  A := defaultNAlloc Placer.bump none true
  R := RawAlloc.bump
  stat := 0

/-- Memory holding `EMPTY_BUCKET_ARR`. -/
def hashStart {K V : Type} : HMem K V where
  n := NMem.empty
  b := Mem.empty.setBlock 0
    (some ⟨2, .inline, fun i => if i = 0 then some 0 else some sentinel⟩)

/-- `DefaultHashTable<u32, u32>`. -/
abbrev numbers : HEnv Nat Nat Unit := hashHeap id (· == ·)

/-- `DefaultHashTable<&str, i32>`. -/
abbrev names : HEnv String Nat Unit :=
  hashHeap (fun s => (fnv1 (utf8 s.toList)).toNat) (· == ·)

/-- `iter.collect()`. -/
def collected {K V : Type} (E : HEnv K V Unit) (kvs : List (K × V)) :
    Exec (HTable Unit × HMem K V) :=
  HTable.insertAll E kvs (HTable.newIn E ()) hashStart

/-- The word after the last bucket. -/
def afterBuckets {K V : Type} (t : HTable Unit) (m : HMem K V) : Exec Nat := do
  m.b.read (← m.b.ptrAdd t.buckets t.bucketCount)

/-- `default` (mod.rs:496-507). -/
def table_default : Exec Unit := do
  let t := HTable.newIn numbers ()
  check ((← t.get numbers 5 hashStart).isNone)
  check (t.count == 0)
  check ((← afterBuckets (K := Nat) (V := Nat) t hashStart) == 2 ^ 64 - 1)

/-- `insert` (mod.rs:509-526). -/
def table_insert : Exec Unit := do
  let (_, t, m) ← (HTable.newIn numbers ()).insert numbers 5 6 hashStart
  let (_, t, m) ← t.insert numbers 6 7 m
  let (_, t, m) ← t.insert numbers 4 7 m
  check (t.count != 0)
  check (t.count == 3)
  check ((← t.get numbers 5 m) == some (5, 6))
  check ((← t.get numbers 6 m) == some (6, 7))
  check ((← t.get numbers 7 m) == none)
  check ((← afterBuckets t m) == 2 ^ 64 - 1)

/-- `remove` (mod.rs:528-535). -/
def table_remove : Exec Unit := do
  let (_, t, m) ← (HTable.newIn numbers ()).insert numbers 6 7 hashStart
  let (o, t, m) ← t.remove numbers 6 m
  check (o == some 7)
  check (t.count == 0)
  check ((← t.get numbers 6 m) == none)

/-- `clear` (mod.rs:537-545). -/
def table_clear : Exec Unit := do
  let (_, t, m) ← (HTable.newIn numbers ()).insert numbers 1 2 hashStart
  let (_, t, m) ← t.insert numbers 2 3 m
  let (_, t, m) ← t.insert numbers 3 4 m
  let (t, _) ← t.clear numbers m
  check (t.count == 0)

/-- `from_iter` (mod.rs:547-556). -/
def table_from_iter : Exec Unit := do
  let (t, m) ← collected numbers [(1, 2), (2, 3), (3, 4)]
  check (t.count == 3)
  check ((← t.get numbers 2 m) == some (2, 3))
  let (_, m) ← t.modify numbers 3 (fun _ => 5) m
  check ((← t.get numbers 3 m) == some (3, 5))

/-- `drop` (mod.rs:558-597).  A `Test` is its field and which of the four variables it refers to;
it is hashed by the address of the variable.  The key given to `remove` is dropped by the test. -/
def table_drop : Exec Unit := do
  let E : HEnv (Nat × Nat) (Option (Nat × Nat)) Unit :=
    hashHeap (fun k => 1000 + 4 * k.2) (fun a b => a.1 == b.1)
  let (_, t, m) ← (HTable.newIn E ()).insert E (1, 0) none hashStart
  let (_, t, m) ← t.insert E (2, 1) (some (3, 2)) m
  let (o, t, m) ← t.remove E (2, 3) m
  let m := match o with | none => m | some v => m.dropVal E v
  let m := m.dropKey E (2, 3)
  let (_, m) ← t.drop E m
  let doubled (x : Nat) : Nat := (m.n.dropped.filter fun d => match d with
    | .inl k => k.2 == x
    | .inr none => false
    | .inr (some v) => v.2 == x).length
  check (doubled 0 == 1)
  check (doubled 1 == 1)
  check (doubled 2 == 1)
  check (doubled 3 == 1)

/-- `collisions` (mod.rs:599-617). -/
def table_collisions : Exec Unit := do
  let E : HEnv Nat Nat Unit := hashHeap (fun _ => 1) (· == ·)
  let (t, m) ← collected E ((List.range 11).map fun n => (n, n))
  (List.range 11).forM fun i => do check ((← t.get E i m) == some (i, i))

/-- `occupied` (entry.rs:69-75). -/
def entry_occupied : Exec Unit := do
  let (_, t, m) ← (HTable.newIn names ()).insert names "def" 5 hashStart
  let (e, _) ← t.entry names "def" m
  check (match e with | .occupied _ => true | .vacant _ _ => false)

/-- `occupied_and_modify` (entry.rs:77-87). -/
def entry_occupied_and_modify : Exec Unit := do
  let (_, t, m) ← (HTable.newIn names ()).insert names "def" 5 hashStart
  let (e, m) ← t.entry names "def" m
  let m ← e.andModify (· * 2) m
  let (p, t, m) ← e.orInsert names 6 t m
  check ((← m.node p).val == 10)
  check ((← t.get names "def" m) == some ("def", 10))

/-- `or_insert` (entry.rs:89-94). -/
def entry_or_insert : Exec Unit := do
  let t := HTable.newIn names ()
  let (e, m) ← t.entry names "abc" hashStart
  let (p, _, m) ← e.orInsert names 5 t m
  check ((← m.node p).val == 5)

/-- `or_insert_with` (entry.rs:96-116). -/
def entry_or_insert_with : Exec Unit := do
  let t := HTable.newIn names ()
  let (e, m) ← t.entry names "abc" hashStart
  let (p, c, t, m) ← e.orInsertWith names (fun c => (5, c + 1)) (0 : Nat) t m
  check ((← m.node p).val == 5)
  let (e, m) ← t.entry names "abc" m
  let (p, c, _, m) ← e.orInsertWith names (fun c => (10, c + 1)) c t m
  check ((← m.node p).val == 5)
  check (c == 1)

/-- `vacant` (entry.rs:118-124). -/
def entry_vacant : Exec Unit := do
  let (_, t, m) ← (HTable.newIn names ()).insert names "def" 5 hashStart
  let (e, _) ← t.entry names "abc" m
  check (match e with | .occupied _ => false | .vacant _ _ => true)

/-- `n` calls of `next` that give an entry. -/
def gives (m : HMem Nat Nat) (n : Nat) (it : HIter) : Exec HIter := do
  let (os, it) ← it.run m n
  check (os.all Option.isSome)
  .ok it

/-- `assert!(iter.next().is_none())`. -/
def finished (m : HMem Nat Nat) (it : HIter) : Exec Unit := do
  check ((← it.next m).1.isNone)

/-- `empty_iter` (iter.rs:348-355). -/
def raw_empty_iter : Exec Unit := do
  let t := HTable.newIn numbers ()
  finished hashStart (← t.iter (K := Nat) (V := Nat) hashStart)

/-- `iter` (iter.rs:357-370). -/
def raw_iter : Exec Unit := do
  let (t, m) ← collected numbers ((List.range 10).map fun n => (n, n))
  finished m (← gives m 10 (← t.iter m))

/-- `cloned` (iter.rs:372-393). -/
def raw_cloned : Exec Unit := do
  let (t, m) ← collected numbers ((List.range 10).map fun n => (n * 11, n * 11))
  let it ← gives m 5 (← t.iter m)
  finished m (← gives m 5 it)
  finished m (← gives m 5 it)

/-- `compat_sanity` (iter.rs:395-411). -/
def raw_compat_sanity : Exec Unit := do
  let (t, m) ← collected numbers ((List.range 10).map fun n => (n * 10, n * 10))
  let (b, e) ← (← t.iter m).intoCompat m
  finished m (← gives m 10 (← HIter.fromCompat b e))

/-- `compat_partial_use_sanity` (iter.rs:413-431). -/
def raw_compat_partial_use_sanity : Exec Unit := do
  let (t, m) ← collected numbers ((List.range 10).map fun n => (n * 10, n * 10))
  let (b, e) ← (← gives m 5 (← t.iter m)).intoCompat m
  finished m (← gives m 5 (← HIter.fromCompat b e))

/-- The pairs of the tests of `HashMap` (src/hash_map/mod.rs:199-200). -/
def reference : List (Nat × Nat) := (List.range 10).map fun n => (n * 10, n * 10 + 2)

/-- `iter` (src/hash_map/mod.rs:197-208). -/
def map_iter : Exec Unit := do
  let (t, m) ← collected numbers reference
  let (os, _) ← (← t.iter m).run m (t.count + 1)
  check ((os.filterMap id).isPerm reference)

/-- `iter_mut` (src/hash_map/mod.rs:210-224). -/
def map_iter_mut : Exec Unit := do
  let (t, m) ← collected numbers reference
  let m ← (← t.iter m).updateAll (fun _ v => v * 2) (t.count + 1) m
  let (os, _) ← (← t.iter m).run m (t.count + 1)
  check ((os.filterMap id).isPerm (reference.map fun (k, v) => (k, v * 2)))

/-- `iter` (src/hash_set/mod.rs:159-164). -/
def set_iter : Exec Unit := do
  let E : HEnv Nat Unit Unit := hashHeap id (· == ·)
  let (t, m) ← HTable.insertAll E ((List.range 10).map fun n => (n * 10, ()))
    (HTable.newIn E ()) hashStart
  let (os, _) ← (← t.iter m).run m (t.count + 1)
  check (((os.filterMap id).map Prod.fst).isPerm ((List.range 10).map (· * 10)))

theorem table_tests :
    Passes table_default ∧ Passes table_insert ∧ Passes table_remove ∧ Passes table_clear ∧
    Passes table_from_iter ∧ Passes table_drop ∧ Passes table_collisions := by
  decide +kernel

theorem entry_tests :
    Passes entry_occupied ∧ Passes entry_occupied_and_modify ∧ Passes entry_or_insert ∧
    Passes entry_or_insert_with ∧ Passes entry_vacant := by
  decide +kernel

theorem hash_iter_tests :
    Passes raw_empty_iter ∧ Passes raw_iter ∧ Passes raw_cloned ∧ Passes raw_compat_sanity ∧
    Passes raw_compat_partial_use_sanity ∧ Passes map_iter ∧ Passes map_iter_mut ∧
    Passes set_iter := by
  decide +kernel

/-- The bytes of a literal. -/
def hashText (s : String) : Nat := (fnv1 (utf8 s.toList)).toNat

/-- The bytes `Test` followed by a zero. -/
def testCString : Mem UInt8 :=
  Mem.empty.setBlock 0 (some ⟨5, .inline, fun i => [84, 101, 115, 116, 0][i]?⟩)

/-- `test_str` (src/hash.rs:134-150). -/
def hash_test_str : Exec Unit := do
  check (hashText "" == 2166136261)
  check (hashText "Test" == 556965705)
  check ((← hashCStr 5 (.loc 0 0) testCString) == 556965705)
  check (hashText "The big brown fox jumped over the lazy dog" == 3003320415)
  let (v, m) ← Str.fromStr (nullTermAllocator (defaultAllocator RawAlloc.bump))
    (utf8 "Test".toList) Mem.empty
  check (fnv1 (← v.asSlice m) == 556965705)

theorem hash_tests : Passes hash_test_str := by decide +kernel

end Verif.Replay
