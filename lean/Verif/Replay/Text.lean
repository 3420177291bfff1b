import Verif.Replay.Basic
import Verif.Text.Model
import Verif.VectorMap.Model

/-! Tests of `String` and `VectorMap` (src/string/mod.rs:270-395, src/vector_map/mod.rs:300-454).
The tests `layout` are C139. -/

set_option autoImplicit false

namespace Verif.Replay
open Spec

/-- The allocator of a `DefaultString`. -/
abbrev strHeap : Allocator UInt8 := nullTermAllocator (defaultAllocator RawAlloc.bump)

/-- `DefaultString::from`. -/
def str (s : String) : Exec (Vec × Mem UInt8) := Str.fromStr strHeap (utf8 s.toList) Mem.empty

/-- `assert_eq!(s.as_str(), t)`. -/
def checkStr (v : Vec) (m : Mem UInt8) (t : String) : Exec Unit := do
  check ((← v.asSlice m) == utf8 t.toList)

/-- `is_empty` (278-288). -/
def string_is_empty : Exec Unit := do
  check (← Vec.new.isEmpty)
  let (v, m) ← Str.push strHeap 'a' Vec.new Mem.empty
  check (!(← v.isEmpty))
  let (_, v, _) ← Str.pop v m
  check (← v.isEmpty)

/-- `is_full` (290-300). -/
def string_is_full : Exec Unit := do
  check (← Vec.new.isFull)
  let (v, m) ← Str.push strHeap 'a' Vec.new Mem.empty
  check (← v.isFull)
  let (_, v, _) ← Str.pop v m
  check (!(← v.isFull))

/-- `from_str` (311-315). -/
def string_from_str : Exec Unit := do
  let (v, m) ← str "abc"
  checkStr v m "abc"

/-- `push_chars` (317-324). -/
def string_push_chars : Exec Unit := do
  let (v, m) ← Str.push strHeap 'a' Vec.new Mem.empty
  let (v, m) ← Str.push strHeap 'b' v m
  let (v, m) ← Str.push strHeap 'c' v m
  checkStr v m "abc"

/-- `pop_chars` (326-331). -/
def string_pop_chars : Exec Unit := do
  let (v, m) ← str "ab"
  let (c, v, m) ← Str.pop v m
  check (c == some 'b')
  checkStr v m "a"

/-- The loop of `push_pop`. -/
def pushPops : Nat → Vec → Mem UInt8 → Exec (Vec × Mem UInt8)
  | 0, v, m => .ok (v, m)
  | n + 1, v, m => do
    let (v, m) ← Str.push strHeap 'a' v m
    let (c, v, m) ← Str.pop v m
    check (c == some 'a')
    let (c, v, m) ← Str.pop v m
    check (c == none)
    pushPops n v m

/-- `push_pop` (333-344). -/
def string_push_pop : Exec Unit := do
  let (v, _) ← pushPops 5 Vec.new Mem.empty
  check (← v.isEmpty)

/-- `insert` (346-351). -/
def string_insert : Exec Unit := do
  let (v, m) ← str "ab"
  let (v, m) ← Str.insert strHeap 1 'c' v m
  checkStr v m "acb"

/-- `insert_out_of_bounds` (353-358). -/
def string_insert_out_of_bounds : Exec Unit := do
  let (v, m) ← str "ab"
  let _ ← Str.insert strHeap 3 'c' v m

/-- `remove` (360-366). -/
def string_remove : Exec Unit := do
  let (v, m) ← str "ab"
  let (c, v, m) ← Str.remove 1 v m
  check (c == some 'b')
  let (c, v, m) ← Str.remove 1 v m
  check (c == none)
  checkStr v m "a"

/-- `null_terminated` (368-384). -/
def string_null_terminated : Exec Unit := do
  let (v, m) ← str "a"
  check ((← m.read v.endPtr) == 0)
  let (v, m) ← Str.push strHeap 'a' v m
  check ((← m.read v.endPtr) == 0)
  let (_, v, m) ← Str.pop v m
  check ((← m.read v.endPtr) == 0)
  let (v, m) ← Str.assign strHeap (utf8 "ab".toList) v m
  check ((← m.read v.endPtr) == 0)
  let (v, m) ← Str.insert strHeap 1 'c' v m
  check ((← m.read v.endPtr) == 0)

/-- `equals` (386-394). -/
def string_equals : Exec Unit := do
  let (s1, m) ← Str.fromStr strHeap (utf8 "abcd".toList) Mem.empty
  let (s2, m) ← Str.fromStr strHeap (utf8 "abcd".toList) m
  let (s3, m) ← Str.fromStr strHeap (utf8 "abce".toList) m
  check (← Str.eq s1 s2 m)
  check (!(← Str.eq s1 s3 m))

theorem string_tests : Passes string_is_empty ∧ Passes string_is_full ∧ Passes string_from_str ∧
    Passes string_push_chars ∧ Passes string_pop_chars ∧ Passes string_push_pop ∧
    Passes string_insert ∧ Panics string_insert_out_of_bounds ∧ Passes string_remove ∧
    Passes string_null_terminated ∧ Passes string_equals := by decide +kernel

/-! ## `VectorMap` -/

abbrev mapHeap : Allocator (Nat × Nat) := defaultAllocator RawAlloc.bump
abbrev lt (a b : Nat) : Bool := decide (a < b)
abbrev eq (a b : Nat) : Bool := decide (a = b)

/-- `DefaultVectorMap::from`. -/
def vmap (ps : List (Nat × Nat)) : Exec (Vec × Mem (Nat × Nat)) :=
  VMap.fromPairs mapHeap lt eq ps Mem.empty

/-- `default_state` (312-319). -/
def vector_map_default_state : Exec Unit := do
  check (← Vec.new.isEmpty)
  check ((← Vec.new.len) == 0)
  check ((← Vec.new.capacity) == 0)

/-- The assertions shared by `insert`, `from_iter`, `from_owned`, `from_ref`. -/
def isFiveSix (v : Vec) (m : Mem (Nat × Nat)) : Exec Unit := do
  check (!(← v.isEmpty))
  check ((← v.len) == 1)
  check ((← v.capacity) == 1)
  check ((← v.asSlice m) == [(5, 6)])

/-- `insert` (321-331). -/
def vector_map_insert : Exec Unit := do
  let (_, v, m) ← VMap.insert mapHeap lt eq 5 6 Vec.new Mem.empty
  isFiveSix v m

/-- `from_iter` (333-341). -/
def vector_map_from_iter : Exec Unit := do
  let (v, m) ← VMap.fromIter mapHeap lt eq [(5, 6)] Mem.empty
  isFiveSix v m

/-- `from_owned` and `from_ref` (343-361). -/
def vector_map_from : Exec Unit := do
  let (v, m) ← vmap [(5, 6)]
  isFiveSix v m

/-- `get` (363-369). -/
def vector_map_get : Exec Unit := do
  let (v, m) ← vmap [(5, 6)]
  check ((← VMap.get lt eq 5 v m) == some 6)
  check ((← VMap.get lt eq 6 v m) == none)

/-- `get_mut` (371-383). -/
def vector_map_get_mut : Exec Unit := do
  let (v, m) ← vmap [(5, 6)]
  let (x, m) ← VMap.modify lt eq 5 (fun _ => 7) v m
  check (x.isSome)
  check ((← VMap.get lt eq 5 v m) == some 7)
  let (x, _) ← VMap.modify lt eq 6 (fun _ => 7) v m
  check (x == none)

/-- `insert_less` (385-395). -/
def vector_map_insert_less : Exec Unit := do
  let (_, v, m) ← VMap.insert mapHeap lt eq 5 6 Vec.new Mem.empty
  let (_, v, m) ← VMap.insert mapHeap lt eq 4 5 v m
  check (!(← v.isEmpty))
  check ((← v.len) == 2)
  check ((← v.asSlice m) == [(4, 5), (5, 6)])

/-- `entry_occupied` (397-414). -/
def vector_map_entry_occupied : Exec Unit := do
  let (_, v, m) ← VMap.insert mapHeap lt eq 5 6 Vec.new Mem.empty
  check ((← VMap.entryKey lt eq 5 v m) == 5)
  let (x, v, m) ← VMap.entry mapHeap lt eq 5 (fun _ => 7) 0 v m
  check (x == 7)
  check ((← VMap.get lt eq 5 v m) == some 7)

/-- `entry_vacant` (416-432). -/
def vector_map_entry_vacant : Exec Unit := do
  check ((← VMap.entryKey lt eq 5 Vec.new (Mem.empty (α := Nat × Nat))) == 5)
  let (x, v, m) ← VMap.entry mapHeap lt eq 5 id 7 Vec.new Mem.empty
  check (x == 7)
  check ((← VMap.get lt eq 5 v m) == some 7)
  check ((← v.len) == 1)

/-- `iter` (434-440). -/
def vector_map_iter : Exec Unit := do
  let (v, m) ← vmap [(5, 6), (4, 7)]
  check (((← v.asSlice m).head?.map Prod.snd) == some 7)
  check ((← v.asSlice m).length == 2)

/-- Whether each key is below the next. -/
def ascending : List (Nat × Nat) → Bool
  | p :: q :: ps => decide (p.1 < q.1) && ascending (q :: ps)
  | _ => true

/-- `big_test` (442-453). -/
def vector_map_big_test : Exec Unit := do
  let ks := (List.range 50).map (· * 2) ++ (List.range 50).map (· * 2 + 1)
  let (v, m) ← VMap.fromIter mapHeap lt eq (ks.map fun x => (x, x + 2)) Mem.empty
  check (ascending (← v.asSlice m))
  check ((← v.len) == 100)

theorem vector_map_tests : Passes vector_map_default_state ∧ Passes vector_map_insert ∧
    Passes vector_map_from_iter ∧ Passes vector_map_from ∧ Passes vector_map_get ∧
    Passes vector_map_get_mut ∧ Passes vector_map_insert_less ∧
    Passes vector_map_entry_occupied ∧ Passes vector_map_entry_vacant ∧
    Passes vector_map_iter ∧ Passes vector_map_big_test := by decide +kernel

end Verif.Replay
