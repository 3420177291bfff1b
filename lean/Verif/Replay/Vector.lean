import Verif.Replay.Basic
import Verif.Vector.Model
import Verif.FixedVector.Model

/-! Tests of `Vector` and `FixedVector` (src/vector/mod.rs:430-673, src/fixed_vector/mod.rs:138-216).
Left out: `layout`, which is C139, and `ensure_clone`, clones not being counted. -/

set_option autoImplicit false

namespace Verif.Replay

/-- `DefaultAllocator`. -/
abbrev heap : Allocator Nat := defaultAllocator RawAlloc.bump

/-- `empty_vec` (455-464). -/
def vector_empty_vec : Exec Unit := do
  let v := Vec.new
  check (v.beginPtr == .null)
  check (v.endPtr == .null)
  check (v.capPtr == .null)
  check ((← v.capacity) == 0)
  check ((← v.len) == 0)
  check (← v.isEmpty)

/-- `push_one` (466-480). -/
def vector_push_one : Exec Unit := do
  let (v, m) ← Vec.new.push heap 20 Mem.empty
  check ((← v.capacity) == 1)
  check ((← v.len) == 1)
  check (!(← v.isEmpty))
  check ((← v.asSlice m) == [20])
  let (x, v) ← v.pop m
  check (x == some 20)
  check ((← v.capacity) == 1)
  check ((← v.len) == 0)
  check (← v.isEmpty)

/-- `push_two` (482-500). -/
def vector_push_two : Exec Unit := do
  let (v, m) ← Vec.new.push heap 20 Mem.empty
  let (v, m) ← v.push heap 25 m
  check ((← v.capacity) == 2)
  check ((← v.len) == 2)
  check (!(← v.isEmpty))
  let arr ← v.asSlice m
  check (arr.length == 2)
  check (arr[0]? == some 20)
  let m ← v.setAt false 1 30 m
  let (x, v) ← v.pop m
  check (x == some 30)
  check ((← v.len) == 1)
  let (x, v) ← v.pop m
  check (x == some 20)
  check ((← v.capacity) == 2)
  check ((← v.len) == 0)
  check (← v.isEmpty)

/-- `push_three` (502-519). -/
def vector_push_three : Exec Unit := do
  let (v, m) ← Vec.new.push heap 20 Mem.empty
  let (v, m) ← v.push heap 25 m
  let (v, m) ← v.push heap 30 m
  check ((← v.capacity) == 4)
  check ((← v.len) == 3)
  check (!(← v.isEmpty))
  let (x, v) ← v.pop m
  check (x == some 30)
  check ((← v.len) == 2)
  let (x, v) ← v.pop m
  check (x == some 25)
  check ((← v.len) == 1)
  let (x, v) ← v.pop m
  check (x == some 20)
  check ((← v.capacity) == 4)
  check ((← v.len) == 0)
  check (← v.isEmpty)

/-- `insert` (521-531). -/
def vector_insert : Exec Unit := do
  let (v, m) ← Vec.pushAll heap Vec.new Mem.empty [1, 2, 3, 4]
  let (v, m) ← v.insert heap 2 5 m
  check ((← v.asSlice m) == [1, 2, 5, 3, 4])
  check ((← v.capacity) == 8)

/-- `remove` (533-542). -/
def vector_remove : Exec Unit := do
  let (v, m) ← Vec.pushAll heap Vec.new Mem.empty [1, 2, 3, 4]
  let (x, v, m) ← v.remove 2 m
  check (x == some 3)
  check ((← v.asSlice m) == [1, 2, 4])

/-- `into_iter` (544-575). -/
def vector_into_iter : Exec Unit := do
  let (v, m) ← Vec.pushAll heap Vec.new Mem.empty [1, 2, 3]
  let capacity ← v.capacity
  let it := v.intoIter
  check ((← it.capacity) == capacity)
  check ((← it.len) == 3)
  check ((← it.len) != 0)
  let (x, it) ← it.next m
  check (x == some 1)
  let (x, it) ← it.nextBack m
  check (x == some 3)
  check ((← it.capacity) == capacity)
  check ((← it.len) == 1)
  check ((← it.len) != 0)
  let (x, it) ← it.next m
  check (x == some 2)
  check ((← it.len) == 0)
  let (x, it) ← it.next m
  check (x == none)
  let _ ← it.drop heap false m

/-- `iter` (577-584). -/
def vector_iter : Exec Unit := do
  let (v, m) ← Vec.pushAll heap Vec.new Mem.empty [1, 2, 3]
  check ((← v.asSlice m).sum == 6)

/-- `from` (586-592). -/
def vector_from : Exec Unit := do
  let (v, m) ← Vec.fromSlice heap false [1, 2, 3] Mem.empty
  check ((← v.capacity) == 3)
  check ((← v.len) == 3)
  check ((← v.asSlice m) == [1, 2, 3])

/-- `from_iter` (594-600); the lower bound a range gives for its length is exact. -/
def vector_from_iter : Exec Unit := do
  let (v, m) ← Vec.fromIter heap 3 [1, 2, 3] Mem.empty
  check ((← v.capacity) == 3)
  check ((← v.len) == 3)
  check ((← v.asSlice m) == [1, 2, 3])

/-- `drop` (612-621): each of the two elements is dropped once. -/
def vector_drop : Exec Unit := do
  let (v, m) ← Vec.fromArray heap [1, 2] Mem.empty
  let (_, m) ← v.clear heap true m
  check (m.dropped.count 1 == 1)
  check (m.dropped.count 2 == 1)

/-- `clear` (623-634). -/
def vector_clear : Exec Unit := do
  let (v, m) ← Vec.fromSlice heap false [1, 2, 3] Mem.empty
  check ((← v.capacity) == 3)
  check ((← v.len) == 3)
  check ((← v.asSlice m) == [1, 2, 3])
  let (v, _) ← v.clear heap false m
  check (← v.isEmpty)
  check ((← v.capacity) == 0)

/-- `append` (663-672). -/
def vector_append : Exec Unit := do
  let (v, m) ← Vec.fromSlice heap false [1, 2, 3] Mem.empty
  let (v, m) ← v.append heap false [4, 5, 6] m
  check ((← v.len) == 6)
  check ((← v.capacity) == 6)
  check ((← v.asSlice m) == [1, 2, 3, 4, 5, 6])

theorem vector_tests : Passes vector_empty_vec ∧ Passes vector_push_one ∧ Passes vector_push_two ∧
    Passes vector_push_three ∧ Passes vector_insert ∧ Passes vector_remove ∧
    Passes vector_into_iter ∧ Passes vector_iter ∧ Passes vector_from ∧ Passes vector_from_iter ∧
    Passes vector_drop ∧ Passes vector_clear ∧ Passes vector_append := by decide +kernel

/-! ## `FixedVector` -/

/-- Pushing the elements one by one. -/
def fixedPushes (f : FVec) (m : Mem Nat) : List Nat → Exec (FVec × Mem Nat)
  | [] => .ok (f, m)
  | x :: xs => do
    let (_, f, m) ← f.step RawAlloc.bump false (.push x) m
    fixedPushes f m xs

/-- `push` (144-159). -/
def fixed_vector_push : Exec Unit := do
  let (f, m) ← FVec.newIn 10 7 Mem.empty
  check ((← f.vec.len) == 0)
  check (!f.hasOverflowed)
  check (!(← f.vec.isFull))
  check (← f.vec.isEmpty)
  let (f, m) ← fixedPushes f m [64]
  check ((← f.vec.len) == 1)
  check ((← f.vec.asSlice m) == [64])
  check (!f.hasOverflowed)
  check (!(← f.vec.isFull))
  check (!(← f.vec.isEmpty))

/-- `overflow` (161-172). -/
def fixed_vector_overflow : Exec Unit := do
  let (f, m) ← FVec.newIn 10 7 Mem.empty
  let (f, m) ← fixedPushes f m (List.range 12)
  check ((← f.vec.len) == 12)
  check f.hasOverflowed
  check ((← f.vec.asSlice m)[11]? == some 11)

/-- `iter` (174-183). -/
def fixed_vector_iter : Exec Unit := do
  let (f, m) ← FVec.newIn 10 7 Mem.empty
  let (f, m) ← fixedPushes f m [1, 2, 3]
  check ((← f.vec.asSlice m).sum == 6)

/-- `move_stack` (185-199). -/
def fixed_vector_move_stack : Exec Unit := do
  let (f, m) ← FVec.newIn 10 7 Mem.empty
  let (f, m) ← fixedPushes f m [1, 2]
  let (target, _, _) ← FVec.moveNew .null f 8 (FVec.storage 10 8 m)
  check (!(← target.vec.isFull))
  check (!(← target.vec.isEmpty))
  check ((← target.vec.len) == 2)
  check (!target.hasOverflowed)

/-- `move_overflow` (201-215). -/
def fixed_vector_move_overflow : Exec Unit := do
  let (f, m) ← FVec.newIn 10 7 Mem.empty
  let (f, m) ← fixedPushes f m (List.range 12)
  let (target, _, m) ← FVec.moveNew .null f 30 (FVec.storage 10 30 m)
  check ((← target.vec.len) == 12)
  check target.hasOverflowed
  check ((← target.vec.asSlice m)[11]? == some 11)

theorem fixed_vector_tests : Passes fixed_vector_push ∧ Passes fixed_vector_overflow ∧
    Passes fixed_vector_iter ∧ Passes fixed_vector_move_stack ∧
    Passes fixed_vector_move_overflow := by decide +kernel

end Verif.Replay
