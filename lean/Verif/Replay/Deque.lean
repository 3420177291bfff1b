import Verif.Replay.Basic
import Verif.Deque.Model
import Verif.Replay.List

/-! Tests of `Deque` and `Queue` (src/deque/mod.rs:468-683, src/deque/iter.rs:371-445,
src/queue.rs:105-150).  The tests `layout` are C139. -/

set_option autoImplicit false

namespace Verif.Replay
open Spec

/-- Deques of `u32` or `i32`, of which a subarray holds 64. -/
def deqEnv : DEnv Nat := ⟨subarraySize 4, false, RawAlloc.bump, RawAlloc.bump⟩

abbrev D := Deque × DMem Nat

/-- `DefaultDeque::new`. -/
def deq : Exec D := Deque.newIn deqEnv ⟨Mem.empty, Mem.empty⟩

def pushFronts (s : D) (xs : List Nat) : Exec D :=
  xs.foldlM (fun (s : D) x => s.1.pushFront deqEnv x s.2) s

def pushBacks (s : D) (xs : List Nat) : Exec D :=
  xs.foldlM (fun (s : D) x => s.1.pushBack deqEnv x s.2) s

def pushBoth (s : D) (xs : List Nat) : Exec D :=
  xs.foldlM (fun (s : D) x => do
    let s ← s.1.pushFront deqEnv x s.2
    s.1.pushBack deqEnv x s.2) s

/-- `assert_eq!(d.pop_back(), Some(x))` for each `x`. -/
def popBacks (s : D) (xs : List Nat) : Exec D :=
  xs.foldlM (fun (s : D) x => do
    let (y, d, m) ← s.1.popBack deqEnv s.2
    check (y == some x)
    .ok (d, m)) s

def popFronts (s : D) (xs : List Nat) : Exec D :=
  xs.foldlM (fun (s : D) x => do
    let (y, d, m) ← s.1.popFront deqEnv s.2
    check (y == some x)
    .ok (d, m)) s

/-- `!is_empty()` and `len() == n`. -/
def holds (s : D) (n : Nat) : Exec Unit := do
  check (!s.1.isEmpty)
  check ((← s.1.len deqEnv) == n)

/-- Neither end has an element, and the deque is empty. -/
def exhausted (s : D) : Exec Unit := do
  let (x, d, m) ← s.1.popBack deqEnv s.2
  check (x == none)
  let (x, d, _) ← d.popFront deqEnv m
  check (x == none)
  check d.isEmpty

/-- `initial_state` (497-508). -/
def deque_initial_state : Exec Unit := do
  let (d, m) ← deq
  check (d.ptrs != .null)
  check (d.size == 8)
  check (d.b.first == (← m.p.read (← m.p.ptrAdd d.ptrs 3)))
  check (d.b.first == d.b.current)
  check (d.e.first == d.b.first)
  check (d.e.first == d.b.current)
  check d.isEmpty
  check ((← d.len deqEnv) == 0)

/-- `push_front` (510-527). -/
def deque_push_front : Exec Unit := do
  let s ← pushFronts (← deq) [0]
  holds s 1
  let s ← pushFronts s [1]
  holds s 2
  let s ← pushFronts s (List.range' 2 63)
  holds s 65

/-- `push_back` (529-546). -/
def deque_push_back : Exec Unit := do
  let s ← pushBacks (← deq) [0]
  holds s 1
  let s ← pushBacks s [0]
  holds s 2
  let s ← pushBacks s (List.range' 2 63)
  holds s 65

/-- `push_front_and_back` (548-563). -/
def deque_push_front_and_back : Exec Unit := do
  let s ← pushBacks (← pushFronts (← deq) [0]) [1]
  holds s 2
  let s ← pushBoth s (List.range' 2 63)
  holds s 128

/-- `from_iter` (565-571). -/
def deque_from_iter : Exec Unit := do
  let s ← Deque.fromIter deqEnv (List.range 10) ⟨Mem.empty, Mem.empty⟩
  holds s 10

/-- `front` (573-586). -/
def deque_front : Exec Unit := do
  let s ← deq
  check ((← s.1.front s.2) == none)
  let s ← pushFronts s [1]
  check ((← s.1.front s.2) == some 1)
  let s ← pushFronts s [2]
  check ((← s.1.front s.2) == some 2)
  let s ← pushBacks s [3]
  check ((← s.1.front s.2) == some 2)

/-- `back` (588-601). -/
def deque_back : Exec Unit := do
  let s ← deq
  check ((← s.1.back s.2) == none)
  let s ← pushBacks s [1]
  check ((← s.1.back s.2) == some 1)
  let s ← pushBacks s [2]
  check ((← s.1.back s.2) == some 2)
  let s ← pushFronts s [3]
  check ((← s.1.back s.2) == some 2)

/-- `realloc_ptr_back` (603-619). -/
def deque_realloc_ptr_back : Exec Unit := do
  let s ← pushBacks (← deq) (List.range 512)
  let s ← popBacks s (List.range 512).reverse
  exhausted s

/-- `realloc_ptr_front` (621-637). -/
def deque_realloc_ptr_front : Exec Unit := do
  let s ← pushFronts (← deq) (List.range 512)
  let s ← popFronts s (List.range 512).reverse
  exhausted s

/-- `remove(i)` of the numbers up to 5 answers `r` and leaves `left`. -/
def removes (i : Nat) (r : Option Nat) (left : List Nat) : Exec Unit := do
  let s ← Deque.fromIter deqEnv (List.range 6) ⟨Mem.empty, Mem.empty⟩
  let (x, d, m) ← s.1.remove deqEnv i s.2
  check (x == r)
  let s ← popFronts (d, m) left
  exhausted s

/-- `remove_out_of_bounds`, `remove_front`, `remove_back`, `remove_middle_front_half`,
`remove_middle_back_half` (639-682). -/
def deque_remove : Exec Unit := do
  removes 6 none [0, 1, 2, 3, 4, 5]
  removes 0 (some 0) [1, 2, 3, 4, 5]
  removes 5 (some 5) [0, 1, 2, 3, 4]
  removes 1 (some 1) [0, 2, 3, 4, 5]
  removes 4 (some 4) [0, 1, 2, 3, 5]

/-- The answers of calls on `iter()`. -/
def iterates (s : D) (calls : List IterOp) (answers : List (Option Nat)) : Exec Unit := do
  let it ← s.1.iter
  let (os, _) ← it.run calls s.2
  check (os == answers)

/-- `empty_iter` (src/deque/iter.rs:398-405). -/
def deque_empty_iter : Exec Unit := do
  iterates (← deq) [.next, .nextBack] [none, none]

/-- `iter` (src/deque/iter.rs:407-421). -/
def deque_iter : Exec Unit := do
  let s ← Deque.fromIter deqEnv (List.range 10) ⟨Mem.empty, Mem.empty⟩
  iterates s (List.replicate 5 .next ++ List.replicate 5 .nextBack ++ [.next, .nextBack])
    ([0, 1, 2, 3, 4, 9, 8, 7, 6, 5].map some ++ [none, none])

/-- `iter_across_borders` (src/deque/iter.rs:423-444). -/
def deque_iter_across_borders : Exec Unit := do
  let s ← pushBoth (← deq) (List.range 70)
  iterates s (List.replicate 70 .next ++ List.replicate 70 .nextBack ++ [.next, .nextBack])
    ((List.range 70).reverse.map some ++ (List.range 70).reverse.map some ++ [none, none])

theorem deque_tests : Passes deque_initial_state ∧ Passes deque_push_front ∧
    Passes deque_push_back ∧ Passes deque_push_front_and_back ∧ Passes deque_from_iter ∧
    Passes deque_front ∧ Passes deque_back ∧ Passes deque_realloc_ptr_back ∧
    Passes deque_realloc_ptr_front ∧ Passes deque_remove ∧ Passes deque_empty_iter ∧
    Passes deque_iter ∧ Passes deque_iter_across_borders := by decide +kernel

/-! ## `Queue` -/

/-- The answers of calls on a new queue. -/
def queue (calls : List (QueueOp Nat)) : Exec (List (Out Nat) × Deque × DMem Nat) := do
  let s ← deq
  Queue.run deqEnv calls s.1 s.2

/-- `push_pop` (116-136). -/
def queue_push_pop : Exec Unit := do
  let (os, _) ← queue ([.isEmpty, .len] ++ (List.range 256).map .push ++ [.top, .isEmpty, .len] ++
    List.replicate 256 .pop ++ [.isEmpty, .len])
  check (decide (os = [.bool true, .nat 0] ++ List.replicate 256 .unit ++
    [.elem (some 0), .bool false, .nat 256] ++ (List.range 256).map (fun n => .elem (some n)) ++
    [.bool true, .nat 0]))

/-- `iter` (138-149). -/
def queue_iter : Exec Unit := do
  let s ← Deque.fromIter deqEnv (List.range 256) ⟨Mem.empty, Mem.empty⟩
  iterates s (List.replicate 256 .next) ((List.range 256).map some)
  let (os, _, _) ← s.1.intoIterRun deqEnv (List.replicate 257 .next) s.2
  check (os == (List.range 256).map some ++ [none])

theorem queue_tests : Passes queue_push_pop ∧ Passes queue_iter := by decide +kernel

end Verif.Replay
