import Verif.Replay.Basic
import Verif.Pool.Model
import Verif.Forward.Model

/-! Tests of `List`, `FixedPool`, `FixedPoolWithOverflow` and both `FixedList`s
(src/list/mod.rs:253-455, src/fixed_pool/mod.rs:128-213, src/fixed_pool/with_overflow.rs:110-220,
src/fixed_list/mod.rs:106-365, src/fixed_list/conformant.rs:176-437).  The tests `layout` are C118
and C139.  Strings are numbers here. -/

set_option autoImplicit false

namespace Verif.Replay
open Spec

deriving instance DecidableEq for Spec.Out

/-- What the tests of lists need: a new list, its calls, and the environment it lives in. -/
structure ListKind where
  σ : Type
  E : LEnv Nat σ
  new : Exec (LList σ × LMem Nat)
  step : ListOp Nat → LList σ → LMem Nat → Exec (Out Nat × LList σ × LMem Nat)

/-- Memory with the object of a list at 64. -/
def listMem : LMem Nat where
  node a := if a = 64 then some LNode.uninit else none
  link := fun _ => none
  reg a := if a = 64 then some ⟨136, 8, false⟩ else none
  top := 200
  top_ok := by
    intro a r h
    by_cases h' : a = 64
    · rw [if_pos h'] at h; cases h; subst h'; decide
    · rw [if_neg h'] at h; cases h
  dropped := []

/-- `DefaultList`; a node of a `u32` has 24 bytes. -/
def plainList : ListKind where
  σ := Unit
  E := ⟨24, 8, true, defaultNAlloc Placer.bump LNode.uninit false⟩
  new := LList.newIn () 64 listMem
  step := LList.step ⟨24, 8, true, defaultNAlloc Placer.bump LNode.uninit false⟩

/-- The environment of a fixed list. -/
def fixedEnv : LEnv Nat OPool :=
  ⟨24, 8, true, opoolNAlloc LNode.uninit 24 8 (defaultNAlloc Placer.bump LNode.uninit false)⟩

/-- `DefaultFixedList<_, 1>`. -/
def fixedList : ListKind where
  σ := OPool
  E := fixedEnv
  new := fixedListNewIn 24 8 64 128 24 listMem
  step := LList.step fixedEnv

/-- `conformant::DefaultFixedList<_, 1>`, whose buffer has room for one node however it is
aligned. -/
def conformantList : ListKind where
  σ := OPool
  E := fixedEnv
  new := fixedListNewIn 24 8 64 128 47 listMem
  step := ConformantList.step fixedEnv

variable (K : ListKind)

/-- Calls on a list, with the answers expected. -/
def ListKind.calls (l : LList K.σ) (m : LMem Nat) :
    List (ListOp Nat × Out Nat) → Exec (LList K.σ × LMem Nat)
  | [] => .ok (l, m)
  | (op, o) :: rest => do
    let (o', l, m) ← K.step op l m
    check (o' == o)
    ListKind.calls l m rest

/-- Calls on a new list, with the answers expected. -/
def ListKind.test (cs : List (ListOp Nat × Out Nat)) : Exec Unit := do
  let (l, m) ← K.new
  let _ ← K.calls l m cs

/-- `empty`, `size_empty`, `front_empty`, `back_empty` (src/list/mod.rs:257-287). -/
def list_empty : Exec Unit := do
  K.test [(.isEmpty, .bool true)]
  K.test [(.len, .nat 0)]
  K.test [(.front, .elem none)]
  K.test [(.back, .elem none)]

/-- `push_front` and `push_front_owned_value` (289-319). -/
def list_push_front : Exec Unit := do
  K.test [(.pushFront 12, .unit), (.len, .nat 1), (.front, .elem (some 12)),
    (.back, .elem (some 12)), (.pushFront 6, .unit), (.len, .nat 2), (.front, .elem (some 6)),
    (.back, .elem (some 12))]

/-- `push_back` (321-336). -/
def list_push_back : Exec Unit := do
  K.test [(.pushBack 1, .unit), (.len, .nat 1), (.front, .elem (some 1)), (.back, .elem (some 1)),
    (.pushBack 2, .unit), (.len, .nat 2), (.front, .elem (some 1)), (.back, .elem (some 2))]

/-- `modify_front` (338-347). -/
def list_modify_front : Exec Unit := do
  K.test [(.pushFront 1, .unit), (.setFront 2, .bool true), (.back, .elem (some 2))]

/-- `clear` (349-361). -/
def list_clear : Exec Unit := do
  K.test [(.pushBack 12, .unit), (.pushBack 6, .unit), (.len, .nat 2), (.clear, .unit),
    (.isEmpty, .bool true), (.front, .elem none), (.back, .elem none)]

/-- `drop` (373-386): both elements are dropped once. -/
def list_drop : Exec Unit := do
  let (l, m) ← K.new
  let (l, m) ← K.calls l m [(.pushBack 1, .unit), (.pushBack 2, .unit)]
  let m ← l.drop K.E m
  check (m.dropped.count 1 == 1)
  check (m.dropped.count 2 == 1)

/-- `iter` (388-403). -/
def list_iter : Exec Unit := do
  let (l, m) ← K.new
  let (xs, it) ← l.iter.run 2 m
  check (xs == [none, none])
  check (it.sizeHint == (0, some 0))
  let (l, m) ← K.calls l m [(.pushBack 12, .unit), (.pushBack 6, .unit)]
  check (l.iter.sizeHint == (2, some 2))
  let (xs, _) ← l.iter.run 3 m
  check (xs == [some 12, some 6, none])

/-- `iter_mut` (404-420). -/
def list_iter_mut : Exec Unit := do
  let (l, m) ← K.new
  let (l, m) ← K.calls l m [(.pushBack 12, .unit), (.pushBack 6, .unit)]
  let (p, _) ← l.iter.next m
  let p ← initd p
  check ((← LMem.val m p) == 12)
  let m ← LMem.setVal m p 14
  let (xs, _) ← l.iter.run 3 m
  check (xs == [some 14, some 6, none])

/-- `pop_front` (422-437). -/
def list_pop_front : Exec Unit := do
  K.test [(.pushBack 1, .unit), (.pushBack 2, .unit), (.len, .nat 2), (.popFront, .elem (some 1)),
    (.len, .nat 1), (.popFront, .elem (some 2)), (.isEmpty, .bool true), (.popFront, .elem none)]

/-- `pop_back` (439-454). -/
def list_pop_back : Exec Unit := do
  K.test [(.pushBack 1, .unit), (.pushBack 2, .unit), (.len, .nat 2), (.popBack, .elem (some 2)),
    (.len, .nat 1), (.popBack, .elem (some 1)), (.isEmpty, .bool true), (.popFront, .elem none)]

/-- All of them. -/
def listTests : Exec Unit := do
  list_empty K
  list_push_front K
  list_push_back K
  list_modify_front K
  list_clear K
  list_drop K
  list_iter K
  list_iter_mut K
  list_pop_front K
  list_pop_back K

/-- `fixed_alloc` (src/fixed_list/mod.rs:141-163, src/fixed_list/conformant.rs:211-234): the first
node is in the pool, the second is not. -/
def fixed_list_alloc (new : Exec (LList OPool × LMem Nat)) : Exec Unit := do
  let (l, m) ← new
  let (l, m) ← l.pushFront fixedEnv 12 m
  let p ← LMem.next m l.head
  check (decide (l.al.poolBegin ≤ p) && decide (p ≤ l.al.pool.capacity))
  let (l, m) ← l.pushFront fixedEnv 13 m
  let p ← LMem.next m l.head
  check (decide (p < l.al.poolBegin) || decide (l.al.pool.capacity < p))

theorem list_tests : Passes (listTests plainList) ∧ Passes (listTests fixedList) ∧
    Passes (listTests conformantList) ∧ Passes (fixed_list_alloc fixedList.new) ∧
    Passes (fixed_list_alloc conformantList.new) := by decide +kernel

/-! ## Pools

Nodes of 16 bytes aligned to 16, on a buffer at any address, here one that is aligned. -/

abbrev pool : NAlloc Unit Unit Pool := poolNAlloc () 16 16

/-- `simple_alloc_happy_case` (src/fixed_pool/mod.rs:157-170). -/
def pool_alloc_happy_case : Exec Unit := do
  let s ← Pool.init 16 16 160 (16 * 2)
  check s.canAllocate
  let (p, s, _) ← pool.alloc 16 16 s NMem.empty
  check (p != 0)
  check (p &&& (16 - 1) == 0)
  check (decide (p + 16 ≤ s.capacity))

/-- `simple_alloc_empty` (172-188). -/
def pool_alloc_empty : Exec Unit := do
  let s ← Pool.init 16 16 160 (16 * 2 - 1)
  check s.canAllocate
  let (_, s, m) ← pool.alloc 16 16 s NMem.empty
  check (!s.canAllocate)
  let (p, _, _) ← pool.alloc 16 16 s m
  check (p == 0)

/-- `simple_alloc_realloc` (190-212). -/
def pool_alloc_realloc : Exec Unit := do
  let s ← Pool.init 16 16 160 (16 * 2 - 1)
  check s.canAllocate
  let (p, s, m) ← pool.alloc 16 16 s NMem.empty
  check (!s.canAllocate)
  let (s, m) ← pool.dealloc p 16 16 s m
  check s.canAllocate
  let (p, s, _) ← pool.alloc 16 16 s m
  check (p != 0)
  check (p &&& (16 - 1) == 0)
  check (decide (p + 16 ≤ s.capacity))

abbrev opool : NAlloc Unit Unit OPool :=
  opoolNAlloc () 16 16 (defaultNAlloc Placer.bump () false)

/-- Memory with the buffer at 160. -/
def poolMem : NMem Unit Unit where
  node := fun _ => none
  link := fun _ => none
  reg a := if a = 160 then some ⟨32, 16, false⟩ else none
  top := 192
  top_ok := by
    intro a r h
    by_cases h' : a = 160
    · rw [if_pos h'] at h; cases h; subst h'; decide
    · rw [if_neg h'] at h; cases h
  dropped := []

/-- `simple_alloc_happy_case` (src/fixed_pool/with_overflow.rs:143-160). -/
def overflow_alloc_happy_case : Exec Unit := do
  let s ← OPool.init 16 16 160 (16 * 2)
  check s.canAllocate
  let (p, s, _) ← opool.alloc 16 16 s poolMem
  check (p != 0)
  check (p &&& (16 - 1) == 0)
  check (decide (p + 16 ≤ s.pool.capacity))

/-- `simple_alloc_overflow` (162-185). -/
def overflow_alloc_overflow : Exec Unit := do
  let s ← OPool.init 16 16 160 (16 * 2 - 1)
  check s.canAllocate
  let (_, s, m) ← opool.alloc 16 16 s poolMem
  check (!s.canAllocate)
  let (p, s, _) ← opool.alloc 16 16 s m
  check (p != 0)
  check (p &&& (16 - 1) == 0)
  check (decide (p < s.poolBegin) || decide (s.pool.capacity ≤ p))

/-- `simple_alloc_realloc` (187-219). -/
def overflow_alloc_realloc : Exec Unit := do
  let s ← OPool.init 16 16 160 (16 * 2 - 1)
  check s.canAllocate
  let (inPool, s, m) ← opool.alloc 16 16 s poolMem
  check (inPool != 0)
  check (!s.canAllocate)
  let (outside, s, m) ← opool.alloc 16 16 s m
  check (decide (outside < s.poolBegin) || decide (s.pool.capacity ≤ outside))
  let (s, m) ← opool.dealloc outside 16 16 s m
  check (!s.canAllocate)
  let (s, _) ← opool.dealloc inPool 16 16 s m
  check s.canAllocate

theorem pool_tests : Passes pool_alloc_happy_case ∧ Passes pool_alloc_empty ∧
    Passes pool_alloc_realloc ∧ Passes overflow_alloc_happy_case ∧
    Passes overflow_alloc_overflow ∧ Passes overflow_alloc_realloc := by decide +kernel

end Verif.Replay
