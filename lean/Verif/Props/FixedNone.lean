import Verif.Props.Pool
import Verif.FixedVector.Move

/-!
# Fixed containers with room for no element (C152)

The number of inline nodes is a type parameter, and nothing excludes 0.  A `FixedList<T, 0, _>`
(`FixedObj.plain` and `FixedObj.conformant` with `n = 0`) is a list on its overflow allocator; a
`FixedVector<T, 0, _>` cannot be made.
-/

set_option autoImplicit false

namespace Verif
open Spec

variable {α : Type}

section
variable {size align s buf len : Nat} {m0 : LMem α}

/-- C152 (partial: not of fixed vectors).  A fixed list without inline nodes answers every history
as a sequence does, none of its elements is inline, and every push allocates a block. -/
theorem C152_fixed_list_of_none_partial (P : Placer (LNode α) α) (nd : Bool)
    (h : FixedObj m0 size align s buf len) (hnone : roomFor size align buf len = 0)
    (ops : List (ListOp α)) (x : α) (front : Bool) :
    ∃ l m ps p l' m', fixedListHistory P size align nd s buf len ops m0 =
        .ok ((ListOp.run ops []).1, l, m) ∧ l.addrs m = .ok ps ∧
      (∀ q ∈ ps, ¬ inSlots size align buf len q) ∧
      (if front then l.pushFront (fixedListEnv P size align nd) x m
        else l.pushBack (fixedListEnv P size align nd) x m) = .ok (l', m') ∧
      l'.addrs m' = .ok (if front then p :: ps else ps ++ [p]) ∧
      ¬ inSlots size align buf len p ∧ m'.reg ≠ m.reg := by
  obtain ⟨l, m, h1, _⟩ := C44_fixed_list_refines_sequence P nd h ops
  obtain ⟨ps, p, l', m', e1, e2, e3, e4, e5, e6⟩ :=
    C44_fixed_list_inline_first P nd h h1 x front
  rw [hnone] at e4 e5
  have hp : ¬ inSlots size align buf len p := fun hp => absurd (e5.1 hp) (Nat.not_lt_zero _)
  refine ⟨l, m, ps, p, l', m', h1, e1, fun q hq hin => ?_, e2, e3, hp, fun e => hp (e6.2 e)⟩
  have : 0 < ps.countP (inSlots size align buf len) :=
    List.countP_pos_iff.2 ⟨q, hq, by simpa using hin⟩
  omega

/-- C152 (partial: not of fixed vectors).  When it is dropped, exactly the memory in use before
is in use. -/
theorem C152_fixed_list_of_none_drop_partial (P : Placer (LNode α) α) (nd : Bool)
    (h : FixedObj m0 size align s buf len) (ops : List (ListOp α)) :
    ∃ outs l m m', fixedListHistory P size align nd s buf len ops m0 = .ok (outs, l, m) ∧
      l.drop (fixedListEnv P size align nd) m = .ok m' ∧ m'.reg = m0.reg := by
  obtain ⟨outs, l, m, m', _, h1, h2, h3, _⟩ := C44_fixed_list_frees_everything P nd h ops
  exact ⟨outs, l, m, m', h1, h2, h3⟩

end

/-- C152 fails for fixed vectors: making a `FixedVector<T, 0, _>` panics, wherever it is made,
because the constructor takes the address of the buffer's first element. -/
theorem C152_fixed_vector_of_none_panics (d : Nat) (m0 : Mem α) :
    FVec.newIn 0 d m0 = .error .panic := by
  simp [FVec.newIn, FVec.initBaseVec]

/-- Only the count 0 is refused. -/
theorem C152_fixed_vector_new_iff (n d : Nat) (m0 : Mem α) (hd : m0.live d = none) :
    FVec.newIn n d m0 = .error .panic ↔ n = 0 := by
  constructor
  · intro h
    by_contra hn
    obtain ⟨f1, m1, he1, _⟩ := FInvA.new (Nat.pos_of_ne_zero hn) m0 hd
    rw [he1] at h
    exact absurd h (by simp)
  · rintro rfl
    exact C152_fixed_vector_of_none_panics d m0

/-- The hypotheses of C152 hold of a list without inline nodes in either layout; two pushes and
a pop. -/
example : (FixedObj exampleFixedMem 24 8 64 128 (0 * 24) ∧ roomFor 24 8 128 (0 * 24) = 0) ∧
    (FixedObj exampleFixedMem 24 8 64 128 ((0 + 1) * 24 - 1) ∧
      roomFor 24 8 128 ((0 + 1) * 24 - 1) = 0) ∧
    (do
      let (os, l, m) ← fixedListHistory Placer.bump 24 8 true 64 128 (0 * 24)
        [.pushBack 1, .pushFront 2, .popBack, .len] exampleFixedMem
      let ps ← l.addrs m
      .ok (os.filterMap (fun | .elem x => x | .nat n => some n | _ => none),
        ps.map fun p => decide (inSlots 24 8 128 0 p))) =
    (.ok ([1, 1], [false]) : Exec (List Nat × List Bool)) := by
  have hfree : ∀ q : Nat, 128 ≤ q → exampleFixedMem.node q = none := by
    intro q h1
    unfold exampleFixedMem
    simp only
    rw [if_neg (by omega)]
  obtain ⟨h1, _, h3⟩ := FixedObj.plain (m0 := exampleFixedMem) (size := 24) (align := 8) (s := 64)
    (buf := 128) (n := 0) exampleFixedMem_wf (by decide) (r := ⟨136, 8, false⟩) rfl (by decide)
    ⟨3, rfl⟩ (by decide) (by decide) (by decide) (by decide) (fun q h1 _ => hfree q h1)
  obtain ⟨g1, g3⟩ := FixedObj.conformant (m0 := exampleFixedMem) (size := 24) (align := 8)
    (s := 64) (buf := 128) (n := 0) exampleFixedMem_wf (by decide) (r := ⟨136, 8, false⟩) rfl
    (by decide) ⟨3, rfl⟩ (by decide) (by decide) (by decide) (by decide) (by decide)
    (fun q h1 _ => hfree q h1)
  exact ⟨⟨h1, h3⟩, ⟨g1, g3⟩, by decide +kernel⟩

/-- A vector with one inline element can be made where one with none cannot. -/
example : ((FVec.newIn 1 0 (Mem.empty : Mem Nat)).map fun _ => ()) = .ok () ∧
    ((FVec.newIn 0 0 (Mem.empty : Mem Nat)).map fun _ => ()) = .error .panic := by
  decide

end Verif
