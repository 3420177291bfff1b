import Verif.Machine.CollectExact
import Verif.Props.FixedVector
import Verif.Props.Machine
import Verif.Props.MachineFixed

/-! Histories whose capacities can exist are on a 64-bit machine exactly those of the model without
machine integers, so that all that is proved about vectors and fixed vectors there holds here. -/

set_option autoImplicit false

namespace Verif
open Spec

variable {α : Type}

/-- C83, everything: the calls return the same, and leave the same vector in the same memory, with the
same number of allocations and the same elements dropped, as those of C01 to C06. -/
theorem C83_machine_vector_same (B : Build) {size align : Nat} (hT : TypeLayout size align)
    (R : RawAlloc α) (nd : Bool) (m0 : Mem α) (ops : List (SeqOp α))
    (hops : nd = true → ∀ op ∈ ops, op.isSlice = false)
    (hfit : ∀ c ∈ SeqOp.caps ops [] 0, Representable size align c) :
    Vec.runM B (byteAllocator B size align R.total) nd ops Vec.new m0 =
      Vec.run (defaultAllocator R) nd ops Vec.new m0 :=
  (runM_agree B (P := Representable size align) (fun c hc => hT.rep_lt hc)
    (fun c h0 hc m => byteAllocator_alloc B hT R h0 hc m)
    (fun c hc p m => byteAllocator_dealloc B hT R.total R hc p m) (defaultAllocator_lawful R) nd ops
    hops (VInv.new defaultFits m0) (by simp [Representable]) hfit).1

/-- C154, everything: likewise for fixed vectors and C11 to C14. -/
theorem C154_machine_fixed_same (B : Build) {size align : Nat} (hT : TypeLayout size align)
    (R : RawAlloc α) (nd : Bool) (n d : Nat) (hn : 0 < n) (hrep : Representable size align n)
    (m0 : Mem α) (hd : m0.live d = none) (ops : List (SeqOp α))
    (hops : nd = true → ∀ op ∈ ops, op.isSlice = false)
    (hfit : ∀ c ∈ SeqOp.caps ops [] n, Representable size align c) :
    ∃ f1 m1, FVec.newIn n d m0 = .ok (f1, m1) ∧
      f1.runM B size align R.total nd ops m1 = f1.run R nd ops m1 := by
  obtain ⟨f1, m1, he1, hi1, _⟩ := FInvA.new hn m0 hd
  refine ⟨f1, m1, he1, ?_⟩
  have hA := fixedAllocator_lawful R f1.buf
  rw [← hi1.pool] at hA
  obtain ⟨heq, _⟩ := runM_agree B (P := Representable size align) (fun c hc => hT.rep_lt hc)
    (fun c h0 hc m => fixedAllocatorM_alloc B hT R f1.pool h0 hc m)
    (fun c hc p m => fixedAllocatorM_dealloc B hT R.total R f1.pool hc p m) hA nd ops hops hi1.inv hrep
    hfit
  rw [FVec.runM_eq_map, heq, FVec.run_eq]

/-- C154, the storage. The capacity of the fixed vector is the last one of the history, and
`has_overflowed` is true exactly if at some time there were more than `n` elements, or room was reserved,
or it was cleared (C14). -/
theorem C154_machine_storage (B : Build) {size align : Nat} (hT : TypeLayout size align)
    (R : RawAlloc α) (nd : Bool) (n d : Nat) (hn : 0 < n) (hrep : Representable size align n)
    (m0 : Mem α) (hd : m0.live d = none) (ops : List (SeqOp α))
    (hops : nd = true → ∀ op ∈ ops, op.isSlice = false)
    (hfit : ∀ c ∈ SeqOp.caps ops [] n, Representable size align c)
    {outs : List (Out α)} {xs : List α} (hspec : SeqOp.run ops [] = .ok (outs, xs)) :
    ∃ f1 m1 f m, FVec.newIn n d m0 = .ok (f1, m1) ∧
      f1.runM B size align R.total nd ops m1 = .ok (outs, f, m) ∧
      f.vec.capacity = .ok ((SeqOp.caps ops [] n).getLastD n) ∧
      (f.hasOverflowed = true ↔
        (∃ pre os ys, pre <+: ops ∧ SeqOp.run pre [] = .ok (os, ys) ∧ n < ys.length) ∨
        (∃ k, 0 < k ∧ .reserve k ∈ ops) ∨ .clear ∈ ops) := by
  obtain ⟨f1, m1, he, hs⟩ := C154_machine_fixed_same B hT R nd n d hn hrep m0 hd ops hops hfit
  obtain ⟨f2, m2, f, m, he2, hrun, hov⟩ := C14_has_overflowed_iff R nd n d hn m0 hd ops hops hspec
  rw [he] at he2
  cases he2
  refine ⟨f1, m1, f, m, he, hs.trans hrun, ?_, hov⟩
  obtain ⟨f3, m3, he3, hi, _⟩ := FInvA.new hn m0 hd
  rw [he] at he3
  cases he3
  have hA := fixedAllocator_lawful R f1.buf
  rw [← hi.pool] at hA
  rw [FVec.run_eq] at hrun
  cases hr : Vec.run (fixedAllocator R f1.pool) nd ops f1.vec m1 with
  | error e => rw [hr] at hrun; cases hrun
  | ok r =>
    rw [hr] at hrun
    cases hrun
    exact run_capacity hA nd ops hops hi.inv hr

/-- Instance: a fixed vector with two places overflows at the third element, on a release build. -/
example : (do
    let (f, m) ← FVec.newIn 2 7 (Mem.empty (α := Nat))
    let (_, f, _) ← f.runM .release 8 8 RawAlloc.bump.total true [.push 1, .push 2, .push 3, .pop] m
    let c ← f.vec.capacity
    .ok (c, f.hasOverflowed)) = (.ok (4, true) : Exec _) := by decide +kernel

example : TypeLayout 8 8 ∧ Representable 8 8 2 ∧
    (∀ c ∈ SeqOp.caps [.push 1, .push 2, .push 3, .pop] [] 2, Representable 8 8 c) ∧
    (∀ c ∈ SeqOp.caps [.push 1, .push 2, .push 3, .pop] [] 0, Representable 8 8 c) ∧
    SeqOp.run [.push 1, .push 2, .push 3, .pop] [] =
      .ok ([.unit, .unit, .unit, .elem (some 3)], [1, 2]) :=
  ⟨⟨by decide, ⟨3, by decide, by decide⟩, by decide, by decide⟩, by unfold Representable; decide,
    by unfold Representable; decide, by unfold Representable; decide, rfl⟩

end Verif
