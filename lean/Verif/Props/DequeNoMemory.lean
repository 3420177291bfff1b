import Verif.Deque.NoMemoryProofs
import Verif.Props.Deque

/-!
# What a deque does when memory runs out (C113)

After any history with a working allocator, the allocator starts to return null pointers, which is
how the allocators of the crate report that there is no memory (src/allocator.rs:101-119).
-/

set_option autoImplicit false

namespace Verif
open Spec

variable {α : Type}

/-- C113, the part that holds.  However a deque was filled, a call that would not have allocated
does and returns without memory what it would have done and returned with it, which is what it
returns on a mathematical sequence; a push needs memory only if it starts a subarray, and one that
does not is among these calls. -/
theorem C113_other_calls_partial (E : DEnv α) (hS : 0 < E.S) (ops : List (DeqOp α)) (m0 : DMem α)
    {outs : List (Out α)} {d : Deque} {m : DMem α}
    (hrun : Deque.history E ops m0 = .ok (outs, d, m)) (op : DeqOp α) :
    ∃ d' m', d.step E op m = .ok ((op.step (DeqOp.run ops []).2).1, d', m') ∧
      ((op.isPush = true → m'.t.allocs = m.t.allocs) →
        d.stepN E op m = .ok ((op.step (DeqOp.run ops []).2).1, d', m')) := by
  obtain ⟨d0, m1, h1, h2, _⟩ := DInv.newIn E hS m0
  obtain ⟨d1, m2, drops, f1, f2, _⟩ := DInv.run ops h2
  simp only [Deque.history, h1, Exec.ok_bind, f1, Except.ok.injEq, Prod.mk.injEq] at hrun
  obtain ⟨rfl, rfl, rfl⟩ := hrun
  obtain ⟨d', m', g1, _⟩ := f2.step op
  refine ⟨d', m', g1, fun ha => ?_⟩
  obtain ⟨pb, lo, bo, bl, h⟩ := f2
  cases op with
  | pushBack x =>
    obtain ⟨⟨d3, m3⟩, k1, k2⟩ := Exec.of_bind_ok g1
    simp only [Except.ok.injEq, Prod.mk.injEq] at k2
    obtain ⟨k2, rfl, rfl⟩ := k2
    rcases h.pushBackN x k1 with ⟨_, _, e⟩ | ⟨_, e, _⟩
    · show (d1.pushBackN E x m2 >>= fun x => _) = _
      rw [e, ← k2]; rfl
    · have := ha rfl; omega
  | pushFront x =>
    obtain ⟨⟨d3, m3⟩, k1, k2⟩ := Exec.of_bind_ok g1
    simp only [Except.ok.injEq, Prod.mk.injEq] at k2
    obtain ⟨k2, rfl, rfl⟩ := k2
    rcases h.pushFrontN x k1 with ⟨_, _, e⟩ | ⟨_, e, _⟩
    · show (d1.pushFrontN E x m2 >>= fun x => _) = _
      rw [e, ← k2]; rfl
    · have := ha rfl; omega
  | _ => exact g1

/-- C113 is false: a push that would have allocated a subarray writes a null pointer into the
pointer array and computes an address from it, or copies its pointers to a null pointer: undefined
behaviour in safe code. -/
theorem C113_allocating_push_ub (E : DEnv α) (hS : 0 < E.S) (ops : List (DeqOp α)) (m0 : DMem α)
    {outs : List (Out α)} {d : Deque} {m : DMem α}
    (hrun : Deque.history E ops m0 = .ok (outs, d, m)) (op : DeqOp α) (hop : op.isPush = true)
    {o : Out α} {d' : Deque} {m' : DMem α} (hst : d.step E op m = .ok (o, d', m'))
    (hal : m'.t.allocs ≠ m.t.allocs) :
    d.stepN E op m = .error .ub := by
  obtain ⟨d0, m1, h1, h2, _⟩ := DInv.newIn E hS m0
  obtain ⟨d1, m2, drops, f1, f2, _⟩ := DInv.run ops h2
  simp only [Deque.history, h1, Exec.ok_bind, f1, Except.ok.injEq, Prod.mk.injEq] at hrun
  obtain ⟨rfl, rfl, rfl⟩ := hrun
  obtain ⟨pb, lo, bo, bl, h⟩ := f2
  cases op with
  | pushBack x =>
    obtain ⟨⟨d3, m3⟩, k1, k2⟩ := Exec.of_bind_ok hst
    simp only [Except.ok.injEq, Prod.mk.injEq] at k2
    obtain ⟨_, rfl, rfl⟩ := k2
    rcases h.pushBackN x k1 with ⟨_, e, _⟩ | ⟨_, _, e⟩
    · exact absurd e hal
    · show (d1.pushBackN E x m2 >>= fun x => _) = _
      rw [e]; rfl
  | pushFront x =>
    obtain ⟨⟨d3, m3⟩, k1, k2⟩ := Exec.of_bind_ok hst
    simp only [Except.ok.injEq, Prod.mk.injEq] at k2
    obtain ⟨_, rfl, rfl⟩ := k2
    rcases h.pushFrontN x k1 with ⟨_, e, _⟩ | ⟨_, _, e⟩
    · exact absurd e hal
    · show (d1.pushFrontN E x m2 >>= fun x => _) = _
      rw [e]; rfl
  | _ => cases hop

/-- C113 is false: however a deque was filled, as many pushes at one end as a subarray has elements
are enough to get there, and creating a deque needs no push. -/
theorem C113_pushes_soon_ub (E : DEnv α) (hS : 0 < E.S) (ops : List (DeqOp α)) (m0 : DMem α)
    {outs : List (Out α)} {d : Deque} {m : DMem α}
    (hrun : Deque.history E ops m0 = .ok (outs, d, m)) (ys : List α) (hy : E.S ≤ ys.length) :
    Deque.runN E (ys.map .pushBack) d m = .error .ub ∧
      Deque.runN E (ys.map .pushFront) d m = .error .ub ∧
      Deque.newInN E m = .error .ub := by
  obtain ⟨d0, m1, h1, h2, _⟩ := DInv.newIn E hS m0
  obtain ⟨d1, m2, drops, f1, ⟨pb, lo, bo, bl, h⟩, _⟩ := DInv.run ops h2
  simp only [Deque.history, h1, Exec.ok_bind, f1, Except.ok.injEq, Prod.mk.injEq] at hrun
  obtain ⟨rfl, rfl, rfl⟩ := hrun
  have hb := h.b_lt
  exact ⟨DInv.pushesBackN ys h (by omega), DInv.pushesFrontN ys h (by omega), rfl⟩

/-- Subarrays of two elements: there is room for one more element at the front and for none at the
back. -/
example : ∃ outs d m, Deque.history exampleEnv
      [.pushBack 1, .pushBack 2, .pushFront 3, .pushBack 4] ⟨Mem.empty, Mem.empty⟩ =
        .ok (outs, d, m) ∧
    (d.step exampleEnv (.pushFront 5) m).toOption.map (fun r => r.2.2.t.allocs) =
      some m.t.allocs ∧
    (d.step exampleEnv (.pushBack 5) m).toOption.map (fun r => r.2.2.t.allocs) =
      some (m.t.allocs + 1) :=
  ⟨_, _, _, rfl, by decide +kernel, by decide +kernel⟩

end Verif
