import Verif.Machine.Pool
import Verif.LinkedList.CounterProofs
import Verif.Props.Pool

/-! Fixed lists in both build modes: the pool of `Verif.Machine.Pool`, the count of
`Verif.LinkedList.Counter`. -/

set_option autoImplicit false

namespace Verif
open Spec

variable {α N D σ : Type}

/-- `FixedList<T, N, DefaultAllocator>` in the build `B` (src/fixed_list/mod.rs:20-30,
src/fixed_list/conformant.rs:16-26). -/
def fixedListEnvM (B : Build) (P : Placer (LNode α) α) (size align : Nat) (nd : Bool) :
    LEnv α OPool :=
  ⟨size, align, nd, opoolNAllocM B LNode.uninit size align (defaultNAlloc P LNode.uninit false)⟩

/-- `fixedListNewIn` in the build `B` (src/fixed_list/mod.rs:42-64,
src/fixed_list/conformant.rs:38-58). -/
def fixedListNewInM (B : Build) (size align : Nat) (s buf len : Nat) (m : LMem α) :
    Exec (LList OPool × LMem α) := do
  let l : LList OPool := ⟨s, 0, OPool.withAllocator⟩
  let m ← l.initSentinel m
  let al ← OPool.initM B size align buf len
  .ok ({ l with al := al }, m)

/-- A fixed list created with its sentinel at `s` and its inline buffer of `len` bytes at `buf`, and
put through the calls `ops`, in the build `B`. -/
def fixedListHistoryM (B : Build) (P : Placer (LNode α) α) (size align : Nat) (nd : Bool)
    (s buf len fuel : Nat) (ops : List (ListOp α)) (m0 : LMem α) :
    Exec (List (Out α) × LList OPool × LMem α) := do
  let (l, m) ← fixedListNewInM B size align s buf len m0
  l.runW B (fixedListEnvM B P size align nd) fuel ops m

/-! ## Agreement -/

/-- What the pool frees when null cannot be freed, it frees in both builds. -/
theorem opoolNAllocM_dealloc_ok (B : Build) {u : N} {size align : Nat} {O : NAlloc N D Unit}
    {p b a : Nat} {s : OPool} {m : NMem N D} {r : OPool × NMem N D}
    (h : (opoolNAlloc u size align O).dealloc p b a s m = .ok r) :
    (opoolNAllocM B u size align O).dealloc p b a s m = .ok r := by
  by_cases hp : p = 0
  · subst hp
    by_cases hin : s.poolBegin ≤ 0 ∧ 0 ≤ s.pool.capacity
    · simp [opoolNAlloc, poolNAlloc, hin] at h
    · simp only [opoolNAlloc, if_neg hin] at h
      simp only [opoolNAllocM, if_neg hin]
      exact h
  · rw [opoolNAllocM_dealloc B u size align O hp]
    exact h

/-- The laws of the pool's nodes hold in both builds. -/
theorem NLaw.builds (B : Build) {u : N} {size align db da : Nat} {O : NAlloc N D Unit}
    {Inv : OPool → NMem N D → List Nat → Prop}
    (L : NLaw (opoolNAlloc u size align O) u size align db da Inv) :
    NLaw (opoolNAllocM B u size align O) u size align db da Inv where
  alloc h := by
    obtain ⟨p, a', m', h1, h2⟩ := L.alloc h
    exact ⟨p, a', m', by rw [opoolNAllocM_alloc]; exact h1, h2⟩
  dealloc h hp := by
    obtain ⟨a', m', h1, h2⟩ := L.dealloc h hp
    exact ⟨a', m', opoolNAllocM_dealloc_ok B h1, h2⟩
  frame := L.frame
  perm := L.perm

theorem fixedList_historyM {size align s buf len : Nat} {m0 : LMem α} (B : Build)
    (P : Placer (LNode α) α) (nd : Bool) (h : FixedObj m0 size align s buf len)
    (hend : buf + len < 2 ^ 64) (fuel : Nat) (ops : List (ListOp α))
    (hf : ListOp.peak ops [] < fuel) (hB : B = .release ∨ ListOp.peak ops [] < 2 ^ 32) :
    ∃ l m ps r, fixedListHistoryM B P size align nd s buf len fuel ops m0 =
        .ok (ListOp.outsU32 ops [], l.withSize ((ListOp.run ops []).2.length % 2 ^ 32), m) ∧
      l.head = s ∧
      Room m0 buf (roundUp align buf) size (roomFor size align buf len) s r ∧
      LRep (OInv m0 buf (roundUp align buf) size align (roomFor size align buf len)) m l ps
        (ListOp.run ops []).2 ∧
      m.dropped = m0.dropped ++ (if nd then ListOp.allDropped ops [] else []) ∧
      LKeep s [] m0 ps m := by
  obtain ⟨s0, hs0⟩ := Pool.init_total h.pow h.addr h.word h.reach
  have hi : OPool.init size align buf len = .ok ⟨s0, buf⟩ := by simp [OPool.init, hs0]
  have hiM : OPool.initM B size align buf len = .ok ⟨s0, buf⟩ := by
    unfold OPool.initM
    rw [Pool.initM_eq B h.pow h.word h.addr hend h.reach, hs0]
    rfl
  obtain ⟨r, hr, hobj⟩ := h.obj
  have R := Room.of_init hi h.free hr (Nat.le_of_lt h.lt) hobj
  have L : LLaw (fixedListEnvM B P size align nd)
      (OInv m0 buf (roundUp align buf) size align (roomFor size align buf len)) :=
    (OInv.law R P LNode.uninit (size * baseSize) baseAlign).builds B
  obtain ⟨l0, m1, e1, e2, e3, e4, e5⟩ := LRep.newIn (a := (⟨s0, buf⟩ : OPool)) h.sentinel L
    (OInv.init hi (by have := h.lt; omega) h.wf h.free)
  obtain ⟨l, m, ps, f1, f2, f3, f4, f5⟩ := LRep.runW L (B := B) (fuel := fuel) ops e4 hf hB
  have hnew : fixedListNewInM B size align s buf len m0 = .ok (l0, m1) := by
    simp only [LList.newIn] at e1
    obtain ⟨m1', g1, g2⟩ := Exec.bind_ok e1
    simp only [Except.ok.injEq, Prod.mk.injEq] at g2
    obtain ⟨rfl, rfl⟩ := g2
    have : (⟨s, 0, OPool.withAllocator⟩ : LList OPool).initSentinel m0 = .ok m1' := g1
    unfold fixedListNewInM
    simp only [this, Exec.ok_bind, hiM]
  have e0 : l0.withSize (([] : List α).length % 2 ^ 32) = l0 := by
    have := e4.size
    cases l0; simp only [LList.withSize] at this ⊢; simp [this]
  rw [e2] at f5
  rw [e0] at f1
  exact ⟨l, m, ps, r, by simp only [fixedListHistoryM, hnew, Exec.ok_bind, f1], f2.trans e2, R, f4,
    by rw [f3, e3]; rfl, e5.trans f5⟩

end Verif
