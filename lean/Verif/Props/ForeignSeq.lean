import Verif.Vector.Foreign
import Verif.Deque.Foreign
import Verif.LinkedList.Foreign
import Verif.Props.FixedVector
import Verif.Props.Deque
import Verif.Props.Pool

/-! C++ code reading vectors, deques and lists written by Rust (C112). -/

set_option autoImplicit false

namespace Verif
open Spec

variable {α : Type}

/-! ## C112 -/

/-- C112, vectors.  After any history of calls, a C++ loop from `begin()` to `end()` ends after as
many rounds as there are elements and visits exactly the elements, in order. -/
theorem C112_cxx_reads_vector (R : RawAlloc α) (nd : Bool) (m0 : Mem α) (ops : List (SeqOp α))
    (hops : nd = true → ∀ op ∈ ops, op.isSlice = false) {outs : List (Out α)} {xs : List α}
    (hspec : SeqOp.run ops [] = .ok (outs, xs)) :
    ∃ v m, Vec.run (defaultAllocator R) nd ops Vec.new m0 = .ok (outs, v, m) ∧
      ∀ fuel, xs.length < fuel → v.cxxLoop fuel m = .ok xs := by
  have h := VInv.run (defaultAllocator_lawful R) nd ops hops (VInv.new defaultFits m0)
  rw [hspec] at h
  obtain ⟨v, m, ds, cap, he, hi, _, _⟩ := h
  exact ⟨v, m, he, fun fuel hf => hi.cxxLoop hf⟩

/-- C112, fixed vectors: the same, in the inline buffer and after the move to the heap. -/
theorem C112_cxx_reads_fixed_vector (R : RawAlloc α) (nd : Bool) (n d : Nat) (hn : 0 < n)
    (m0 : Mem α) (hd : m0.live d = none) (ops : List (SeqOp α))
    (hops : nd = true → ∀ op ∈ ops, op.isSlice = false) {outs : List (Out α)} {xs : List α}
    (hspec : SeqOp.run ops [] = .ok (outs, xs)) :
    ∃ f1 m1 f m, FVec.newIn n d m0 = .ok (f1, m1) ∧ f1.run R nd ops m1 = .ok (outs, f, m) ∧
      ∀ fuel, xs.length < fuel → f.vec.cxxLoop fuel m = .ok xs := by
  obtain ⟨f1, m1, he1, hi1, _⟩ := FInvA.new hn m0 hd
  have hA := fixedAllocator_lawful R f1.buf
  rw [← hi1.pool] at hA
  have h := VInv.run hA nd ops hops hi1.inv
  rw [hspec] at h
  obtain ⟨v, m, ds, cap, he, hi, _, _⟩ := h
  exact ⟨f1, m1, { f1 with vec := v }, m, he1, by rw [FVec.run_eq, he]; rfl,
    fun fuel hf => hi.cxxLoop hf⟩

/-- C112, deques.  With the subarray size the crate uses for elements of `n` bytes, after any
history of calls: the C++ loops from `begin()` to `end()` and from `rbegin()` to `rend()` visit
exactly the elements, in order and in reverse order; `size()` is their number; and `operator[]`
gives the `i`-th of them. -/
theorem C112_cxx_reads_deque (E : DEnv α) (n : Nat) (ops : List (DeqOp α)) (m0 : DMem α)
    (hE : E.S = subarraySize n) {outs : List (Out α)} {d : Deque} {m : DMem α}
    (h : Deque.history E ops m0 = .ok (outs, d, m)) :
    (∀ fuel, (DeqOp.run ops []).2.length < fuel →
      DIt.cxxWalk E m d.e fuel d.b = .ok (DeqOp.run ops []).2 ∧
      DIt.cxxWalkBack E m d.b fuel d.e = .ok (DeqOp.run ops []).2.reverse) ∧
    d.cxxSize E = .ok ((DeqOp.run ops []).2.length : Int) ∧
    ∀ i x, (DeqOp.run ops []).2[i]? = some x → d.cxxIndex E i m = .ok x := by
  have hS : 0 < E.S := by rw [hE]; exact subarraySize_pos n
  have hdvd : E.S ∣ 16777216 := by
    rw [hE]
    unfold subarraySize
    split_ifs <;> decide
  obtain ⟨pb, lo, bo, bl, h⟩ := history_ok hS h
  refine ⟨fun fuel hf => ⟨?_, ?_⟩, h.cxxSize, fun i x hx => h.cxxIndex hdvd i hx⟩
  · have := h.cxxWalk _ 0 fuel (Nat.zero_add _) hf
    rw [h.b]
    simpa using this
  · have := h.cxxWalkBack _ fuel (Nat.le_refl _) hf
    rw [h.e]
    simpa using this

/-- C112, lists.  After any history of calls the C++ loops along `mpNext` and along `mpPrev` visit
exactly the elements, in order and in reverse order, and `mSize` is their number. -/
theorem C112_cxx_reads_list (P : Placer (LNode α) α) {size : Nat} (hsz : 0 < size) (align : Nat) (nd : Bool)
    (ops : List (ListOp α)) (m0 : LMem α) (hwf : m0.WF) (s : Nat) (hs : m0.node s ≠ none)
    {outs : List (Out α)} {l : LList Unit} {m : LMem α}
    (h : LList.history (listEnv P size align nd false) ops () s m0 = .ok (outs, l, m)) :
    (∀ fuel, (ListOp.run ops []).2.length < fuel →
      l.cxxLoop false fuel m = .ok (ListOp.run ops []).2 ∧
      l.cxxLoop true fuel m = .ok (ListOp.run ops []).2.reverse) ∧
    l.size = (ListOp.run ops []).2.length := by
  obtain ⟨ps, _, h, _⟩ := list_history_ok hsz hwf hs h
  exact ⟨fun fuel hf => ⟨h.cxxLoop false hf, h.cxxLoop true hf⟩, h.size⟩

/-- C112, fixed lists: the same, for nodes in the buffer inside the object and nodes from the heap
alike. -/
theorem C112_cxx_reads_fixed_list (P : Placer (LNode α) α) (nd : Bool) {m0 : LMem α}
    {size align s buf len : Nat} (hobj : FixedObj m0 size align s buf len) (ops : List (ListOp α))
    {outs : List (Out α)} {l : LList OPool} {m : LMem α}
    (h : fixedListHistory P size align nd s buf len ops m0 = .ok (outs, l, m)) :
    (∀ fuel, (ListOp.run ops []).2.length < fuel →
      l.cxxLoop false fuel m = .ok (ListOp.run ops []).2 ∧
      l.cxxLoop true fuel m = .ok (ListOp.run ops []).2.reverse) ∧
    l.size = (ListOp.run ops []).2.length := by
  obtain ⟨l', m', ps, r, e1, _, _, e4, _⟩ := fixedList_history P nd hobj ops
  rw [e1] at h
  simp only [Except.ok.injEq, Prod.mk.injEq] at h
  obtain ⟨_, rfl, rfl⟩ := h
  exact ⟨fun fuel hf => ⟨e4.cxxLoop false hf, e4.cxxLoop true hf⟩, e4.size⟩

/-- Non-vacuity of C112: a vector of three, a fixed vector of three beyond its two inline cells. -/
example : (do
    let (_, v, m) ← Vec.run (defaultAllocator RawAlloc.bump) true [.push 1, .push 2, .insert 0 3]
      Vec.new (Mem.empty : Mem Nat)
    let (f, m') ← FVec.newIn 2 5 (Mem.empty : Mem Nat)
    let (_, f, m') ← f.run RawAlloc.bump true [.push 1, .push 2, .insert 0 3] m'
    let xs ← v.cxxLoop 4 m
    let ys ← f.vec.cxxLoop 4 m'
    .ok (xs, ys)) = (.ok ([3, 1, 2], [3, 1, 2]) : Exec (List Nat × List Nat)) := rfl

/-- Non-vacuity of C112: a deque of elements of 100 bytes, four to a subarray, over three
subarrays. -/
example : ({ exampleEnv with S := subarraySize 100 } : DEnv Nat).S = subarraySize 100 ∧ (do
    let E : DEnv Nat := { exampleEnv with S := subarraySize 100 }
    let (_, d, m) ← Deque.history E
      [.pushBack 1, .pushBack 2, .pushBack 3, .pushBack 4, .pushBack 5, .pushFront 6, .pushFront 7]
      ⟨Mem.empty, Mem.empty⟩
    let xs ← DIt.cxxWalk E m d.e 8 d.b
    let ys ← DIt.cxxWalkBack E m d.b 8 d.e
    let k ← d.cxxSize E
    let x ← d.cxxIndex E 5 m
    .ok (xs, ys, k, x)) =
  (.ok ([7, 6, 1, 2, 3, 4, 5], [5, 4, 3, 2, 1, 6, 7], 7, 4) :
    Exec (List Nat × List Nat × Int × Nat)) := ⟨rfl, by decide +kernel⟩

/-- Non-vacuity of C112: a list of three. -/
example : (do
    let (_, l, m) ← LList.history (listEnv Placer.bump 24 8 true false)
      [.pushBack 1, .pushBack 2, .pushFront 3] () 64 exampleListMem
    let xs ← l.cxxLoop false 4 m
    let ys ← l.cxxLoop true 4 m
    .ok (xs, ys)) = (.ok ([3, 1, 2], [2, 1, 3]) : Exec (List Nat × List Nat)) := rfl

/-- Non-vacuity of C112: a fixed list of two inline nodes holding three elements. -/
example : FixedObj exampleFixedMem 24 8 64 128 (2 * 24) ∧ (do
    let (_, l, m) ← fixedListHistory Placer.bump 24 8 true 64 128 (2 * 24)
      [.pushBack 1, .pushBack 2, .pushFront 3] exampleFixedMem
    let xs ← l.cxxLoop false 4 m
    let ys ← l.cxxLoop true 4 m
    .ok (xs, ys)) = (.ok ([3, 1, 2], [2, 1, 3]) : Exec (List Nat × List Nat)) := by
  obtain ⟨h1, _, _⟩ := FixedObj.plain (m0 := exampleFixedMem) (size := 24) (align := 8) (s := 64)
    (buf := 128) (n := 2) exampleFixedMem_wf (by decide) (r := ⟨136, 8, false⟩) rfl (by decide)
    ⟨3, rfl⟩ (by decide) (by decide) (by decide) (by decide) (by
      intro q h1 _
      unfold exampleFixedMem
      simp only
      rw [if_neg (by omega)])
  exact ⟨h1, by decide +kernel⟩

end Verif
