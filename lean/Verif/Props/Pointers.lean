import Verif.Spec.Pointers
import Verif.Props.Deque
import Verif.Props.FixedTake
import Verif.Props.HashTable
import Verif.Props.LinkedList
import Verif.Props.Vector

/-!
# C125: pointers to elements

Each theorem takes a container after any history `ops`, a pointer to one of its elements, and any
further calls `more` that do not remove that element.
-/

set_option autoImplicit false

namespace Verif
open Spec

variable {α K V : Type}

/-! ## Vectors -/

section
variable {fits : Nat → Nat → Region → Nat → Prop} {keeps : Nat → Prop}
  {init : Block α → Nat → Prop} {A : Allocator α} {w : World α}

theorem VInvB.run_steady (hA : Lawful A fits keeps init) (nd : Bool) {b : Nat} {cap : Nat}
    (hcap : 0 < cap) : ∀ (ops : List (SeqOp α)) {m : Mem α} {v : Vec} {blk : Block α} {xs : List α},
    (nd = true → ∀ op ∈ ops, op.isSlice = false) → SeqOp.steady cap ops xs = true →
    VInvB keeps fits w m v b blk xs cap → ∀ {outs : List (Out α)} {ys : List α},
    SeqOp.run ops xs = .ok (outs, ys) →
    ∃ v' m' blk', v.run A nd ops m = .ok (outs, v', m') ∧
      VInvB keeps fits w m' v' b blk' ys cap ∧ m'.allocs = m.allocs := by
  intro ops
  induction ops with
  | nil =>
    intro m v blk xs _ _ h outs ys hs
    cases hs
    exact ⟨v, m, blk, rfl, h, rfl⟩
  | cons op ops ih =>
    intro m v blk xs hops hst h outs ys hs
    simp only [SeqOp.steady, Bool.and_eq_true, beq_iff_eq] at hst
    have hcl : op ≠ .clear := by
      rintro rfl
      have := hst.1
      simp only [SeqOp.capAfter] at this
      omega
    have h1 := h.step_room hA nd op (fun hn => hops hn op (by simp)) hcl hst.1
    cases ho : op.step xs with
    | error e => simp [SeqOp.run, ho] at hs
    | ok r =>
      obtain ⟨o, zs⟩ := r
      rw [ho] at h1 hst
      obtain ⟨v1, m1, blk1, ds, nc, e1, i1, f1⟩ := h1
      cases hr : SeqOp.run ops zs with
      | error e => simp [SeqOp.run, ho, hr] at hs
      | ok r =>
        obtain ⟨os, us⟩ := r
        simp only [SeqOp.run, ho, hr, Except.ok.injEq, Prod.mk.injEq] at hs
        obtain ⟨rfl, rfl⟩ := hs
        obtain ⟨v2, m2, blk2, e2, i2, a2⟩ :=
          ih (fun hn op' hop' => hops hn op' (by simp [hop'])) hst.2 i1 hr
        exact ⟨v2, m2, blk2, by simp [Vec.run, e1, e2], i2, by rw [a2, f1.allocs, Nat.add_zero]⟩

theorem VInvB.read {m : Mem α} {v : Vec} {b : Nat} {blk : Block α} {xs : List α} {cap : Nat}
    (h : VInvB keeps fits w m v b blk xs cap) {i : Nat} (hi : i < xs.length) :
    m.read (.loc b i) = .ok xs[i] := by
  obtain ⟨_, w', _, ho⟩ := h
  have h1 := ho.cells i hi
  have h2 := ho.len_le
  have h3 := ho.cap_le
  simp [Mem.read, Mem.cell, ho.live_b, h1, hi, show i < blk.size by omega]

theorem VInv.pointers (hA : Lawful A fits keeps init) (nd : Bool) {m : Mem α} {v : Vec} {xs : List α}
    {cap : Nat} (hinv : VInv keeps fits w m v xs cap) {more : List (SeqOp α)}
    (hops : nd = true → ∀ op ∈ more, op.isSlice = false) (hsteady : SeqOp.steady cap more xs = true)
    {outs' : List (Out α)} {ys : List α} (hmore : SeqOp.run more xs = .ok (outs', ys))
    {i : Nat} (hi : i < xs.length) :
    ∃ p v' m', m.ptrAdd v.beginPtr i = .ok p ∧ m.read p = .ok xs[i] ∧
      v.run A nd more m = .ok (outs', v', m') ∧ m'.allocs = m.allocs ∧
      v'.beginPtr = v.beginPtr ∧ ∀ hi' : i < ys.length, m'.read p = .ok ys[i] := by
  have hc : 0 < cap := by have := hinv.len_le; omega
  obtain ⟨hk, w', hw, hn | ⟨b, blk, ho⟩⟩ := hinv
  · exact absurd hn.cap0 (by omega)
  · have hB : VInvB keeps fits w m v b blk xs cap := ⟨hk, w', hw, ho⟩
    obtain ⟨v', m', blk', e1, i1, a1⟩ := hB.run_steady hA nd hc more hops hsteady hmore
    refine ⟨.loc b i, v', m', ?_, hB.read hi, e1, a1, by rw [i1.ptrs, hB.ptrs], fun h => i1.read h⟩
    have h2 := ho.len_le
    have h3 := ho.cap_le
    rw [ho.ptrs]
    have := Mem.ptrAdd_loc ho.live_b (show 0 + i ≤ blk.size by omega)
    simpa using this

end

/-- C125 for vectors.  As long as no call changes the capacity, the pointer obtained to the `i`-th
element points to the `i`-th element, and nothing is allocated. -/
theorem C125_vector_pointers (R : RawAlloc α) (nd : Bool) (m0 : Mem α) (ops more : List (SeqOp α))
    (hops : nd = true → ∀ op ∈ ops ++ more, op.isSlice = false)
    {outs outs' : List (Out α)} {xs ys : List α} {v : Vec} {m : Mem α} {cap : Nat}
    (hrun : Vec.run (defaultAllocator R) nd ops Vec.new m0 = .ok (outs, v, m))
    (hxs : v.asSlice m = .ok xs) (hcap : v.capacity = .ok cap)
    (hsteady : SeqOp.steady cap more xs = true) (hmore : SeqOp.run more xs = .ok (outs', ys))
    {i : Nat} (hi : i < xs.length) :
    ∃ p v' m', m.ptrAdd v.beginPtr i = .ok p ∧ m.read p = .ok xs[i] ∧
      v.run (defaultAllocator R) nd more m = .ok (outs', v', m') ∧ m'.allocs = m.allocs ∧
      v'.beginPtr = v.beginPtr ∧ ∀ hi' : i < ys.length, m'.read p = .ok ys[i] := by
  obtain ⟨xs', ds, cap', hspec, hinv, _, _⟩ := reachable_inv R nd m0 ops
    (fun hn o ho => hops hn o (by simp [ho])) hrun
  rw [hinv.slice] at hxs
  cases hxs
  rw [hinv.capacity] at hcap
  cases hcap
  exact hinv.pointers (defaultAllocator_lawful R) nd (fun hn o ho => hops hn o (by simp [ho])) hsteady
    hmore hi

/-- Capacity four: the pointer to the first element sees what happens to that place. -/
example :
    let ops : List (SeqOp Nat) := [.reserve 4, .push 1, .push 2]
    let more : List (SeqOp Nat) := [.push 3, .insert 0 7, .remove 1, .set 0 9, .pop]
    SeqOp.steady 4 more [1, 2] = true ∧
    (do
      let (_, v, m) ← Vec.run (defaultAllocator RawAlloc.bump) true ops Vec.new Mem.empty
      let p ← m.ptrAdd v.beginPtr 0
      let x ← m.read p
      let (_, v', m') ← v.run (defaultAllocator RawAlloc.bump) true more m
      .ok (x, v.capacity, v'.asSlice m', m'.read p)) =
    (.ok (1, .ok 4, .ok [9, 2], .ok 9) : Exec _) := ⟨rfl, rfl⟩

/-- C125 for fixed vectors, inline or overflowed. -/
theorem C125_fixed_vector_pointers (R : RawAlloc α) (nd : Bool) (n d : Nat) (hn : 0 < n) (m0 : Mem α)
    (hd : m0.live d = none) (ops more : List (SeqOp α))
    (hops : nd = true → ∀ op ∈ ops ++ more, op.isSlice = false)
    {outs outs' : List (Out α)} {xs ys : List α} (hspec : SeqOp.run ops [] = .ok (outs, xs))
    {f0 f : FVec} {m1 m : Mem α} (hnew : FVec.newIn n d m0 = .ok (f0, m1))
    (hrun : f0.run R nd ops m1 = .ok (outs, f, m)) {cap : Nat} (hcap : f.vec.capacity = .ok cap)
    (hsteady : SeqOp.steady cap more xs = true) (hmore : SeqOp.run more xs = .ok (outs', ys))
    {i : Nat} (hi : i < xs.length) :
    ∃ p f' m', m.ptrAdd f.vec.beginPtr i = .ok p ∧ m.read p = .ok xs[i] ∧
      f.run R nd more m = .ok (outs', f', m') ∧ m'.allocs = m.allocs ∧
      f'.vec.beginPtr = f.vec.beginPtr ∧ ∀ hi' : i < ys.length, m'.read p = .ok ys[i] := by
  obtain ⟨cap', _, _, _, hi0, _⟩ := fixed_history R nd hn hd
    (fun h o ho => hops h o (by simp [ho])) hspec hnew hrun
  rw [hi0.inv.capacity] at hcap
  cases hcap
  obtain ⟨p, v', m', h1, h2, h3, h4⟩ := hi0.inv.pointers (fixedAllocator_lawful R f.buf) nd
    (fun h o ho => hops h o (by simp [ho])) hsteady hmore hi
  rw [← hi0.pool] at h3
  exact ⟨p, { f with vec := v' }, m', h1, h2, by rw [FVec.run_eq, h3]; rfl, h4⟩

/-- Inline, with four slots. -/
example :
    let more : List (SeqOp Nat) := [.push 3, .insert 0 7, .remove 1, .pop]
    SeqOp.steady 4 more [1, 2] = true ∧
    (do
      let (f, m) ← FVec.newIn 4 7 (Mem.empty : Mem Nat)
      let (_, f, m) ← f.run RawAlloc.bump true [.push 1, .push 2] m
      let p ← m.ptrAdd f.vec.beginPtr 1
      let x ← m.read p
      let (_, f', m') ← f.run RawAlloc.bump true more m
      .ok (x, f.vec.capacity, f'.vec.asSlice m', m'.read p)) =
    (.ok (2, .ok 4, .ok [7, 2], .ok 2) : Exec _) := ⟨rfl, rfl⟩

/-! ## Deques -/

theorem DRep.track {E : DEnv α} {m0 : DMem α} : ∀ (ops : List (DeqOp α)) {m : DMem α} {d : Deque}
    {pb lo bo : Nat} {bl : List Nat} {xs : List α} {i i' : Nat},
    DRep E m0.t.live m0.p.live m d pb lo bo bl xs → i < xs.length →
    DeqOp.placeAfter ops xs i = some i' →
    ∃ d' m' pb' lo' bo' bl', d.run E ops m = .ok ((DeqOp.run ops xs).1, d', m') ∧
      DRep E m0.t.live m0.p.live m' d' pb' lo' bo' bl' (DeqOp.run ops xs).2 ∧
      i' < (DeqOp.run ops xs).2.length ∧
      cellPtr E.S bl' (bo' + i') = cellPtr E.S bl (bo + i) := by
  intro ops
  induction ops with
  | nil =>
    intro m d pb lo bo bl xs i i' h hi hp
    cases hp
    exact ⟨d, m, pb, lo, bo, bl, rfl, h, hi, rfl⟩
  | cons op ops ih =>
    intro m d pb lo bo bl xs i i' h hi hp
    simp only [DeqOp.placeAfter] at hp
    cases hpl : op.place xs.length i with
    | none => rw [hpl] at hp; cases hp
    | some j =>
      rw [hpl] at hp
      simp only at hp
      obtain ⟨d1, m1, pb1, lo1, bo1, bl1, e1, r1, l1, c1⟩ :
          ∃ d1 m1 pb1 lo1 bo1 bl1, d.step E op m = .ok ((op.step xs).1, d1, m1) ∧
            DRep E m0.t.live m0.p.live m1 d1 pb1 lo1 bo1 bl1 (op.step xs).2 ∧
            j < (op.step xs).2.length ∧ cellPtr E.S bl1 (bo1 + j) = cellPtr E.S bl (bo + i) := by
        have hread : ∀ (hop : d.step E op m = .ok ((op.step xs).1, d, m)), (op.step xs).2 = xs →
            j = i → ∃ d1 m1 pb1 lo1 bo1 bl1, d.step E op m = .ok ((op.step xs).1, d1, m1) ∧
            DRep E m0.t.live m0.p.live m1 d1 pb1 lo1 bo1 bl1 (op.step xs).2 ∧
            j < (op.step xs).2.length ∧ cellPtr E.S bl1 (bo1 + j) = cellPtr E.S bl (bo + i) := by
          intro h1 h2 h3
          exact ⟨d, m, pb, lo, bo, bl, h1, by rw [h2]; exact h, by rw [h2, h3]; exact hi, by rw [h3]⟩
        cases op with
        | pushBack x =>
          cases hpl
          obtain ⟨d', m', pb', lo', bl', h1, h2, _, h4, _⟩ := h.pushBack x
          exact ⟨d', m', _, _, _, _, by simp [Deque.step, h1, DeqOp.step], h2,
            by simp [DeqOp.step]; omega, h4 i hi⟩
        | pushFront x =>
          cases hpl
          obtain ⟨d', m', pb', lo', bo', bl', h1, h2, _, h4, _⟩ := h.pushFront x
          exact ⟨d', m', _, _, _, _, by simp [Deque.step, h1, DeqOp.step], h2,
            by simp [DeqOp.step]; omega, h4 i hi⟩
        | popBack =>
          simp only [DeqOp.place] at hpl
          split_ifs at hpl with hl
          cases hpl
          obtain ⟨d', m', bl', h1, h2, _, h4⟩ := h.popBack
          exact ⟨d', m', _, _, _, _, by simp [Deque.step, h1, DeqOp.step], h2,
            by simp [DeqOp.step]; omega, h4 i (by omega)⟩
        | popFront =>
          simp only [DeqOp.place] at hpl
          split_ifs at hpl with hl
          cases hpl
          obtain ⟨d', m', lo', bo', bl', h1, h2, _, h4, _⟩ := h.popFront
          refine ⟨d', m', _, _, _, _, by simp [Deque.step, h1, DeqOp.step], h2,
            by simp [DeqOp.step]; omega, ?_⟩
          have := h4 (i - 1) (by omega)
          rwa [show i - 1 + 1 = i by omega] at this
        | setFront x =>
          cases hpl
          obtain ⟨m', h1, h2, _⟩ := h.setFront x
          have hne : xs ≠ [] := by rintro rfl; simp at hi
          exact ⟨d, m', _, _, _, _, by simp [Deque.step, h1, DeqOp.step], h2,
            by simp [DeqOp.step, hne]; omega, rfl⟩
        | setBack x =>
          cases hpl
          obtain ⟨m', h1, h2, _⟩ := h.setBack x
          have hne : xs ≠ [] := by rintro rfl; simp at hi
          exact ⟨d, m', _, _, _, _, by simp [Deque.step, h1, DeqOp.step], h2,
            by simp [DeqOp.step, hne]; omega, rfl⟩
        | remove k => cases hpl
        | front =>
          cases hpl
          exact hread (by simp [Deque.step, h.front, DeqOp.step]) rfl rfl
        | back =>
          cases hpl
          exact hread (by simp [Deque.step, h.back, DeqOp.step]) rfl rfl
        | len =>
          cases hpl
          exact hread (by simp [Deque.step, h.length, DeqOp.step]) rfl rfl
        | isEmpty =>
          cases hpl
          exact hread (by simp [Deque.step, h.isEmpty, DeqOp.step]) rfl rfl
      obtain ⟨d2, m2, pb2, lo2, bo2, bl2, e2, r2, l2, c2⟩ := ih r1 l1 hp
      exact ⟨d2, m2, pb2, lo2, bo2, bl2, by simp [Deque.run, e1, e2, DeqOp.run],
        by simpa [DeqOp.run] using r2, by simpa [DeqOp.run] using l2, c2.trans c1⟩

/-- C125 for deques: pushes and pops at the ends, in any number and order, leave a pointer to an
element that is not popped pointing to that element, wherever it now is in the deque. -/
theorem C125_deque_pointers (E : DEnv α) (hS : 0 < E.S) (ops more : List (DeqOp α)) (m0 : DMem α)
    {outs : List (Out α)} {d : Deque} {m : DMem α} {ps : List Ptr} {i i' : Nat} {p : Ptr}
    (h : Deque.history E ops m0 = .ok (outs, d, m)) (hps : d.addrs E m = .ok ps)
    (hp : ps[i]? = some p) (hi' : DeqOp.placeAfter more (DeqOp.run ops []).2 i = some i') :
    ∃ d' m' ps' y, d.run E more m = .ok ((DeqOp.run more (DeqOp.run ops []).2).1, d', m') ∧
      d'.addrs E m' = .ok ps' ∧ ps'[i']? = some p ∧
      (DeqOp.run more (DeqOp.run ops []).2).2[i']? = some y ∧ m'.t.read p = .ok y := by
  obtain ⟨pb, lo, bo, bl, h⟩ := history_ok hS h
  generalize (DeqOp.run ops []).2 = xs at *
  obtain ⟨hlen, hcell⟩ := h.addrs_length hps
  have hi : i < xs.length := by
    have := (List.getElem?_eq_some_iff.1 hp).1
    omega
  rw [hcell i hi] at hp
  cases hp
  obtain ⟨d', m', pb', lo', bo', bl', e, r, l, c⟩ := DRep.track more h hi hi'
  refine ⟨d', m', _, (DeqOp.run more xs).2[i'], e, r.addrs, ?_, List.getElem?_eq_getElem l, ?_⟩
  · simp [l, c]
  · rw [← c]
    exact r.vals i' _ (List.getElem?_eq_getElem l)

/-- The pointer to 1 while subarrays and the pointer array are allocated and freed around it. -/
example : (do
    let (_, d, m) ← Deque.history exampleEnv [.pushBack 0, .pushBack 1] ⟨Mem.empty, Mem.empty⟩
    let ps ← d.addrs exampleEnv m
    let more := List.replicate 9 (DeqOp.pushFront 4) ++ List.replicate 9 (.pushBack 5) ++
      List.replicate 10 .popFront
    let (_, d', m') ← d.run exampleEnv more m
    let ps' ← d'.addrs exampleEnv m'
    .ok (DeqOp.placeAfter more [0, 1] 1, ps[1]?.map (m.t.read ·), decide (ps[1]? = ps'[0]?),
      ps[1]?.map (m'.t.read ·))) =
  (.ok (some 0, some (.ok 1), true, some (.ok 1)) : Exec _) := rfl

/-! ## Lists -/

theorem LRep.track {σ : Type} {E : LEnv α σ} {Inv : σ → LMem α → List Nat → Prop} (L : LLaw E Inv) :
    ∀ (ops : List (ListOp α)) {m : LMem α} {l : LList σ} {ps : List Nat} {xs : List α} {i i' p : Nat},
    LRep Inv m l ps xs → ps[i]? = some p → ListOp.placeAfter ops xs i = some i' →
    ∃ l' m' ps', l.run E ops m = .ok ((ListOp.run ops xs).1, l', m') ∧
      LRep Inv m' l' ps' (ListOp.run ops xs).2 ∧ ps'[i']? = some p := by
  intro ops
  induction ops with
  | nil =>
    intro m l ps xs i i' p h hp hi'
    cases hi'
    exact ⟨l, m, ps, rfl, h, hp⟩
  | cons op ops ih =>
    intro m l ps xs i i' p h hp hi'
    simp only [ListOp.placeAfter] at hi'
    cases hpl : op.place xs.length i with
    | none => rw [hpl] at hi'; cases hi'
    | some j =>
      rw [hpl] at hi'
      simp only at hi'
      obtain ⟨l1, m1, ps1, e1, _, _, r1, _, q1⟩ := h.step L op
      have hlen := h.length
      have hi := (List.getElem?_eq_some_iff.1 hp).1
      have hj : ps1[j]? = some p := by
        cases op with
        | pushBack x =>
          cases hpl
          obtain ⟨q, rfl⟩ := q1
          rw [List.getElem?_append_left hi]; exact hp
        | pushFront x =>
          cases hpl
          obtain ⟨q, rfl⟩ := q1
          simpa using hp
        | popBack =>
          simp only [ListOp.place] at hpl
          split_ifs at hpl with hl
          cases hpl
          cases q1
          rw [List.getElem?_dropLast, if_pos (by omega)]
          exact hp
        | popFront =>
          simp only [ListOp.place] at hpl
          split_ifs at hpl with hl
          cases hpl
          cases q1
          rw [List.getElem?_tail, show i - 1 + 1 = i by omega]
          exact hp
        | clear => cases hpl
        | extend ys =>
          cases hpl
          obtain ⟨qs, _, rfl⟩ := q1
          rw [List.getElem?_append_left hi]; exact hp
        | front | back | setFront x | setBack x | len | isEmpty =>
          cases hpl
          cases q1
          exact hp
      obtain ⟨l2, m2, ps2, e2, r2, q2⟩ := ih r1 hj hi'
      exact ⟨l2, m2, ps2, by simp [LList.run, e1, e2, ListOp.run], by simpa [ListOp.run] using r2, q2⟩

/-- C125 for lists: no further calls but the one that takes the element off the list make a pointer to it
point elsewhere. -/
theorem C125_list_pointers (P : Placer (LNode α) α) {size : Nat} (hsz : 0 < size) (align : Nat)
    (nd : Bool) (ops more : List (ListOp α)) (m0 : LMem α) (hwf : m0.WF)
    (s : Nat) (hs : m0.node s ≠ none) {outs : List (Out α)} {l : LList Unit} {m : LMem α}
    {ps : List Nat} {i i' p : Nat}
    (h : LList.history (listEnv P size align nd false) ops () s m0 = .ok (outs, l, m))
    (hps : l.addrs m = .ok ps) (hp : ps[i]? = some p)
    (hi' : ListOp.placeAfter more (ListOp.run ops []).2 i = some i') :
    ∃ l' m' ps' y, l.run (listEnv P size align nd false) more m =
        .ok ((ListOp.run more (ListOp.run ops []).2).1, l', m') ∧
      l'.addrs m' = .ok ps' ∧ ps'[i']? = some p ∧
      (ListOp.run more (ListOp.run ops []).2).2[i']? = some y ∧ LMem.val m' p = .ok y := by
  obtain ⟨ps', _, h, _⟩ := list_history_ok hsz hwf hs h
  rw [h.addrs] at hps
  cases hps
  obtain ⟨l', m', ps', e, r, q⟩ := h.track (listEnv_law P align nd hsz m0) more hp hi'
  have hl : i' < (ListOp.run more (ListOp.run ops []).2).2.length := by
    have := (List.getElem?_eq_some_iff.1 q).1
    have := r.length
    omega
  refine ⟨l', m', ps', _, e, r.addrs, q, List.getElem?_eq_getElem hl, ?_⟩
  have := congrArg (fun zs => zs[i']?) r.vals
  simpa [q, List.getElem?_eq_getElem hl] using this

/-- The pointer to 2. -/
example : (do
    let E := listEnv Placer.bump 24 8 true false
    let (_, l, m) ← LList.history E [.pushBack 1, .pushBack 2, .pushBack 3] () 64 exampleListMem
    let ps ← l.addrs m
    let more := [.popFront, .pushFront 7, .extend [8, 9], .popFront, .setFront 5, .popBack]
    let (_, l', m') ← l.run E more m
    let ps' ← l'.addrs m'
    .ok (ListOp.placeAfter more [1, 2, 3] 1, decide (ps[1]? = ps'[0]?),
      ps[1]?.map (LMem.val m ·), ps[1]?.map (LMem.val m' ·))) =
  (.ok (some 0, true, some (.ok 2), some (.ok 5)) : Exec _) := rfl

/-! ## Hash maps -/

/-- A call that spares the entry of a key leaves it bound, under the same key. -/
theorem lookup_step_spares {eq : K → K → Bool} (he : PartialEquiv eq) {s : List (K × V)}
    (hd : Distinct eq s) {k : K} {v : V} {op : MapOp K V} (hs : op.spares eq k = true)
    (hl : lookup eq s k = some (k, v)) : ∃ v', lookup eq (op.step eq s).2 k = some (k, v') := by
  have key : ∀ (k' : K) (p : K × V), eq k' k = true → lookup eq s k' = some p → p.1 = k := by
    intro k' p hk hp
    have h1 := (lookup_some he hd).1 hp
    have h2 : lookup eq s k = some p := (lookup_some he hd).2 ⟨h1.1, he.trans _ _ _ h1.2 hk⟩
    rw [hl] at h2
    cases h2
    rfl
  cases op with
  | insert k' v' =>
    rw [lookup_step_insert he hd]
    split_ifs with hk
    · cases hp : lookup eq s k' with
      | none =>
        have h1 := (lookup_some he hd).1 hl
        have : lookup eq s k' = some (k, v) :=
          (lookup_some he hd).2 ⟨h1.1, he.symm _ _ hk⟩
        rw [hp] at this
        cases this
      | some p => exact ⟨v', by simp [key k' p hk hp]⟩
    · exact ⟨v, hl⟩
  | remove k' =>
    rw [lookup_remove he]
    simp only [MapOp.spares, Bool.not_eq_true'] at hs
    exact ⟨v, by simp [hs, hl]⟩
  | removeEntry k' =>
    rw [show ((MapOp.removeEntry k' : MapOp K V).step eq s).2 =
      ((MapOp.remove k' : MapOp K V).step eq s).2 from rfl, lookup_remove he]
    simp only [MapOp.spares, Bool.not_eq_true'] at hs
    exact ⟨v, by simp [hs, hl]⟩
  | modify k' f =>
    simp only [MapOp.step]
    cases h : lookup eq s k' with
    | none => exact ⟨v, hl⟩
    | some p =>
      simp only [lookup_setVal he hd h]
      split_ifs with hk
      · exact ⟨_, by rw [key k' p hk h]⟩
      · exact ⟨v, hl⟩
  | entry k' f v' =>
    rw [lookup_step_entry he hd]
    split_ifs with hk
    · cases hp : lookup eq s k' with
      | none =>
        have h1 := (lookup_some he hd).1 hl
        have : lookup eq s k' = some (k, v) :=
          (lookup_some he hd).2 ⟨h1.1, he.symm _ _ hk⟩
        rw [hp] at this
        cases this
      | some p => exact ⟨f p.2, by simp [key k' p hk hp]⟩
    · exact ⟨v, hl⟩
  | entryKey k' =>
    simp only [MapOp.step]
    cases h : lookup eq s k' <;> exact ⟨v, hl⟩
  | get _ => exact ⟨v, hl⟩
  | contains _ => exact ⟨v, hl⟩
  | len => exact ⟨v, hl⟩
  | isEmpty => exact ⟨v, hl⟩
  | clear => cases hs

theorem HRep.track {σ : Type} {E : HEnv K V σ} {Inv : σ → HNMem K V → List Nat → Prop}
    {w : World Nat} {wn : Nat → Option (Option (HCell K V))}
    (L : HLaw E Inv) (he : PartialEquiv E.eq) (hh : HashOk E) {k : K} (hk : E.eq k k = true) {p : Nat} :
    ∀ (more : List (MapOp K V)) {m : HMem K V} {t : HTable σ} {peak : Nat} {bl : List Nat}
      {cs : List (List (Nat × K × V))} {v : V},
    HRep True E Inv w wn m t peak bl cs → MapOp.peak E.eq more (ents cs) ≤ maxEntries →
    (∀ op ∈ more, op.spares E.eq k = true) → (p, k, v) ∈ cs.flatten →
    ∃ outs t' m' peak' bl' cs' v', t.run E more m = .ok (outs, t', m') ∧
      HRep True E Inv w wn m' t' peak' bl' cs' ∧ (p, k, v') ∈ cs'.flatten ∧
      outs = (MapOp.run E.eq more (ents cs)).1 ∧
      (ents cs').Perm (MapOp.run E.eq more (ents cs)).2 := by
  intro more
  induction more with
  | nil =>
    intro m t peak bl cs v h _ _ hm
    exact ⟨[], t, m, peak, bl, cs, v, rfl, h, hm, rfl, .refl _⟩
  | cons op more ih =>
    intro m t peak bl cs v h hmax hsp hm
    have hle := le_peak E.eq more (op.step E.eq (ents cs)).2
    simp only [MapOp.peak] at hmax
    obtain ⟨t1, m1, bl1, cs1, e1, e2⟩ := h.step L he hh op (by omega)
    have hd := h.core.distinct
    have hin : (k, v) ∈ ents cs := by
      simp only [ents, List.mem_map]
      exact ⟨(p, k, v), hm, rfl⟩
    have hl : lookup E.eq (ents cs) k = some (k, v) := (lookup_some he hd).2 ⟨hin, hk⟩
    obtain ⟨v1, hl1⟩ := lookup_step_spares he hd (hsp op (by simp)) hl
    have hd1 := e2.rep.core.distinct
    rw [← lookup_perm he e2.perm hd1] at hl1
    have hin1 := ((lookup_some he hd1).1 hl1).1
    simp only [ents, List.mem_map] at hin1
    obtain ⟨⟨p1, k1, v1'⟩, hm1, hq⟩ := hin1
    cases hq
    have hst := (e2.stable _ hm _ hm1 hk).1
    simp only at hst
    subst hst
    obtain ⟨a1, a2⟩ := allDrops_perm he more e2.perm hd1
    obtain ⟨r1, r2⟩ := run_perm he more e2.perm hd1
    obtain ⟨outs, t2, m2, pk2, bl2, cs2, v2, f1, f2, f3, f4, f5⟩ := ih e2.rep (by rw [a2]; omega)
      (fun o ho => hsp o (by simp [ho])) hm1
    exact ⟨(op.step E.eq (ents cs)).1 :: outs, t2, m2, pk2, bl2, cs2, v2,
      by simp only [HTable.run, e1, Exec.ok_bind, f1], f2, f3,
      by simp only [MapOp.run]; rw [f4, r1], f5.trans r2⟩

/-- C125 for hash maps: as long as no call removes the entry, a pointer to it points to it, through any
number of insertions, removals of others and rehashes; the value there is the one a lookup finds.
(`dump` lists the nodes: address, key and value.) -/
theorem C125_hash_pointers {E : HEnv K V Unit} {m0 : HMem K V} (S : HSetting E m0)
    (ops more : List (MapOp K V))
    (hpk : MapOp.peak E.eq ops [] ≤ 2557710464)
    (hpk' : MapOp.peak E.eq more (MapOp.run E.eq ops []).2 ≤ 2557710464)
    {outs : List (MapOut K V)} {t : HTable Unit} {m : HMem K V}
    (h : HTable.history E ops m0 = .ok (outs, t, m)) {cs : List (List (Nat × K × V))}
    (hdump : t.dump m = .ok cs) {p : Nat} {k : K} {v : V} (hp : (p, k, v) ∈ cs.flatten)
    (hk : E.eq k k = true) (hmore : ∀ op ∈ more, op.spares E.eq k = true) :
    ∃ t' m' cs' v', t.run E more m =
        .ok ((MapOp.run E.eq more (MapOp.run E.eq ops []).2).1, t', m') ∧
      t'.dump m' = .ok cs' ∧ (p, k, v') ∈ cs'.flatten ∧ t'.get E k m' = .ok (some (k, v')) ∧
      lookup E.eq (MapOp.run E.eq more (MapOp.run E.eq ops []).2).2 k = some (k, v') := by
  obtain ⟨bl, cs0, A⟩ := S.after hpk h
  rw [A.rep.core.dump] at hdump
  cases hdump
  obtain ⟨_, a2⟩ := allDrops_perm S.equiv more A.perm A.rep.core.distinct
  obtain ⟨r1, r2⟩ := run_perm S.equiv more A.perm A.rep.core.distinct
  obtain ⟨outs', t', m', pk', bl', cs', v', f1, f2, f3, f4, f5⟩ :=
    A.rep.track S.law S.equiv S.hash hk more (by rw [a2]; exact hpk') hmore hp
  have hd := f2.core.distinct
  have hl : lookup E.eq (ents cs') k = some (k, v') :=
    (lookup_some S.equiv hd).2 ⟨by simp only [ents, List.mem_map]; exact ⟨_, f3, rfl⟩, hk⟩
  refine ⟨t', m', cs', v', by rw [f1, f4, r1], f2.core.dump, f3, ?_, ?_⟩
  · rw [f2.core.get S.equiv S.hash, hl]
  · rw [← lookup_perm S.equiv (f5.trans r2) hd, hl]

/-- The pointer to the entry of 1 while the table grows from 2 to 5 and 11 buckets. -/
example : (do
    let (_, t, m) ← HTable.history (exampleHash (· % 100)) [.insert 1 10, .insert 7 70] exampleHashMem
    let more : List (MapOp Nat Nat) := [.insert 6 60, .insert 11 3, .remove 7, .insert 1 12,
      .insert 4 4, .insert 5 5, .insert 9 9, .removeEntry 4, .modify 1 (· + 1)]
    let (_, t', m') ← t.run (exampleHash (· % 100)) more m
    .ok [(t.bucketCount, (← t.dump m).flatten.filter fun n => n.2.1 == 1),
      (t'.bucketCount, (← t'.dump m').flatten.filter fun n => n.2.1 == 1)]) =
  (.ok [(2, [(8, 1, 10)]), (11, [(8, 1, 13)])] : Exec (List (Nat × List (Nat × Nat × Nat)))) := by
  decide +kernel

end Verif
