import Verif.FixedVector.Take
import Verif.Props.FixedVector

/-!
# C124: the vector inside a `FixedVector`, taken out

`n` is `NODE_COUNT`, `d` the place of the object (any storage not in use), `R` the overflow
allocator, `m0` the memory before, `ops` any history of the `FixedVector`.
-/

set_option autoImplicit false

namespace Verif
open Spec

variable {α : Type}

/-- A history leads to an object as described by `FInvA`. -/
theorem fixed_history (R : RawAlloc α) (nd : Bool) {n d : Nat} (hn : 0 < n) {m0 : Mem α}
    (hd : m0.live d = none) {ops : List (SeqOp α)}
    (hops : nd = true → ∀ op ∈ ops, op.isSlice = false) {outs : List (Out α)} {xs : List α}
    (hspec : SeqOp.run ops [] = .ok (outs, xs)) {f1 f : FVec} {m1 m : Mem α}
    (hnew : FVec.newIn n d m0 = .ok (f1, m1)) (hrun : f1.run R nd ops m1 = .ok (outs, f, m)) :
    ∃ cap ds, f.buf = d ∧ f.count = n ∧ FInvA m0.live f m xs cap ∧
      m.dropped = m0.dropped ++ ds ∧
      (nd = true → (ops.flatMap SeqOp.movedIn).Perm (outs.flatMap Out.movedOut ++ ds ++ xs)) := by
  obtain ⟨f0, m0', he1, hi1, hb1, hc1, _, hdr, _⟩ := FInvA.new hn m0 hd
  rw [hnew] at he1
  cases he1
  have h := hi1.run R nd ops hops
  rw [hspec] at h
  obtain ⟨f2, m2, ds, cap, he, hb, hc, hi, hdd, hp⟩ := h
  rw [hrun] at he
  cases he
  exact ⟨cap, ds, hb.trans hb1, hc.trans hc1, hi, by rw [hdd, hdr], by simpa using hp⟩

/-- C124 is false.  Let a `FixedVector` that never overflowed have its vector taken by
`std::mem::take`, and then go out of scope, which goes well.  The vector taken points into the storage
that is gone: to read its elements, to pop one, to push one more and to drop it are undefined
behaviour. -/
theorem C124_taken_vector_dangles (R : RawAlloc α) (nd : Bool) (n d : Nat) (hn : 0 < n)
    (m0 : Mem α) (hd : m0.live d = none) (ops : List (SeqOp α))
    (hops : nd = true → ∀ op ∈ ops, op.isSlice = false)
    {outs : List (Out α)} {xs : List α} (hspec : SeqOp.run ops [] = .ok (outs, xs))
    {f1 f f' : FVec} {m1 m : Mem α} (hnew : FVec.newIn n d m0 = .ok (f1, m1))
    (hrun : f1.run R nd ops m1 = .ok (outs, f, m)) (hin : f.hasOverflowed = false)
    {b : BaseVec} (htake : f.takeBase = (b, f')) :
    ∃ m', f'.destroy R nd m = .ok m' ∧ m'.dropped = m.dropped ∧
      b.vec.len = .ok xs.length ∧
      (xs ≠ [] → b.vec.asSlice m' = .error .ub ∧ b.run R nd [.pop] m' = .error .ub ∧
        (nd = true → b.drop R nd m' = .error .ub)) ∧
      (xs.length < n → ∀ x, b.run R nd [.push x] m' = .error .ub) := by
  obtain ⟨cap, _, hb, hc, hi, _⟩ := fixed_history R nd hn hd hops hspec hnew hrun
  obtain ⟨blk, hv, hl, _, _⟩ := hi.inline hin
  cases htake
  have hdead : (m.setBlock f.buf none).live f.buf = none := by simp
  obtain ⟨q1, q2⟩ := dead_vec (fixedAllocator R f.pool) hdead xs.length f.count
  rw [← hv] at q1 q2
  refine ⟨m.setBlock f.buf none, ?_, rfl, hi.inv.len, ?_, ?_⟩
  · simp [FVec.destroy, Vec.clear, BaseVec.default, Vec.new]
  · intro hx
    obtain ⟨a1, a2, a3⟩ := q1 (List.length_pos_iff.2 hx)
    refine ⟨a1, ?_, ?_⟩
    · simp [BaseVec.run, Vec.run, Vec.step, a2]
    · rintro rfl
      simp [BaseVec.drop, a3]
  · intro hlt x
    simp [BaseVec.run, Vec.run, Vec.step, q2 (by omega) x]

/-- Four slots, two elements. -/
example : (do
    let (f, m) ← FVec.newIn 4 7 (Mem.empty : Mem Nat)
    let (_, f, m) ← f.run RawAlloc.bump true [.push 1, .push 2] m
    let (b, f) := f.takeBase
    let m ← f.destroy RawAlloc.bump true m
    .ok (f.hasOverflowed, b.vec.len, b.vec.asSlice m, (b.drop RawAlloc.bump true m).toBool)) =
  (.ok (true, .ok 2, .error .ub, false) : Exec _) := rfl

/-- C124, as it is with `std::mem::swap`.  Two `FixedVector`s that never overflowed exchange their
vectors; then the second goes out of scope, which drops the elements of the first.  The first now
points into the storage of the second, which is gone. -/
theorem C124_swapped_vector_dangles (R : RawAlloc α) (nd : Bool) (n d n' d' : Nat) (hn : 0 < n)
    (hn' : 0 < n') (m0 : Mem α) (hd : m0.live d = none) (ops ops' : List (SeqOp α))
    (hops : nd = true → ∀ op ∈ ops ++ ops', op.isSlice = false)
    {outs outs' : List (Out α)} {xs ys : List α} (hspec : SeqOp.run ops [] = .ok (outs, xs))
    (hspec' : SeqOp.run ops' [] = .ok (outs', ys))
    {f1 f g1 g f' g' : FVec} {m1 m m2 m3 : Mem α}
    (hnew : FVec.newIn n d m0 = .ok (f1, m1)) (hrun : f1.run R nd ops m1 = .ok (outs, f, m))
    (hin : f.hasOverflowed = false) (hd' : m.live d' = none)
    (hnew' : FVec.newIn n' d' m = .ok (g1, m2)) (hrun' : g1.run R nd ops' m2 = .ok (outs', g, m3))
    (hin' : g.hasOverflowed = false) (hy : ys ≠ []) (hswap : f.swapBase g = (f', g')) :
    f'.vec.asSlice m3 = .ok ys ∧ g'.vec.asSlice m3 = .ok xs ∧
    ∃ m4, g'.destroy R nd m3 = .ok m4 ∧ m4.dropped = m3.dropped ++ (if nd then xs else []) ∧
      f'.vec.asSlice m4 = .error .ub ∧ f'.run R nd [.pop] m4 = .error .ub := by
  obtain ⟨_, _, hb, _, hi, _⟩ := fixed_history R nd hn hd
    (fun h op ho => hops h op (List.mem_append_left _ ho)) hspec hnew hrun
  obtain ⟨_, _, hb', _, hi', _⟩ := fixed_history R nd hn' hd'
    (fun h op ho => hops h op (List.mem_append_right _ ho)) hspec' hnew' hrun'
  obtain ⟨blk, hv, hl, hlen, hsz, hcells⟩ := hi.inline hin
  obtain ⟨blk', hv', hl', hlen', hsz', hcells'⟩ := hi'.inline hin'
  have hne : f.buf ≠ g.buf := by
    rintro e
    rw [hl, ← hb', ← e] at hd'
    simp at hd'
  have hlf : m3.live f.buf = some blk := by rw [hl', hl]; simp [hne]
  cases hswap
  have hsl : f.vec.asSlice m3 = .ok xs := by
    rw [hv]
    have := Mem.readRange_loc hlf xs 0 (by omega) (by simpa using hcells)
    simpa [Vec.asSlice, Vec.len, Ptr.offsetFrom] using this
  have hdrop := Mem.dropRange_ok nd xs 0 m3 hlf (by omega) (by simpa using hcells)
  refine ⟨hi'.inv.slice, hsl,
    ({ m3 with dropped := m3.dropped ++ if nd then xs else [] } : Mem α).setBlock g.buf none,
    ?_, rfl, ?_⟩
  · simp only [FVec.destroy, Vec.clear]
    rw [hv, hi.pool]
    simp only [reduceCtorEq, if_false, Vec.len, Ptr.offsetFrom, and_self, Nat.zero_le, if_true,
      Nat.sub_zero, Exec.ok_bind, hdrop, Vec.capacity, fixedAllocator]
  · obtain ⟨q1, _⟩ := dead_vec (d := g.buf) (m := ({ m3 with dropped := m3.dropped ++ if nd then xs else [] } : Mem α).setBlock
      g.buf none) (fixedAllocator R g.pool) (by simp) ys.length g.count
    rw [← hv'] at q1
    obtain ⟨a1, a2, _⟩ := q1 (List.length_pos_iff.2 hy)
    exact ⟨a1, by simp [FVec.run, FVec.step, Vec.step, a2]⟩

/-- Two vectors of two slots. -/
example : (do
    let (f, m) ← FVec.newIn 2 7 (Mem.empty : Mem Nat)
    let (_, f, m) ← f.run RawAlloc.bump true [.push 1] m
    let (g, m) ← FVec.newIn 2 8 m
    let (_, g, m) ← g.run RawAlloc.bump true [.push 2, .push 3] m
    let (f, g) := f.swapBase g
    let s ← f.vec.asSlice m
    let m ← g.destroy RawAlloc.bump true m
    .ok (s, m.dropped, f.vec.asSlice m)) = (.ok ([2, 3], [1], .error .ub) : Exec _) := rfl

/-- C124, for whole objects exchanged by `std::mem::swap`, which have not overflowed.  The pointers
change places, and so do the elements they point to: each object reads the elements it had before, as
many as the other had, from the storage of the other, which it needs from now on.  Both report that they
overflowed. -/
theorem C124_exchanged_objects (R : RawAlloc α) (nd : Bool) (n d d' : Nat) (hn : 0 < n)
    (m0 : Mem α) (hd : m0.live d = none) (ops ops' : List (SeqOp α))
    (hops : nd = true → ∀ op ∈ ops ++ ops', op.isSlice = false)
    {outs outs' : List (Out α)} {xs ys : List α} (hspec : SeqOp.run ops [] = .ok (outs, xs))
    (hspec' : SeqOp.run ops' [] = .ok (outs', ys))
    {f1 f g1 g f' g' : FVec} {m1 m m2 m3 m4 : Mem α}
    (hnew : FVec.newIn n d m0 = .ok (f1, m1)) (hrun : f1.run R nd ops m1 = .ok (outs, f, m))
    (hin : f.hasOverflowed = false) (hd' : m.live d' = none)
    (hnew' : FVec.newIn n d' m = .ok (g1, m2)) (hrun' : g1.run R nd ops' m2 = .ok (outs', g, m3))
    (hin' : g.hasOverflowed = false) (hswap : f.swapWhole g m3 = (f', g', m4)) :
    f'.buf = d ∧ g'.buf = d' ∧ f'.hasOverflowed = true ∧ g'.hasOverflowed = true ∧
    f'.vec.len = .ok ys.length ∧ g'.vec.len = .ok xs.length ∧
    (ys.length ≤ xs.length → f'.vec.asSlice m4 = .ok (xs.take ys.length)) ∧
    (xs.length ≤ ys.length → g'.vec.asSlice m4 = .ok (ys.take xs.length)) ∧
    (ys ≠ [] → ∀ m5 : Mem α, m5.live d' = none → f'.vec.asSlice m5 = .error .ub) ∧
    (xs ≠ [] → ∀ m5 : Mem α, m5.live d = none → g'.vec.asSlice m5 = .error .ub) := by
  obtain ⟨_, _, hb, _, hi, _⟩ := fixed_history R nd hn hd
    (fun h op ho => hops h op (List.mem_append_left _ ho)) hspec hnew hrun
  obtain ⟨_, _, hb', _, hi', _⟩ := fixed_history R nd hn hd'
    (fun h op ho => hops h op (List.mem_append_right _ ho)) hspec' hnew' hrun'
  obtain ⟨blk, hv, hl, hlen, hsz, hcells⟩ := hi.inline hin
  obtain ⟨blk', hv', hl', hlen', hsz', hcells'⟩ := hi'.inline hin'
  have hne : f.buf ≠ g.buf := by
    rintro e
    rw [hl, ← hb', ← e] at hd'
    simp at hd'
  have hlf : m3.live f.buf = some blk := by rw [hl', hl]; simp [hne]
  have hlg : m3.live g.buf = some blk' := by rw [hl']; simp
  cases hswap
  have key : ∀ (mm : Mem α) (b : Nat) (bl : Block α) (zs : List α) (k c : Nat),
      mm.live b = some bl → zs.length ≤ bl.size → (∀ i, i < zs.length → bl.cells i = zs[i]?) →
      k ≤ zs.length →
      (⟨.loc b 0, .loc b k, .loc b c⟩ : Vec).asSlice mm = .ok (zs.take k) := by
    intro mm b bl zs k c h1 h2 h3 h4
    have h5 : (zs.take k).length = k := by simp [h4]
    have := Mem.readRange_loc h1 (zs.take k) 0 (by omega) (by
      intro i hi
      rw [h5] at hi
      simp [h3 i (by omega), hi])
    rw [h5] at this
    simpa [Vec.asSlice, Vec.len, Ptr.offsetFrom] using this
  refine ⟨hb, hb', ?_, ?_, hi'.inv.len, hi.inv.len, ?_, ?_, ?_, ?_⟩
  · simp [FVec.hasOverflowed, hv', hne.symm]
  · simp [FVec.hasOverflowed, hv, hne]
  · intro h
    show g.vec.asSlice _ = _
    rw [hv']
    exact key _ g.buf blk xs _ _ (by simp [hlf]) (by omega) hcells h
  · intro h
    show f.vec.asSlice _ = _
    rw [hv]
    exact key _ f.buf blk' ys _ _ (by simp [hne, hlg]) (by omega) hcells' h
  · intro hy m5 h5
    have := ((dead_vec (fixedAllocator R .null) (hb' ▸ h5) ys.length g.count).1
      (List.length_pos_iff.2 hy)).1
    rw [← hv'] at this
    exact this
  · intro hx m5 h5
    have := ((dead_vec (fixedAllocator R .null) (hb ▸ h5) xs.length f.count).1
      (List.length_pos_iff.2 hx)).1
    rw [← hv] at this
    exact this

/-- `[1, 2]` exchanged with `[3]`. -/
example : (do
    let (f, m) ← FVec.newIn 2 7 (Mem.empty : Mem Nat)
    let (_, f, m) ← f.run RawAlloc.bump true [.push 1, .push 2] m
    let (g, m) ← FVec.newIn 2 8 m
    let (_, g, m) ← g.run RawAlloc.bump true [.push 3] m
    let (f, g, m) := f.swapWhole g m
    let s ← f.vec.asSlice m
    .ok (s, g.vec.asSlice m, (g.destroy RawAlloc.bump true m).toBool)) =
  (.ok ([1], .error .ub, false) : Exec _) := rfl

/-- What remains of C124: a vector that had overflowed can be taken.  It keeps its elements after the
`FixedVector` is gone, all later calls return what a sequence returns, and when it is dropped every
element has been released once and memory is as before, if the overflow allocator never returns the
address where the `FixedVector` was (see C15).  Missing: vectors that have not overflowed, for which the
claim is false. -/
theorem C124_taken_vector_partial (R : RawAlloc α) (nd : Bool) (n d : Nat) (hn : 0 < n)
    (m0 : Mem α) (hd : m0.live d = none) (hR : ∀ m k, R.pick m k ≠ d) (ops later : List (SeqOp α))
    (hops : nd = true → ∀ op ∈ ops ++ later, op.isSlice = false)
    {outs outs' : List (Out α)} {xs ys : List α} (hspec : SeqOp.run ops [] = .ok (outs, xs))
    (hspec' : SeqOp.run later xs = .ok (outs', ys))
    {f1 f f' : FVec} {m1 m : Mem α} (hnew : FVec.newIn n d m0 = .ok (f1, m1))
    (hrun : f1.run R nd ops m1 = .ok (outs, f, m)) (hov : f.hasOverflowed = true)
    {b : BaseVec} (htake : f.takeBase = (b, f')) :
    ∃ m', f'.destroy R nd m = .ok m' ∧ b.vec.asSlice m' = .ok xs ∧
      ∃ b' m'' m3 drops, b.run R nd later m' = .ok (outs', b', m'') ∧
        b'.vec.asSlice m'' = .ok ys ∧ b'.drop R nd m'' = .ok m3 ∧ m3.live = m0.live ∧
        m3.dropped = m0.dropped ++ drops ∧
        (nd = true → ((ops ++ later).flatMap SeqOp.movedIn).Perm
          ((outs ++ outs').flatMap Out.movedOut ++ drops)) := by
  obtain ⟨cap, ds, hb, hc, hi, hdr, hp⟩ := fixed_history R nd hn hd
    (fun h op ho => hops h op (List.mem_append_left _ ho)) hspec hnew hrun
  have ht := hi.taken hov
  have hA := staleAllocator_lawful R f.buf (by rw [hb]; exact hR)
  rw [← hi.pool] at hA
  have hr := VInv.run hA nd later (fun h op ho => hops h op (List.mem_append_right _ ho)) ht
  rw [hspec'] at hr
  obtain ⟨v', m'', ds', cap', he, hi', hdr', hp'⟩ := hr
  obtain ⟨m3, hcl, _, hw, _, _, hef⟩ := hi'.clear hA nd
  cases htake
  refine ⟨m.setBlock f.buf none, ?_, ht.slice, ⟨v', f.pool⟩, m'', m3,
    ds ++ ds' ++ (if nd then ys else []), ?_, hi'.slice, ?_, ?_, ?_, ?_⟩
  · simp [FVec.destroy, Vec.clear, BaseVec.default, Vec.new]
  · simp [BaseVec.run, he]
  · simp [BaseVec.drop, hcl]
  · funext p; exact hw p not_false
  · simp [hef.dropped, hdr', hdr]
  · intro h
    subst h
    have a := hp rfl
    have b := hp' rfl
    simp only [List.flatMap_append, if_true]
    classical
    rw [List.perm_iff_count] at a b ⊢
    intro z
    have a := a z
    have b := b z
    simp only [List.count_append] at a b ⊢
    omega

/-- Two slots, three elements. -/
example : (do
    let (f, m) ← FVec.newIn 2 7 (Mem.empty : Mem Nat)
    let (_, f, m) ← f.run RawAlloc.bump true [.push 1, .push 2, .push 3] m
    let (b, f) := f.takeBase
    let m ← f.destroy RawAlloc.bump true m
    let (os, b, m) ← b.run RawAlloc.bump true [.remove 0, .push 4, .slice] m
    let m ← b.drop RawAlloc.bump true m
    .ok (os, m.dropped, (m.live 7).isSome)) =
  (.ok ([.elem (some 1), .unit, .list [2, 3, 4]], [2, 3, 4], false) : Exec _) := rfl

/-- C124: the `FixedVector` left behind is an empty sequence, whatever was in it and whatever becomes
of the vector taken out.  It has lost its inline storage for good: it reports that it overflowed.  At
its end it releases its own elements and storage and nothing else. -/
theorem C124_left_behind (R : RawAlloc α) (nd : Bool) (f f' : FVec) (m : Mem α) (b : BaseVec)
    (htake : f.takeBase = (b, f')) (later : List (SeqOp α))
    (hops : nd = true → ∀ op ∈ later, op.isSlice = false) :
    f'.hasOverflowed = true ∧ f'.vec.asSlice m = .ok [] ∧
    match SeqOp.run later [] with
    | .error e => f'.run R nd later m = .error e
    | .ok (outs, ys) => ∃ f'' m' m3 drops, f'.run R nd later m = .ok (outs, f'', m') ∧
        f''.vec.asSlice m' = .ok ys ∧ f''.destroy R nd m' = .ok m3 ∧
        m3.live f.buf = none ∧ (∀ p, p ≠ f.buf → m3.live p = m.live p) ∧
        m3.dropped = m.dropped ++ drops ∧
        (nd = true → (later.flatMap SeqOp.movedIn).Perm (outs.flatMap Out.movedOut ++ drops)) := by
  cases htake
  refine ⟨by simp [FVec.hasOverflowed, BaseVec.default, Vec.new], (VInv.new defaultFits m).slice, ?_⟩
  have hA := nullAllocator_lawful R
  have hr := VInv.run hA nd later hops (VInv.new defaultFits m)
  rw [FVec.run_eq]
  cases h : SeqOp.run later [] with
  | error e =>
    rw [h] at hr
    simp only at hr
    simp [BaseVec.default, hr, Except.map]
  | ok r =>
    obtain ⟨outs, ys⟩ := r
    rw [h] at hr
    obtain ⟨v', m', ds, cap', he, hi, hdr, hp⟩ := hr
    obtain ⟨m3, hcl, _, hw, _, _, hef⟩ := hi.clear hA nd
    refine ⟨{ f with vec := v', pool := .null }, m', m3.setBlock f.buf none,
      ds ++ (if nd then ys else []), by simp [BaseVec.default, he, Except.map], hi.slice, ?_, ?_, ?_, ?_, ?_⟩
    · simp [FVec.destroy, hcl]
    · simp
    · intro p hp
      simp [hp, hw p not_false]
    · simp [hef.dropped, hdr]
    · rintro rfl
      simpa using hp rfl

/-- The vector of the overflowed object goes; its owner starts anew. -/
example : (do
    let (f, m) ← FVec.newIn 2 7 (Mem.empty : Mem Nat)
    let (_, f, m) ← f.run RawAlloc.bump true [.push 1, .push 2, .push 3] m
    let (b, f) := f.takeBase
    let m ← b.drop RawAlloc.bump true m
    let (os, f, m) ← f.run RawAlloc.bump true [.push 4, .pop, .pop, .push 5] m
    let m ← f.destroy RawAlloc.bump true m
    .ok (os, m.dropped)) =
  (.ok ([.unit, .elem (some 4), .elem none, .unit], [1, 2, 3, 5]) : Exec _) := rfl

/-- What remains of C124 for `clone`, elements being plain data: a clone of the vector inside has the same
elements and a life of its own, also after the `FixedVector` is gone, and gives back all its memory,
if the overflow allocator never returns the address where the `FixedVector` was.  Missing: without that
assumption the clone can leak (`C124_clone_leaks`). -/
theorem C124_clone_partial (R : RawAlloc α) (n d : Nat) (hn : 0 < n)
    (m0 : Mem α) (hd : m0.live d = none) (hR : ∀ m k, R.pick m k ≠ d) (ops later : List (SeqOp α))
    {outs : List (Out α)} {xs : List α} (hspec : SeqOp.run ops [] = .ok (outs, xs))
    {f1 f : FVec} {m1 m : Mem α} (hnew : FVec.newIn n d m0 = .ok (f1, m1))
    (hrun : f1.run R false ops m1 = .ok (outs, f, m)) :
    ∃ b m2 m3, f.cloneBase R false m = .ok (b, m2) ∧ f.vec.asSlice m2 = .ok xs ∧
      f.destroy R false m2 = .ok m3 ∧ b.vec.asSlice m3 = .ok xs ∧
      match SeqOp.run later xs with
      | .error e => b.run R false later m3 = .error e
      | .ok (outs', ys) => ∃ b' m4 m5, b.run R false later m3 = .ok (outs', b', m4) ∧
          b'.vec.asSlice m4 = .ok ys ∧ b'.drop R false m4 = .ok m5 ∧ m5.live = m0.live := by
  obtain ⟨cap, ds, hb, hc, hi, hdr, hp⟩ := fixed_history R false hn hd (by simp) hspec hnew hrun
  have hA := staleAllocator_lawful R f.buf (by rw [hb]; exact hR)
  rw [← hi.pool] at hA
  obtain ⟨v', m2, has, hv, _⟩ := (VInv.new (staleFits f.buf) m).assign hA false xs (by simp)
  -- the clone in memory without the object
  obtain ⟨m3, hde, hsl, hv3⟩ : ∃ m3, f.destroy R false m2 = .ok m3 ∧ f.vec.asSlice m2 = .ok xs ∧
      ∃ cap, VInv (fun _ => False) (staleFits f.buf) m0.live m3 v' xs cap := by
    obtain ⟨_, w', hw, hr⟩ := hv
    have hw' : w' = m.live := by funext p; exact hw p not_false
    subst hw'
    rcases hr with hr | ⟨c, blk, hr⟩
    · have hi2 : FInvA m0.live f m2 xs cap := by
        obtain ⟨hk, w2, hw2, h2⟩ := hi.inv
        refine ⟨hi.pool, hi.pos, hi.out, ⟨fun p hp => hr.live ▸ hk p hp, w2, hw2, ?_⟩, hi.inl⟩
        rcases h2 with h2 | ⟨b, blk, h2⟩
        · exact .inl ⟨by rw [hr.live, h2.live], h2.ptrs, h2.nil, h2.cap0⟩
        · exact .inr ⟨b, blk, h2.fresh, by rw [hr.live, h2.live], h2.fit, h2.cap_le, h2.len_le,
            h2.cells, h2.ptrs⟩
      obtain ⟨m3, hde, hl, _⟩ := FInv.destroy (R := R) false (.inl hi2)
      exact ⟨m3, hde, hi2.inv.slice, _, fun _ h => h.elim, m0.live, fun _ _ => rfl,
        .inl ⟨hl, hr.ptrs, hr.nil, hr.cap0⟩⟩
    · have hi2 := hi.other hr.fresh hr.live
      obtain ⟨m3, hde, hl, _⟩ := FInv.destroy (R := R) false (.inl hi2)
      have hf : m0.live c = none := by
        by_cases hcd : c = f.buf
        · rw [hcd]; exact hi.out
        · obtain ⟨_, w2, hw2, h2⟩ := hi.inv
          rw [← hw2 c hcd]
          have hfr := hr.fresh
          rcases h2 with h2 | ⟨b, blk', h2⟩
          · rw [← h2.live]; exact hfr
          · rw [h2.live] at hfr
            by_cases hcb : c = b
            · simp [hcb] at hfr
            · simpa [hcb] using hfr
      exact ⟨m3, hde, hi2.inv.slice, _, fun _ h => h.elim, m0.live, fun _ _ => rfl,
        .inr ⟨c, blk, hf, hl, hr.fit, hr.cap_le, hr.len_le, hr.cells, hr.ptrs⟩⟩
  obtain ⟨cap', hv3⟩ := hv3
  refine ⟨⟨v', f.pool⟩, m2, m3, ?_, hsl, hde, hv3.slice, ?_⟩
  · simp [FVec.cloneBase, Vec.clone, hi.inv.slice, Vec.fromSlice, has]
  have hr := VInv.run hA false later (by simp) hv3
  cases h : SeqOp.run later xs with
  | error e =>
    rw [h] at hr
    simp only at hr
    simp [BaseVec.run, hr]
  | ok r =>
    obtain ⟨outs', ys⟩ := r
    rw [h] at hr
    obtain ⟨v4, m4, ds4, cap4, he, hi4, _, _⟩ := hr
    obtain ⟨m5, hcl, _, hw, _, _, _⟩ := hi4.clear hA false
    exact ⟨⟨v4, f.pool⟩, m4, m5, by simp [BaseVec.run, he], hi4.slice, by simp [BaseVec.drop, hcl],
      funext fun p => hw p not_false⟩

/-- Two slots, two elements; the clone outlives them. -/
example : (do
    let (f, m) ← FVec.newIn 2 7 (Mem.empty : Mem Nat)
    let (_, f, m) ← f.run evenAlloc false [.push 1, .push 2] m
    let (b, m) ← f.cloneBase evenAlloc false m
    let m ← f.destroy evenAlloc false m
    let (os, b, m) ← b.run evenAlloc false [.push 3, .slice] m
    let m ← b.drop evenAlloc false m
    .ok (os, (m.live 7).isSome)) = (.ok ([.unit, .list [1, 2, 3]], false) : Exec _) := rfl

/-- C124 is false of `clone` too: an allocator that returns the address where the `FixedVector` was (7)
as soon as it is free.  The clone grows into that block, takes it for the inline storage of its
`FixedVector`, and never frees it. -/
theorem C124_clone_leaks : ∃ R : RawAlloc Nat, (do
    let (f, m) ← FVec.newIn 2 7 (Mem.empty : Mem Nat)
    let (_, f, m) ← f.run R false [.push 1, .push 2] m
    let (b, m) ← f.cloneBase R false m
    let m ← f.destroy R false m
    let (os, b, m) ← b.run R false [.push 3, .slice] m
    let m ← b.drop R false m
    .ok (os, (m.live 7).isSome)) = (.ok ([.unit, .list [1, 2, 3]], true) : Exec _) := by
  refine ⟨⟨fun m _ => if m.live 7 = none then 7 else m.bound, ?_⟩, ?_⟩
  · intro m n
    by_cases h : m.live 7 = none
    · simp [h]
    · simpa [h] using m.bound_ok m.bound (Nat.le_refl _)
  · rfl

end Verif
