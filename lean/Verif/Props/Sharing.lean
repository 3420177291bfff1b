import Verif.Props.Vector
import Verif.Props.Deque
import Verif.Spec.Interleave

/-!
# Vectors and deques sharing an allocator (C78)

Two containers of the same kind live at the same time in one memory and use the same allocator;
calls on them are interleaved in any way.  (Lists: C70, hash maps: C71, a vector and its clone:
C10.)
-/

set_option autoImplicit false

namespace Verif
open Spec

variable {α : Type}

/-! ## Vectors -/

/-- C78.  Two vectors created one after the other in the same memory: under any interleaving of
calls (`true` addresses the first) the results and the final contents are those of two unrelated
sequences; if one of the sequences panics so does the program.  Dropping both, in either order, drops
what they hold and leaves memory as it was.  Slice copies for element types with destructor are
excluded as in C01. -/
theorem C78_vectors_do_not_interfere (R : RawAlloc α) (nd : Bool) (m0 : Mem α)
    (ops : List (Bool × SeqOp α)) (hops : nd = true → ∀ o ∈ ops, o.2.isSlice = false) :
    match Spec.run2 ops [] [] with
    | .error e => Vec.run2 (defaultAllocator R) nd ops Vec.new Vec.new m0 = .error e
    | .ok (os, xs, ys) => ∃ v c m,
        Vec.run2 (defaultAllocator R) nd ops Vec.new Vec.new m0 = .ok (os, v, c, m) ∧
        v.asSlice m = .ok xs ∧ c.asSlice m = .ok ys ∧
        (∃ m1 m2, v.clear (defaultAllocator R) nd m = .ok (Vec.new, m1) ∧
          c.clear (defaultAllocator R) nd m1 = .ok (Vec.new, m2) ∧ m2.live = m0.live ∧
          m2.dropped = m.dropped ++ (if nd then xs ++ ys else [])) ∧
        ∃ m1 m2, c.clear (defaultAllocator R) nd m = .ok (Vec.new, m1) ∧
          v.clear (defaultAllocator R) nd m1 = .ok (Vec.new, m2) ∧ m2.live = m0.live ∧
          m2.dropped = m.dropped ++ (if nd then ys ++ xs else []) := by
  have hn : PRep m0.live m0.live Vec.new ([] : List α) :=
    (VInv.new defaultFits m0).default_rep.toP
  have h := run2_refines R nd ops hops m0.live m0 Vec.new Vec.new [] [] ⟨m0.live, hn, hn⟩
  cases hr : Spec.run2 ops ([] : List α) [] with
  | error e => rw [hr] at h; exact h
  | ok r =>
    obtain ⟨os, xs, ys⟩ := r
    rw [hr] at h
    obtain ⟨v, c, m, he, wa, hp1, hp2⟩ := h
    obtain ⟨wb, hp3, hp4⟩ := PRep.swap hp1 hp2
    obtain ⟨_, hV1⟩ := hp1.toV
    obtain ⟨_, hV2⟩ := hp3.toV
    exact ⟨v, c, m, he, hV1.slice, hV2.slice, drop_two R nd ⟨wa, hp1, hp2⟩,
      drop_two R nd ⟨wb, hp3, hp4⟩⟩

/-- Both vectors grow, one is cleared and its memory reused by the other. -/
example : (do
    let (os, v, c, m) ← Vec.run2 (defaultAllocator RawAlloc.bump) true
      [(true, .push 1), (false, .push 2), (true, .push 3), (false, .push 4), (true, .clear),
       (false, .push 5), (true, .push (6 : Nat)), (false, .remove 0)] Vec.new Vec.new Mem.empty
    let a ← v.asSlice m
    let b ← c.asSlice m
    .ok (os.flatMap Out.movedOut, a, b)) = (.ok ([2], [6], [4, 5]) : Exec _) := rfl

/-! ## Deques -/

/-- Two deques with interleaved calls: `(false, op)` calls the first. -/
def Deque.run2 (E : DEnv α) : List (Bool × DeqOp α) → Deque → Deque → DMem α →
    Exec (List (Bool × Out α) × Deque × Deque × DMem α)
  | [], d1, d2, m => .ok ([], d1, d2, m)
  | (false, op) :: ops, d1, d2, m => do
    let (o, d1, m) ← d1.step E op m
    let (os, r) ← Deque.run2 E ops d1 d2 m
    .ok ((false, o) :: os, r)
  | (true, op) :: ops, d1, d2, m => do
    let (o, d2, m) ← d2.step E op m
    let (os, r) ← Deque.run2 E ops d1 d2 m
    .ok ((true, o) :: os, r)

theorem Mem.read_live {β : Type} {m m' : Mem β} {p : Ptr}
    (h : ∀ b o, p = .loc b o → m'.live b = m.live b) : m'.read p = m.read p := by
  cases p with
  | null => rfl
  | loc b o => exact Mem.read_congr (h b o rfl)

/-- A deque is where it is whatever the rest of memory: its blocks may be looked at in another
memory that agrees on them, relative to another rest. -/
theorem DRep.transfer {E : DEnv α} {wt wt' : World α} {wp wp' : World Ptr} {m m' : DMem α}
    {d : Deque} {pb lo bo : Nat} {bl : List Nat} {xs : List α}
    (h : DRep E wt wp m d pb lo bo bl xs)
    (ht : ∀ b ∈ bl, m'.t.live b = m.t.live b) (hp : m'.p.live pb = m.p.live pb)
    (htf : ∀ b ∈ bl, wt' b = none) (hpf : wp' pb = none)
    (hto : ∀ b, b ∉ bl → m'.t.live b = wt' b) (hpo : ∀ b, b ≠ pb → m'.p.live b = wp' b) :
    DRep E wt' wp' m' d pb lo bo bl xs := by
  refine ⟨⟨h.t.nodup, htf, hto, ?_⟩, ⟨hpf, hpo, ?_, h.p.fits, ?_⟩, h.ptrs, h.b_lt, h.b, h.e,
    h.len, ?_⟩
  · intro b hb; rw [ht b hb]; exact h.t.ins b hb
  · rw [hp]; exact h.p.ins
  · intro i hi
    rw [← h.p.cells i hi]
    exact Mem.read_congr hp
  · intro k x hk
    rw [← h.vals k x hk]
    have hlt := (List.getElem?_eq_some_iff.1 hk).1
    exact Mem.read_congr (ht _ (getD_mem (h.idx_lt (Nat.le_of_lt hlt))))

/-- Both deques are intact, the second in the memory that is left without the first. -/
def TwoDeques (E : DEnv α) (m0 m : DMem α) (d1 d2 : Deque) (xs ys : List α) : Prop :=
  ∃ m1, DInv E m1 m d1 xs ∧ DInv E m0 m1 d2 ys

theorem TwoDeques.symm {E : DEnv α} {m0 m : DMem α} {d1 d2 : Deque} {xs ys : List α}
    (h : TwoDeques E m0 m d1 d2 xs ys) : TwoDeques E m0 m d2 d1 ys xs := by
  classical
  obtain ⟨m1, ⟨pb1, lo1, bo1, bl1, h1⟩, ⟨pb2, lo2, bo2, bl2, h2⟩⟩ := h
  -- the two deques share no block
  have hd : ∀ b ∈ bl2, b ∉ bl1 := by
    intro b hb hb1
    obtain ⟨blk, e, _⟩ := h2.t.ins b hb
    rw [h1.t.fresh b hb1] at e
    cases e
  have hdp : pb2 ≠ pb1 := by
    intro e
    obtain ⟨blk, e', _⟩ := h2.p.ins
    rw [e, h1.p.fresh] at e'
    cases e'
  -- memory with the second deque taken out
  let m2 : DMem α := ⟨
    { m.t with
      live := fun b => if b ∈ bl2 then none else m.t.live b
      bound_ok := fun b hb => by simp [m.t.bound_ok b hb] },
    { m.p with
      live := fun b => if b = pb2 then none else m.p.live b
      bound_ok := fun b hb => by simp [m.p.bound_ok b hb] }⟩
  refine ⟨m2, ⟨pb2, lo2, bo2, bl2, ?_⟩, ⟨pb1, lo1, bo1, bl1, ?_⟩⟩
  · refine h2.transfer ?_ ?_ ?_ ?_ ?_ ?_
    · intro b hb; exact h1.t.out b (hd b hb)
    · exact h1.p.out pb2 hdp
    · intro b hb; simp [m2, hb]
    · simp [m2]
    · intro b hb; simp [m2, hb]
    · intro b hb; simp [m2, hb]
  · refine h1.transfer ?_ ?_ ?_ ?_ ?_ ?_
    · intro b hb
      have : b ∉ bl2 := fun hb2 => hd b hb2 hb
      simp [m2, this]
    · simp [m2, hdp.symm]
    · intro b hb
      have : b ∉ bl2 := fun hb2 => hd b hb2 hb
      rw [← h2.t.out b this]
      exact h1.t.fresh b hb
    · rw [← h2.p.out pb1 hdp.symm]; exact h1.p.fresh
    · intro b hb
      by_cases hb2 : b ∈ bl2
      · simp [m2, hb2, h2.t.fresh b hb2]
      · simp only [m2, hb2, if_false]
        rw [h1.t.out b hb, h2.t.out b hb2]
    · intro b hb
      by_cases hb2 : b = pb2
      · simp [m2, hb2, h2.p.fresh]
      · simp only [m2, hb2, if_false]
        rw [h1.p.out b hb, h2.p.out b hb2]

/-- After the first deque is dropped the second is intact; the block it leaks is not in the way. -/
theorem TwoDeques.dropFirst {E : DEnv α} {m0 m : DMem α} {d1 d2 : Deque} {xs ys : List α}
    (h : TwoDeques E m0 m d1 d2 xs ys) :
    ∃ m' m1, d1.drop E m = .ok m' ∧ DInv E m1 m' d2 ys ∧
      m'.t.dropped = m.t.dropped ++ if E.nd then xs else [] := by
  classical
  obtain ⟨m1, ⟨pb1, lo1, bo1, bl1, h1⟩, ⟨pb2, lo2, bo2, bl2, h2⟩⟩ := h
  obtain ⟨m', B, e, ht, hp, hd⟩ := h1.drop
  have hB : ∀ b ∈ bl2, b ≠ B := by
    intro b hb hbB
    obtain ⟨blk, e', _⟩ := h2.t.ins b hb
    rw [hbB, ht.fresh B (by simp)] at e'
    cases e'
  let m2 : DMem α := ⟨
    { m'.t with
      live := fun b => if b ∈ bl2 then none else m'.t.live b
      bound_ok := fun b hb => by simp [m'.t.bound_ok b hb] },
    { m'.p with
      live := fun b => if b = pb2 then none else m'.p.live b
      bound_ok := fun b hb => by simp [m'.p.bound_ok b hb] }⟩
  refine ⟨m', m2, e, ⟨pb2, lo2, bo2, bl2, ?_⟩, hd⟩
  refine h2.transfer ?_ ?_ ?_ ?_ ?_ ?_
  · intro b hb; exact ht.out b (by simpa using hB b hb)
  · rw [hp]
  · intro b hb; simp [m2, hb]
  · simp [m2]
  · intro b hb; simp [m2, hb]
  · intro b hb; simp [m2, hb]

/-- C78.  Two deques created one after the other in the same memory: under any interleaving of
calls nothing faults and each deque returns what its own calls return on a sequence of its own.
Either can then be dropped, which drops what it holds; the other goes on as if nothing had
happened. -/
theorem C78_deques_do_not_interfere (E : DEnv α) (hS : 0 < E.S) (m0 : DMem α)
    (ops : List (Bool × DeqOp α)) :
    ∃ d1 m1 d2 m2 os d1' d2' m, Deque.newIn E m0 = .ok (d1, m1) ∧
      Deque.newIn E m1 = .ok (d2, m2) ∧ Deque.run2 E ops d1 d2 m2 = .ok (os, d1', d2', m) ∧
      os.map Prod.fst = ops.map Prod.fst ∧
      sentTo false os = (DeqOp.run (sentTo false ops) []).1 ∧
      sentTo true os = (DeqOp.run (sentTo true ops) []).1 ∧
      (∃ m3, d1'.drop E m = .ok m3 ∧
        m3.t.dropped = m.t.dropped ++ (if E.nd then (DeqOp.run (sentTo false ops) []).2 else []) ∧
        ∀ later, ∃ d m4, Deque.run E later d2' m3 =
          .ok ((DeqOp.run later (DeqOp.run (sentTo true ops) []).2).1, d, m4)) ∧
      ∃ m3, d2'.drop E m = .ok m3 ∧
        m3.t.dropped = m.t.dropped ++ (if E.nd then (DeqOp.run (sentTo true ops) []).2 else []) ∧
        ∀ later, ∃ d m4, Deque.run E later d1' m3 =
          .ok ((DeqOp.run later (DeqOp.run (sentTo false ops) []).2).1, d, m4) := by
  obtain ⟨d1, m1, e1, i1, _⟩ := DInv.newIn E hS m0
  obtain ⟨d2, m2, e2, i2, _⟩ := DInv.newIn E hS m1
  have key : ∀ (ops : List (Bool × DeqOp α)) (d1 d2 : Deque) (m : DMem α) (xs ys : List α),
      TwoDeques E m0 m d1 d2 xs ys →
      ∃ os d1' d2' m', Deque.run2 E ops d1 d2 m = .ok (os, d1', d2', m') ∧
        os.map Prod.fst = ops.map Prod.fst ∧
        sentTo false os = (DeqOp.run (sentTo false ops) xs).1 ∧
        sentTo true os = (DeqOp.run (sentTo true ops) ys).1 ∧
        TwoDeques E m0 m' d1' d2' (DeqOp.run (sentTo false ops) xs).2
          (DeqOp.run (sentTo true ops) ys).2 := by
    intro ops
    induction ops with
    | nil => intro d1 d2 m xs ys h; exact ⟨[], _, _, _, rfl, rfl, rfl, rfl, h⟩
    | cons op ops ih =>
      intro d1 d2 m xs ys h
      obtain ⟨b, op⟩ := op
      cases b with
      | false =>
        obtain ⟨mm, ha, hb⟩ := h
        obtain ⟨d', m', s1, s2, _⟩ := ha.step op
        obtain ⟨os, r1, r2, r3, h3, h4, h5, h6, h7⟩ := ih d' d2 m' _ ys ⟨mm, s2, hb⟩
        exact ⟨(false, (op.step xs).1) :: os, r1, r2, r3, by simp [Deque.run2, s1, h3], by simp [h4],
          by simpa [sentTo, DeqOp.run] using h5, by simpa [sentTo] using h6,
          by simpa [sentTo, DeqOp.run] using h7⟩
      | true =>
        obtain ⟨mm, ha, hb⟩ := h.symm
        obtain ⟨d', m', s1, s2, _⟩ := ha.step op
        obtain ⟨os, r1, r2, r3, h3, h4, h5, h6, h7⟩ :=
          ih d1 d' m' xs _ (TwoDeques.symm ⟨mm, s2, hb⟩)
        exact ⟨(true, (op.step ys).1) :: os, r1, r2, r3, by simp [Deque.run2, s1, h3], by simp [h4],
          by simpa [sentTo] using h5, by simpa [sentTo, DeqOp.run] using h6,
          by simpa [sentTo, DeqOp.run] using h7⟩
  obtain ⟨os, d1', d2', m, h3, h4, h5, h6, h7⟩ :=
    key ops d1 d2 m2 [] [] (TwoDeques.symm ⟨m1, i2, i1⟩)
  obtain ⟨m3, w3, f1, f2, f3⟩ := h7.dropFirst
  obtain ⟨m4, w4, g1, g2, g3⟩ := h7.symm.dropFirst
  refine ⟨d1, m1, d2, m2, os, d1', d2', m, e1, e2, h3, h4, h5, h6, ⟨m3, f1, f3, fun later => ?_⟩,
    m4, g1, g3, fun later => ?_⟩
  · obtain ⟨d, m5, _, r, _⟩ := f2.run later
    exact ⟨d, m5, r⟩
  · obtain ⟨d, m5, _, r, _⟩ := g2.run later
    exact ⟨d, m5, r⟩

/-- Both deques cross subarrays, and one frees a subarray between calls on the other. -/
example : (do
    let (d1, m) ← Deque.newIn exampleEnv ⟨Mem.empty, Mem.empty⟩
    let (d2, m) ← Deque.newIn exampleEnv m
    let (os, _) ← Deque.run2 exampleEnv
      [(false, .pushBack 1), (true, .pushFront 2), (false, .pushBack 3), (true, .pushBack 4),
       (false, .popFront), (true, .pushBack 5), (false, .popFront), (true, .popFront),
       (true, .len)] d1 d2 m
    .ok (os.filterMap fun | (b, .elem x) => x.map (b, ·) | (b, .nat n) => some (b, n) | _ => none))
    = (.ok [(false, 1), (false, 3), (true, 2), (true, 2)] : Exec (List (Bool × Nat))) := rfl

end Verif
