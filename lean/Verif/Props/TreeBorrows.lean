import Verif.Borrow.Iter
import Verif.Borrow.TreeOthers
import Verif.Props.Deque
import Verif.Props.HashTable

/-! C134: the references the library makes, under Tree Borrows. -/

set_option autoImplicit false

namespace Verif
open Spec

variable {α : Type}

/-- C134.  A vector put through any calls under the rules of Spec/TreeBorrow.lean, beginning with any
permissions `S0`: every call is allowed and does what the sequence does, and after it the vector can
be looked at as a slice, and dropped. -/
theorem C134_vector_borrows (R : RawAlloc α) (nd : Bool) (m0 : Mem α) (S0 : Lineage)
    (ops : List (SeqOp α)) (hops : nd = true → ∀ op ∈ ops, op.isSlice = false) :
    match SeqOp.run ops [] with
    | .error e => TVec.run treeBorrows (defaultAllocator R) nd ops TVec.new ⟨m0, S0⟩ = .error e
    | .ok (os, xs) => ∃ v M,
        TVec.run treeBorrows (defaultAllocator R) nd ops TVec.new ⟨m0, S0⟩ = .ok (os, v, M) ∧
        (∃ M', v.asSlice treeBorrows M = .ok (xs, M')) ∧
        ∃ M', v.clear treeBorrows (defaultAllocator R) nd M = .ok (TVec.new, M') ∧
          M'.mem.live = m0.live := by
  have h := Owned.run (L := treeLaw) (R := R) nd ops hops (VInv.new defaultFits m0)
    (Owned.new S0 trivial m0)
  rw [runViews_all] at h
  cases hr : SeqOp.run ops [] with
  | error e => rw [hr] at h; exact h
  | ok r =>
    obtain ⟨os, xs⟩ := r
    rw [hr] at h
    obtain ⟨v, m, t, S, cap, e, hv, H⟩ := h
    refine ⟨⟨v, t⟩, ⟨m, S⟩, e, ?_, ?_⟩
    · obtain ⟨S', e1, _⟩ := H.asSlice hv.len rfl hv.slice
      exact ⟨_, e1⟩
    · obtain ⟨m', e1, _, e2, _⟩ := hv.clear (defaultAllocator_lawful R) nd
      obtain ⟨t', S', e3, _⟩ := H.clear hv.len rfl e1
      obtain ⟨_, _, e4⟩ := bind_inv e3
      simp only [Except.ok.injEq, Prod.mk.injEq] at e4
      rw [← e4.1] at e3
      exact ⟨_, e3, funext fun p => e2 p not_false⟩

/-- C134.  The vector's owning iterator: `next` and `next_back` are always allowed, in any order, and
so is dropping it.  Missing from the full statement: the case of C131, where the front cursor is at
the end of the block. -/
theorem C134_into_iter_borrows_partial (R : RawAlloc α) (nd : Bool) (m0 : Mem α) (S0 : Lineage)
    (ops : List (SeqOp α)) (hops : nd = true → ∀ op ∈ ops, op.isSlice = false)
    {os : List (Out α)} {xs : List α} (hr : SeqOp.run ops [] = .ok (os, xs)) (hx : xs ≠ [])
    (its : List IterOp) :
    ∃ v M cap it M', TVec.run treeBorrows (defaultAllocator R) nd ops TVec.new ⟨m0, S0⟩ = .ok (os, v, M) ∧
      v.vec.capacity = .ok cap ∧
      TIntoIter.run treeBorrows its v.intoIter M = .ok ((IterOp.run its xs).1, it, M') ∧
      if IterOp.taken its xs < cap then
        ∃ M'', it.drop treeBorrows (defaultAllocator R) nd M' = .ok M'' ∧ M''.mem.live = m0.live ∧
          M''.mem.dropped = M.mem.dropped ++ if nd then (IterOp.run its xs).2 else []
      else it.drop treeBorrows (defaultAllocator R) nd M' = .error .ub := by
  have h := Owned.run (L := treeLaw) (R := R) nd ops hops (VInv.new defaultFits m0)
    (Owned.new S0 trivial m0)
  rw [runViews_all, hr] at h
  obtain ⟨v, m, t, S, cap, e, hv, H⟩ := h
  rcases H.intoIter hv.default_rep with ⟨_, h0, _⟩ | ⟨b, hc, hi⟩
  · exact absurd h0 hx
  · obtain ⟨it, S', e1, h1⟩ := hi.run its
    refine ⟨⟨v, t⟩, ⟨m, S⟩, cap, ⟨it, t⟩, ⟨m, S'⟩, e, hv.capacity, e1, ?_⟩
    have hd := h1.drop (R := R) nd
    rw [Nat.zero_add] at hd
    simp only [true_and] at hd
    by_cases hc : IterOp.taken its xs < cap
    · rw [if_pos hc] at hd ⊢
      obtain ⟨m', S'', d1, d2, d3⟩ := hd
      exact ⟨_, d1, d2, d3⟩
    · rw [if_neg hc] at hd ⊢
      exact hd

/-- C134.  Deques, after any calls: the slices that `Drop` and the growth of the pointer array make of
the pointers to the subarrays may be made, and everything may be done with them, if that is so of the
pointer array. -/
theorem C134_deque_slices (E : DEnv α) (hS : 0 < E.S) (ops : List (DeqOp α)) (m0 : DMem α) :
    ∃ d m, Deque.history E ops m0 = .ok ((DeqOp.run ops []).1, d, m) ∧
      ∀ (S0 : Lineage) (t b : Nat), d.ptrs = .loc b 0 → S0.Can t .write b d.size →
        (∃ s S', d.freedPointers treeBorrows S0 t = .ok (s, S') ∧ S'.Can s .write b d.size) ∧
        ∃ s S', d.allPointers treeBorrows S0 t = .ok (s, S') ∧ S'.Can s .write b d.size := by
  obtain ⟨d, m, drops, e, ⟨pb, lo, bo, bl, h⟩, _⟩ := history_inv E hS ops m0
  refine ⟨d, m, e, fun S0 t b hb hc => ?_⟩
  have h2 := h.len
  have h3 := h.p.fits
  have h0 : bo / E.S = 0 := Nat.div_eq_of_lt h.b_lt
  have hq := Nat.zero_le ((bo + (DeqOp.run ops []).2.length) / E.S)
  have hpb : b = pb := by
    have := h.ptrs
    rw [hb] at this
    cases this
    rfl
  subst hpb
  refine ⟨?_, ?_⟩
  · unfold Deque.freedPointers
    rw [h.b, h.e]
    simp only [itAt, h0, Ptr.offsetFrom, Nat.add_zero]
    rw [if_pos ⟨trivial, by omega⟩]
    simp only [Exec.ok_bind]
    obtain ⟨_, S', e1, c1, _⟩ := sliceMut_tree hc (o := lo)
      (k := lo + (bo + (DeqOp.run ops []).2.length) / E.S - lo) (by omega) (by omega)
    exact ⟨_, S', e1, c1⟩
  · unfold Deque.allPointers
    rw [hb]
    obtain ⟨_, S', e1, c1, _⟩ := sliceMut_tree hc (o := 0) (k := d.size) (by omega) (by omega)
    exact ⟨_, S', e1, c1⟩

/-- C134.  Hash tables, after any calls: the slices that growing the bucket array and `iter_mut` make
of the buckets may be made, and the first may be used as the bucket array may, so that the static
bucket of a new map, which may only be read, can be read through it. -/
theorem C134_hash_slices {K V : Type} {E : HEnv K V Unit} {m0 : HMem K V} (S : HSetting E m0)
    (ops : List (MapOp K V)) (hpk : MapOp.peak E.eq ops [] ≤ 2557710464) :
    ∃ t m, HTable.history E ops m0 = .ok ((MapOp.run E.eq ops []).1, t, m) ∧
      ∀ (S0 : Lineage) (tag b : Nat) (a : Access), t.buckets = .loc b 0 → S0.Can tag a b t.bucketCount →
        (∃ s S', t.oldBuckets treeBorrows S0 tag = .ok (s, S') ∧ S'.Can s a b t.bucketCount) ∧
        ∃ s S', t.mutBuckets treeBorrows S0 tag = .ok (s, S') ∧ S'.Can s .read b t.bucketCount := by
  obtain ⟨t, m, bl, cs, e, h⟩ := S.run ops hpk
  refine ⟨t, m, e, fun S0 tag b a hb hc => ?_⟩
  have h2 := h.rep.core.pos
  refine ⟨?_, ?_⟩
  · unfold HTable.oldBuckets
    rw [hb]
    obtain ⟨_, S', e1, c1, _⟩ := sliceMut_tree hc (o := 0) (k := t.bucketCount) h2 (by omega)
    exact ⟨_, S', e1, c1⟩
  · unfold HTable.mutBuckets
    rw [hb]
    obtain ⟨_, _, S', e1, c1, _⟩ := slice_tree hc (o := 0) (k := t.bucketCount) h2 (by omega)
    exact ⟨_, S', e1, c1⟩

/-- C134.  Fixed pools: the pointer to a node that is used again may be used for the whole node. -/
theorem C134_pool_reuse {S0 : Lineage} {t b link node : Nat} (hl : link ≤ node)
    (hc : S0.Can t .write b node) :
    ∃ w S1 r S2, Pool.reuse treeBorrows S0 t (.loc b 0) link = .ok (w, S1) ∧
      treeBorrows.reborrow S1 .mutable w (.loc b 0) node = .ok (r, S2) ∧ S2.Can r .write b node := by
  obtain ⟨S1, e1, c1, _⟩ := reborrow_mut hc (o := 0) (k := link) (by omega)
  obtain ⟨S2, e2, c2, _⟩ := reborrow_mut c1 (o := 0) (k := node) (by omega)
  exact ⟨_, S1, _, S2, by simp only [Pool.reuse, Rules.pointerTo, tree_reborrow, e1, Exec.ok_bind, tree_raw],
    e2, c2⟩

/-- C134.  Lists: a list can be made at a place that `o` may write, and the first push, at either end,
is undefined behaviour: storing the second pointer to the sentinel in the sentinel ends the first. -/
theorem C134_list_push_ub {S0 : Lineage} {o b : Nat} (h0 : S0.Can o .write b 2) :
    ∃ s S1, Sentinel.new treeBorrows S0 o (.loc b 0) = .ok (s, S1) ∧
      s.pushBack treeBorrows S1 o (.loc b 0) = .error .ub ∧
      s.pushFront treeBorrows S1 o (.loc b 0) = .error .ub := by
  obtain ⟨S1, e1, _⟩ := h0.access (.inr rfl) (o := 0) (k := 2) (by omega)
  have h1 := h0.after (.inr rfl) (by omega) e1
  obtain ⟨S2, S3, e2, n2, e3, n3, l3⟩ := lend_first h1 (k := 2) (by omega)
  obtain ⟨S4, e4, g4, n4, _, p4⟩ := l3.t_can.access (.inr rfl) (o := 1) (k := 1) (by omega)
  have h4 := l3.t_can.after (.inr rfl) (by omega) e4
  obtain ⟨S5, e5, _, m5⟩ := reborrow_mut h4 (o := 0) (k := 2) (by omega)
  have h5 := h4.made m5 fun _ hu => hu
  obtain ⟨S6, e6, g6, n6, _, p6⟩ := h5.access (.inr rfl) (o := 0) (k := 1) (by omega)
  have r_lt : S2.next < S4.next := by omega
  have t_lt : S1.next < S4.next := by omega
  have h6 : Ended S6 b 0 S2.next := by
    refine ⟨?_, ?_, ?_⟩
    · rw [n6, m5.next]; omega
    · rw [g6, m5.line_old r_lt, g4, l3.e_line]
      simp
    · rw [p6, if_pos (by omega), if_neg]
      · cases S5.perm b 0 S2.next <;> rfl
      · rw [m5.line_old t_lt, g4, l3.t_line]
        intro hm
        rcases List.mem_cons.1 hm with hm | hm
        · omega
        · have := l3.o_old _ hm
          omega
  refine ⟨⟨S4.next, S2.next⟩, S6, ?_, ?_, ?_⟩
  · have e5' : treeBorrows.pointerTo S4 S1.next (.loc b 0) 2 = .ok (S4.next, S5) := by
      simp only [Rules.pointerTo, tree_reborrow, e5, Exec.ok_bind, tree_raw]
    simp only [tree_access, tree_reborrow, Sentinel.new, Sentinel.init, e1, e2, e3, e4, e5', e6,
      Exec.ok_bind, Ptr.next, Nat.zero_add]
  · simp only [Sentinel.pushBack, Rules.pointerTo, tree_reborrow, tree_access, tree_raw, bind_assoc]
    refine h6.bind_reborrow fun t S7 h7 => ?_
    refine h7.bind_reborrow fun w S8 h8 => ?_
    refine h8.bind_access fun S9 h9 => ?_
    refine h9.bind_access fun S10 h10 => ?_
    rw [h10.access_ub]
    rfl
  · simp only [Sentinel.pushFront, tree_reborrow, tree_access]
    refine h6.bind_reborrow fun t S7 h7 => ?_
    refine h7.bind_access fun S8 h8 => ?_
    refine h8.bind_access fun S9 h9 => ?_
    refine h9.bind_access fun S10 h10 => ?_
    rw [h10.access_ub]
    rfl

/-- C134.  Fixed vectors: one can be made at a place that `o` may write, looked at while it is empty,
and pushed to; then looking at it is undefined behaviour: the write through the end pointer ended the
begin pointer, which was made of another reference. -/
theorem C134_fixed_vector_slice_ub {S0 : Lineage} {o b n : Nat} (h0 : S0.Can o .write b n) (hn : 0 < n) :
    ∃ v S1 S2, Inward.new treeBorrows S0 o (.loc b 0) n = .ok (v, S1) ∧
      (∃ u, v.asSlice treeBorrows S1 o (.loc b 0) n = .ok u) ∧
      v.push treeBorrows S1 o (.loc b 0) n = .ok S2 ∧
      v.asSlice treeBorrows S2 o (.loc b 0) n = .error .ub := by
  obtain ⟨S1, e1, _⟩ := h0.access (.inr rfl) (o := 0) (k := n) (by omega)
  have h1 := h0.after (.inr rfl) (by omega) e1
  obtain ⟨S2, S3, e2, n2, e3, n3, l3⟩ := lend_first h1 (k := 1) hn
  obtain ⟨S4, e4, n4, b4, l4⟩ := l3.next (k := 1) hn
  obtain ⟨S5, e5, n5, l5, _⟩ := l4.next (k := 1) hn
  obtain ⟨S5', e5', _, b5, _⟩ := b4.next (k := 1) hn
  rw [e5] at e5'
  cases e5'
  obtain ⟨S6, e6, n6, l6, _⟩ := l5.next (k := 1) hn
  obtain ⟨S6', e6', _, b6, _⟩ := b5.next (k := 1) hn
  rw [e6] at e6'
  cases e6'
  obtain ⟨S7, e7, _, m7⟩ := reborrow_mut l6.can (o := 0) (k := n) (by omega)
  have l7 := l6.made m7 fun _ hu => hu
  have b7 := b6.made m7 fun _ hu => hu
  obtain ⟨S8, e8, g8, n8, _, p8⟩ := l7.e_can.access (.inr rfl) (o := 0) (k := 1) (by omega)
  have h8 : Ended S8 b 0 S2.next := by
    refine ⟨by rw [n8]; exact b7.e_lt, by rw [g8, b7.e_line]; simp, ?_⟩
    rw [p8, if_pos (by omega), if_neg]
    · cases S7.perm b 0 S2.next <;> rfl
    · rw [l7.e_line]
      intro hm
      simp only [List.mem_cons] at hm
      have := b7.t_old
      rcases hm with hm | hm | hm
      · omega
      · omega
      · have := b7.o_old _ hm
        omega
  obtain ⟨S9, e9, _, m9⟩ := reborrow_shared l6.can (o := 0) (k := n) (by omega)
  obtain ⟨S10, e10, _⟩ := reborrow_shared (b6.made m9 fun _ hu => hu).e_can (o := 0) (k := 1) hn
  refine ⟨⟨S2.next, S3.next, S4.next, S5.next⟩, S6, S8, ?_, ⟨(S9.next, S10), ?_⟩, ?_, ?_⟩
  · simp only [tree_access, tree_reborrow, Inward.new, Inward.init, e1, e2, e3, e4, e5, e6, Exec.ok_bind]
  · simp only [Inward.asSlice, tree_reborrow, e9, Exec.ok_bind]
    exact e10
  · simp only [Inward.push, tree_reborrow, tree_access, e7, Exec.ok_bind, e8]
  · simp only [Inward.asSlice, tree_reborrow]
    refine h8.bind_reborrow fun t S11 h11 => ?_
    exact h11.make_ub .frozen

/-- The calls that C130 forbids. -/
example : ∃ v M, TVec.run treeBorrows (defaultAllocator RawAlloc.bump) false
    [.push 1, .push 2, .push 3, .slice, .set 1 5, .append [6, 7], .slice, .clear, .push 4] TVec.new
      ⟨Mem.empty, Lineage.start⟩ =
    .ok ([.unit, .unit, .unit, .list [1, 2, 3], .unit, .unit, .list [1, 5, 3, 6, 7], .unit, .unit], v, M) := by
  have h := C134_vector_borrows RawAlloc.bump false Mem.empty Lineage.start
    [.push 1, .push 2, .push 3, .slice, .set 1 5, .append [6, 7], .slice, .clear, .push 4] (by simp)
  obtain ⟨v, M, e, _⟩ := h
  exact ⟨v, M, e⟩

example : ∃ M : BMem Nat Lineage, (do
    let (_, v, M) ← TVec.run treeBorrows (defaultAllocator RawAlloc.bump) true ([5, 6, 7].map .push)
      TVec.new ⟨Mem.empty, Lineage.start⟩
    let (_, it, M) ← TIntoIter.run treeBorrows [.next] v.intoIter M
    it.drop treeBorrows (defaultAllocator RawAlloc.bump) true M) = .ok M ∧ M.mem.dropped = [6, 7] :=
  ⟨_, rfl, rfl⟩

/-- A new block may be written through the pointer to it; nothing may be done with one that was
freed. -/
theorem can_allocate (n : Nat) : (Lineage.start.allocate (.loc 0 0) n).2.Can 0 .write 0 n := by
  refine ⟨by simp [Lineage.allocate, Lineage.start], by simp [Lineage.allocate, Lineage.start], ?_⟩
  intro o ho u hu
  simp only [Lineage.allocate, Lineage.start, Function.update_self, List.mem_singleton] at hu ⊢
  subst hu
  simp [ho, Perm.allows]

example : (do
    let S ← (Lineage.start.allocate (.loc 0 0) 2).2.free 0 (.loc 0 0) 2
    S.access 0 .read (.loc 0 1) 1 : Exec Lineage) = .error .ub := by rfl

/-- A reference that was written ends what was made of the other one. -/
example : (do
    let (r, S) ← (Lineage.start.allocate (.loc 0 0) 2).2.reborrow .mutable 0 (.loc 0 0) 2
    let (s, S) ← S.reborrow .mutable 0 (.loc 0 0) 2
    let S ← S.access r .read (.loc 0 0) 2
    let S ← S.access s .write (.loc 0 0) 1
    S.access r .read (.loc 0 0) 1 : Exec Lineage) = .error .ub := by rfl

example : ∃ s S1, Sentinel.new treeBorrows (Lineage.start.allocate (.loc 0 0) 2).2 0 (.loc 0 0) = .ok (s, S1) ∧
    s.pushBack treeBorrows S1 0 (.loc 0 0) = .error .ub ∧
    s.pushFront treeBorrows S1 0 (.loc 0 0) = .error .ub :=
  C134_list_push_ub (can_allocate 2)

example : ∃ v S1 S2,
    Inward.new treeBorrows (Lineage.start.allocate (.loc 0 0) 3).2 0 (.loc 0 0) 3 = .ok (v, S1) ∧
      (∃ u, v.asSlice treeBorrows S1 0 (.loc 0 0) 3 = .ok u) ∧
      v.push treeBorrows S1 0 (.loc 0 0) 3 = .ok S2 ∧
      v.asSlice treeBorrows S2 0 (.loc 0 0) 3 = .error .ub :=
  C134_fixed_vector_slice_ub (can_allocate 3) (by decide)

example : ∃ w S1 r S2,
    Pool.reuse treeBorrows (Lineage.start.allocate (.loc 0 0) 3).2 0 (.loc 0 0) 1 = .ok (w, S1) ∧
      treeBorrows.reborrow S1 .mutable w (.loc 0 0) 3 = .ok (r, S2) ∧ S2.Can r .write 0 3 :=
  C134_pool_reuse (by decide) (can_allocate 3)

/-- Five elements with two to a subarray. -/
example : 0 < (2 : Nat) ∧ (DeqOp.run (List.replicate 5 (DeqOp.pushBack 7)) []).2.length = 5 := by decide

example : MapOp.peak (exampleHash id).eq exampleHashOps [] ≤ 2557710464 := by decide

end Verif
