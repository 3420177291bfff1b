import Verif.Unwind.Deque
import Verif.Unwind.CollectFacts
import Verif.Props.Deque
import Verif.Props.Vector
import Verif.Props.LinkedList
import Verif.Props.HashTable

/-! What panicking destructors do to deques, and panicking iterators to containers being built. -/

set_option autoImplicit false

namespace Verif
open Spec

variable {α K V : Type}

/-! ## C107 -/

/-- C107 fails: if a destructor panics while a deque is dropped, the elements behind it are never
dropped, and no memory of the deque is freed, neither its subarrays nor its pointer array. -/
theorem C107_deque_drop_abandons (E : DEnv α) (hS : 0 < E.S) (ops : List (DeqOp α)) (m0 : DMem α)
    {outs : List (Out α)} {d : Deque} {m : DMem α}
    (h : Deque.history E ops m0 = .ok (outs, d, m)) (bad : α → Bool) {pre post : List α} {x : α}
    (hxs : (DeqOp.run ops []).2 = pre ++ x :: post) (hx : bad x = true)
    (hpre : ∀ y ∈ pre, bad y = false) :
    ∃ m', d.dropP E bad m = .ok (.unwinds m') ∧ m'.t.dropped = m.t.dropped ++ (pre ++ [x]) ∧
      m'.t.live = m.t.live ∧ m'.p.live = m.p.live ∧
      (∃ b, m0.t.live b = none ∧ m'.t.live b ≠ none) ∧
      (∃ b, m0.p.live b = none ∧ m'.p.live b ≠ none) := by
  obtain ⟨pb, lo, bo, bl, h⟩ := history_ok hS h
  have hb := h.bl_pos
  have hp := h.p
  have ht := h.t
  rw [hxs] at h
  refine ⟨_, h.dropP_unwinds bad hx hpre, rfl, rfl, rfl, ?_, ?_⟩
  · obtain ⟨blk, e, _⟩ := ht.ins _ (List.getElem_mem hb)
    exact ⟨bl[0], ht.fresh _ (List.getElem_mem hb), by simp [e]⟩
  · obtain ⟨blk, e, _⟩ := hp.ins
    exact ⟨pb, hp.fresh, by simp [e]⟩

/-- C107, the true part.  Dropping a deque never aborts the process, however many of its elements
have destructors that panic, and drops no element twice: it drops a prefix of the elements, in
order, which is all of them if no destructor panics; then the memory is what it is for elements
that never panic.  Missing: the elements behind the one that panics. -/
theorem C107_deque_drop_partial (E : DEnv α) (hS : 0 < E.S) (hnd : E.nd = true)
    (ops : List (DeqOp α)) (m0 : DMem α) {outs : List (Out α)} {d : Deque} {m : DMem α}
    (h : Deque.history E ops m0 = .ok (outs, d, m)) (bad : α → Bool) :
    ∃ m' ys, (d.dropP E bad m = .ok (.returns m') ∨ d.dropP E bad m = .ok (.unwinds m')) ∧
      m'.t.dropped = m.t.dropped ++ ys ∧ ys <+: (DeqOp.run ops []).2 ∧
      ((∀ x ∈ (DeqOp.run ops []).2, bad x = false) → ys = (DeqOp.run ops []).2 ∧
        d.dropP E bad m = .ok (.returns m') ∧ d.drop E m = .ok m') := by
  obtain ⟨pb, lo, bo, bl, h⟩ := history_ok hS h
  by_cases hb : ∀ x ∈ (DeqOp.run ops []).2, bad x = false
  · obtain ⟨m', _, e1, _, _, e4⟩ := h.drop
    have e := h.dropP_returns hnd bad hb e1
    rw [hnd, if_pos rfl] at e4
    exact ⟨m', _, .inl e, e4, List.prefix_rfl, fun _ => ⟨rfl, e, e1⟩⟩
  · have hex : ∃ x ∈ (DeqOp.run ops []).2, bad x = true := by
      simpa using hb
    have hf : ((DeqOp.run ops []).2.find? bad).isSome := by
      rw [List.isSome_find?, List.any_eq_true]; exact hex
    obtain ⟨x, hx⟩ := Option.isSome_iff_exists.1 hf
    obtain ⟨hbx, pre, post, hxs, hpre⟩ := List.find?_eq_some_iff_append.1 hx
    rw [hxs] at h
    refine ⟨_, pre ++ [x], .inr (h.dropP_unwinds bad hbx fun y hy => by simpa using hpre y hy),
      rfl, ?_, fun hn => absurd hn hb⟩
    rw [hxs]
    exact ⟨post, by simp⟩

/-- Non-vacuity of C107: 3, 1, 2, 4 where the destructors of 1 and 4 panic, and where none does. -/
example : (do
    let (_, d, m) ← Deque.history exampleEnv [.pushBack 1, .pushBack 2, .pushFront 3, .pushBack 4]
      ⟨Mem.empty, Mem.empty⟩
    let r ← d.dropP exampleEnv (fun x => x == 1 || x == 4) m
    let r' ← d.dropP exampleEnv (fun _ => false) m
    let show' : Ends (DMem Nat) → List Nat × List Bool × List Bool := fun
      | .returns m | .unwinds m => (m.t.dropped, (List.range 4).map (fun b => (m.t.live b).isSome),
          (List.range 2).map (fun b => (m.p.live b).isSome))
      | .aborts => ([], [], [])
    .ok (show' r, show' r')) =
  (.ok (([3, 1], [true, true, true, false], [true, false]),
    ([3, 1, 2, 4], [false, true, false, false], [false, false])) : Exec _) := by
  decide +kernel

/-! ## C108 -/

/-- C108, vectors: if the iterator panics after yielding `items`, whatever lower bound its size
hint gave, unwinding drops each item once and leaves memory as it was. -/
theorem C108_vector_collect (R : RawAlloc α) (nd : Bool) (hint : Nat) (items : List α)
    (m0 : Mem α) :
    ∃ m', Vec.collectP (defaultAllocator R) nd hint items m0 = .ok m' ∧ m'.live = m0.live ∧
      m'.dropped = m0.dropped ++ if nd then items else [] := by
  obtain ⟨v, m, he, hi, hd0⟩ :=
    (VInv.new defaultFits m0).reserve_any (defaultAllocator_lawful R) hint
  obtain ⟨v2, m2, cap2, he2, hi2, hd, _⟩ := hi.pushAll (defaultAllocator_lawful R) items
  obtain ⟨m', hc, _, hw, _, _, hef⟩ := hi2.clear (defaultAllocator_lawful R) nd
  refine ⟨m', by simp [Vec.collectP, Vec.fromIter, Vec.withCapacity, he, he2, hc],
    funext fun p => hw p not_false, ?_⟩
  rw [hef.dropped, hd, hd0.dropped]
  simp

/-- C108, deques and queues: each item is dropped once, and memory is as it was but for one
subarray.  Missing: that subarray stays allocated, as always when a deque is dropped (C32). -/
theorem C108_deque_collect_partial (E : DEnv α) (hS : 0 < E.S) (items : List α) (m0 : DMem α) :
    ∃ m' B, Deque.collectP E items m0 = .ok m' ∧
      m'.t.dropped = m0.t.dropped ++ (if E.nd then items else []) ∧
      (∀ b, b ≠ B → m'.t.live b = m0.t.live b) ∧ m'.p.live = m0.p.live ∧
      m0.t.live B = none ∧ m'.t.live B ≠ none := by
  obtain ⟨d0, m1, h1, h2, h3⟩ := DInv.newIn E hS m0
  have key : ∀ (xs ys : List α) (d : Deque) (m : DMem α), DInv E m0 m d ys →
      ∃ d' m', xs.foldlM (fun (s : Deque × DMem α) x => s.1.pushBack E x s.2) (d, m) =
        (.ok (d', m') : Exec _) ∧ DInv E m0 m' d' (ys ++ xs) ∧ m'.t.dropped = m.t.dropped := by
    intro xs
    induction xs with
    | nil => intro ys d m h; exact ⟨d, m, rfl, by simpa using h, rfl⟩
    | cons x xs ih =>
      rintro ys d m ⟨pb, lo, bo, bl, h⟩
      obtain ⟨d', m', pb', lo', bl', e1, e2, e3, _⟩ := h.pushBack x
      obtain ⟨d2, m2, e4, e5, e6⟩ := ih (ys ++ [x]) d' m' ⟨_, _, _, _, e2⟩
      exact ⟨d2, m2, by simp [List.foldlM_cons, e1, e4], by simpa using e5, e6.trans e3⟩
  obtain ⟨d, m, h4, ⟨pb, lo, bo, bl, h5⟩, h6⟩ := key items [] d0 m1 h2
  obtain ⟨m', B, e1, e2, e3, e4⟩ := h5.drop
  refine ⟨m', B, by simp [Deque.collectP, Deque.fromIter, h1, h4, e1], ?_,
    fun b hb => e2.out b (by simpa using hb), e3, e2.fresh B (by simp), ?_⟩
  · rw [e4, h6, h3]
    simp
  · obtain ⟨blk, hb, _⟩ := e2.ins B (by simp)
    simp [hb]

/-- C108, lists: a panic of the iterator given to `extend` leaves the list with the items so far at
its end, and every later history on it returns what it returns on that sequence. -/
theorem C108_list_extend (P : Placer (LNode α) α) {size align : Nat} (hsz : 0 < size) (nd : Bool)
    (ops ops' : List (ListOp α)) (items : List α) (m0 : LMem α) (hwf : m0.WF) (s : Nat)
    (hs : m0.node s ≠ none) {outs : List (Out α)} {l : LList Unit} {m : LMem α}
    (h : LList.history (listEnv P size align nd false) ops () s m0 = .ok (outs, l, m)) :
    ∃ l1 m1 l2 m2, l.extendP (listEnv P size align nd false) items m = .ok (.unwinds (l1, m1)) ∧
      l1.run (listEnv P size align nd false) ops' m1 =
        .ok ((ListOp.run ops' ((ListOp.run ops []).2 ++ items)).1, l2, m2) := by
  obtain ⟨ps, _, h, _⟩ := list_history_ok hsz hwf hs h
  have L := listEnv_law P align nd hsz m0
  obtain ⟨l1, m1, qs, e1, _, _, _, e5, _⟩ := LRep.extend L items h
  obtain ⟨l2, m2, ps2, f1, _⟩ := LRep.run L ops' e5
  exact ⟨l1, m1, l2, m2, by simp [LList.extendP, e1], f1⟩

/-- C108, hash maps and sets: every key and value the iterator yielded is dropped exactly once, all
nodes are freed, memory in use before is untouched.  Missing: the bucket arrays (C55). -/
theorem C108_hash_collect_partial {E : HEnv K V Unit} {m0 : HMem K V} (S : HSetting E m0)
    (items : List (K × V)) (hlen : items.length ≤ 2557710464) :
    ∃ (m' : HMem K V) (D : List (K ⊕ V)), HTable.collectP E () items m0 = .ok m' ∧ m'.n.reg = m0.n.reg ∧
      m'.n.node = m0.n.node ∧
      m'.n.dropped.Perm (m0.n.dropped ++ D.filter fun x =>
        match x with | .inl _ => E.ndK | .inr _ => E.ndV) ∧
      D.Perm (items.flatMap fun p => [Sum.inl p.1, Sum.inr p.2]) ∧
      ∀ b, m0.b.live b ≠ none → m'.b.live b = m0.b.live b := by
  obtain ⟨t, m, pk, bl, cs, D, e1, e2, e3, e4⟩ := S.init.insertAll_drops S.law S.equiv S.hash items
    (by simpa [ents, maxEntries] using hlen)
  obtain ⟨a, m', f1, f2, f3⟩ := e2.freeBuckets S.law
  have hinv := f2.inv
  have hnil : addrs (List.replicate t.bucketCount ([] : List (Nat × K × V))) = [] := by
    simp [addrs]
  rw [hnil] at hinv
  have hneeds : (fun x : K ⊕ V => match x with | .inl _ => E.ndK | .inr _ => E.ndV) = E.needs := by
    funext x; cases x <;> rfl
  refine ⟨m', D ++ contents (ents cs), by simp [HTable.collectP, e1, HTable.drop, f1], hinv.done,
    ?_, ?_, ?_, fun b hb => f2.out b fun hm => hb (f2.blNew b hm).1⟩
  · funext q
    by_cases hq : m0.n.node q = none
    · rw [hq]; exact (hinv.node q (by simp)).2 hq
    · exact (f2.keep q hq).2
  · rw [hneeds, List.filter_append, ← List.append_assoc]
    exact f3.trans (e3.append_right _)
  · refine (List.perm_append_comm.trans e4.symm).trans ?_
    exact .refl _

/-- Non-vacuity of C108: a vector and a deque of 1, 2, 3, a list 7 extended by 1, 2, and a hash map
given a key twice. -/
example :
    (do
      let m ← Vec.collectP (defaultAllocator RawAlloc.bump) true 2 [1, 2, 3] (Mem.empty : Mem Nat)
      .ok (m.dropped, (List.range 3).map fun b => (m.live b).isSome)) =
      (.ok ([1, 2, 3], [false, false, false]) : Exec _) ∧
    (do
      let m ← Deque.collectP exampleEnv [1, 2, 3] ⟨Mem.empty, Mem.empty⟩
      .ok (m.t.dropped, (List.range 3).map fun b => (m.t.live b).isSome)) =
      (.ok ([1, 2, 3], [false, true, false]) : Exec _) ∧
    (do
      let (_, l, m) ← LList.history (listEnv Placer.bump 24 8 true false) [.pushBack 7] () 64
        exampleListMem
      match ← l.extendP (listEnv Placer.bump 24 8 true false) [1, 2] m with
      | .unwinds (l, m) => do
        let (os, _, _) ← l.run (listEnv Placer.bump 24 8 true false)
          [.popFront, .popFront, .popFront, .len] m
        .ok os
      | _ => .error .ub) =
      (.ok [.elem (some 7), .elem (some 1), .elem (some 2), .nat 0] : Exec _) ∧
    (do
      let m ← HTable.collectP (exampleHash (· % 100)) () [(1, 10), (2, 20), (101, 11)] exampleHashMem
      .ok m.n.dropped) =
      (.ok [.inl 101, .inr 10, .inl 2, .inr 20, .inl 1, .inr 11] : Exec (List (Nat ⊕ Nat))) := by
  refine ⟨?_, ?_, rfl, ?_⟩ <;> decide +kernel

end Verif
