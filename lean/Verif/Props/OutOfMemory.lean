import Verif.Props.LinkedList
import Verif.Props.Vector
import Verif.Props.HashTable
import Verif.HashTable.Cost
import Verif.HashTable.NoArray

/-!
# What containers do when memory runs out (C85, C100)

After any history with a working allocator, the allocator starts to return null pointers, which
is how the allocators of the crate, like `std::alloc::alloc` under them, report that there is no
memory (src/allocator.rs:101-119, src/fixed_pool/mod.rs:60-83).
-/

set_option autoImplicit false

namespace Verif
open Spec

variable {N D σ α K V : Type}

/-- The same allocator with no memory left: `alloc` returns a null pointer, `dealloc` works
(src/allocator.rs:105-119). -/
def NAlloc.exhausted (A : NAlloc N D σ) : NAlloc N D σ :=
  { A with alloc := fun _ _ s m => .ok (0, s, m) }

/-- A list whose allocator has no memory left. -/
def LEnv.exhausted (E : LEnv α σ) : LEnv α σ := { E with A := E.A.exhausted }

/-- A hash table whose allocator has no memory left for nodes. -/
def HEnv.exhausted (E : HEnv K V σ) : HEnv K V σ := { E with A := E.A.exhausted }

/-- No node is at address 0. -/
theorem NMem.WF.zero {m : NMem N D} (h : m.WF) : m.node 0 = none := by
  by_contra hn
  obtain ⟨a, r, h1, h2, h3⟩ := h.cover 0 hn
  exact h.null a r h1 (by omega)

/-! ## Vectors -/

/-- The allocator of a vector or string, with no memory left (src/allocator.rs:105-119). -/
def Allocator.exhausted (A : Allocator α) : Allocator α :=
  { A with alloc := fun _ m => .ok (.null, m) }

theorem reserve_exhausted {keeps : Nat → Prop} {fits : Nat → Nat → Region → Nat → Prop}
    {w : World α} {m : Mem α} {v : Vec} {xs : List α} {cap : Nat}
    (h : VInv keeps fits w m v xs cap) (A : Allocator α) {n : Nat} (hn : n ≠ 0) :
    v.reserve A.exhausted n m = .error .ub := by
  have hal : A.exhausted.alloc (cap + n) m = .ok (.null, m) := rfl
  simp only [Vec.reserve, if_neg hn, h.len, h.capacity, Exec.ok_bind, hal]
  by_cases hb : v.beginPtr = .null
  · simp only [if_pos hb, Exec.ok_bind]
    by_cases hx : xs.length = 0
    · simp [Mem.ptrAdd, hx, hn]
    · simp [Mem.ptrAdd, hx]
  · have hc : m.copy v.beginPtr .null xs.length = .error .ub := by
      unfold Mem.copy
      cases v.beginPtr <;> rfl
    simp only [if_neg hb, hc, Exec.error_bind]

/-- C85.  When memory runs out, a call that has to enlarge the buffer of a vector copies to, or
computes an offset from, a null pointer: undefined behaviour in safe code.  `SeqOp.capAfter` is
the capacity that C02 proves the call would leave behind. -/
theorem C85_growing_calls_ub (R : RawAlloc α) (nd : Bool) (m0 : Mem α) (ops : List (SeqOp α))
    (hops : nd = true → ∀ op ∈ ops, op.isSlice = false) {outs : List (Out α)} {v : Vec} {m : Mem α}
    (hrun : Vec.run (defaultAllocator R) nd ops Vec.new m0 = .ok (outs, v, m)) {len cap : Nat}
    (hlen : v.len = .ok len) (hcap : v.capacity = .ok cap) (op : SeqOp α)
    (hin : ∀ i x, op = .insert i x → i ≤ len) (hgrow : cap < op.capAfter len cap) :
    v.step (defaultAllocator R).exhausted nd op m = .error .ub := by
  obtain ⟨xs, _, cap', _, h, _, _⟩ := reachable_inv R nd m0 ops hops hrun
  obtain rfl : xs.length = len := by simpa [h.len] using hlen
  obtain rfl : cap' = cap := by simpa [h.capacity] using hcap
  have hle := h.len_le
  have hgr : v.grow (defaultAllocator R).exhausted m = .error .ub := by
    simp only [Vec.grow, h.capacity, Exec.ok_bind]
    refine reserve_exhausted h _ ?_
    unfold Vec.calculateGrowCapacity
    split_ifs <;> omega
  cases op with
  | push x =>
    have hf : xs.length = cap' := by
      simp only [SeqOp.capAfter] at hgrow
      split_ifs at hgrow <;> omega
    simp [Vec.step, Vec.push, h.isFull, hf, hgr]
  | insert i x =>
    have hf : xs.length = cap' := by
      simp only [SeqOp.capAfter] at hgrow
      split_ifs at hgrow <;> omega
    have hi := hin i x rfl
    rw [hf] at hi
    simp [Vec.step, Vec.insert, h.isFull, h.len, hf, hgr, hi]
  | reserve n =>
    simp only [SeqOp.capAfter] at hgrow
    simp [Vec.step, reserve_exhausted h _ (show n ≠ 0 by omega)]
  | append buf =>
    simp only [SeqOp.capAfter] at hgrow
    have hc : cap' < xs.length + buf.length := by omega
    simp [Vec.step, Vec.append, h.len, h.capacity, hc,
      reserve_exhausted h _ (show xs.length + buf.length - cap' ≠ 0 by omega)]
  | assign buf =>
    simp only [SeqOp.capAfter] at hgrow
    have hc : cap' < buf.length := by omega
    simp [Vec.step, Vec.assign, h.capacity, hc,
      reserve_exhausted h _ (show buf.length - cap' ≠ 0 by omega)]
  | _ => simp [SeqOp.capAfter] at hgrow

/-- C85.  Every other call on a vector, and a call that panics for another reason, does what it
does with memory to spare. -/
theorem C85_other_calls_partial (R : RawAlloc α) (nd : Bool) (m0 : Mem α)
    (ops : List (SeqOp α)) (hops : nd = true → ∀ op ∈ ops, op.isSlice = false)
    {outs : List (Out α)} {v : Vec} {m : Mem α}
    (hrun : Vec.run (defaultAllocator R) nd ops Vec.new m0 = .ok (outs, v, m)) {len cap : Nat}
    (hlen : v.len = .ok len) (hcap : v.capacity = .ok cap) (op : SeqOp α)
    (hroom : op.capAfter len cap ≤ cap ∨ ∃ i x, op = .insert i x ∧ len < i) :
    v.step (defaultAllocator R).exhausted nd op m = v.step (defaultAllocator R) nd op m := by
  obtain ⟨xs, _, cap', _, h, _, _⟩ := reachable_inv R nd m0 ops hops hrun
  obtain rfl : xs.length = len := by simpa [h.len] using hlen
  obtain rfl : cap' = cap := by simpa [h.capacity] using hcap
  have hle := h.len_le
  cases op with
  | push x =>
    have hf : xs.length ≠ cap' := by
      simp only [SeqOp.capAfter, reduceCtorEq, false_and, exists_false, or_false] at hroom
      split_ifs at hroom <;> omega
    simp [Vec.step, Vec.push, h.isFull, hf]
  | insert i x =>
    rcases hroom with hroom | ⟨i', x', he, hi⟩
    · have hf : xs.length ≠ cap' := by
        simp only [SeqOp.capAfter] at hroom
        split_ifs at hroom <;> omega
      simp [Vec.step, Vec.insert, h.isFull, h.len, hf]
    · cases he
      simp [Vec.step, Vec.insert, h.len, Nat.not_le.2 hi]
  | reserve n =>
    simp only [SeqOp.capAfter, reduceCtorEq, false_and, exists_false, or_false] at hroom
    obtain rfl : n = 0 := by omega
    rfl
  | append buf =>
    simp only [SeqOp.capAfter, reduceCtorEq, false_and, exists_false, or_false] at hroom
    have hc : ¬ cap' < xs.length + buf.length := by omega
    simp [Vec.step, Vec.append, h.len, h.capacity, hc]
  | assign buf =>
    simp only [SeqOp.capAfter, reduceCtorEq, false_and, exists_false, or_false] at hroom
    have hc : ¬ cap' < buf.length := by omega
    simp [Vec.step, Vec.assign, h.capacity, hc]
  | _ => rfl

/-- A full vector and one with room. -/
example : (do
    let (_, v, m) ← Vec.run (defaultAllocator RawAlloc.bump) true [.push 1, .push (2 : Nat)]
      Vec.new Mem.empty
    let (_, v, m) ← v.step (defaultAllocator RawAlloc.bump).exhausted true .pop m
    let (_, v, m) ← v.step (defaultAllocator RawAlloc.bump).exhausted true (.push 7) m
    let xs ← v.asSlice m
    match v.step (defaultAllocator RawAlloc.bump).exhausted true (.push 8) m with
    | .error e => .ok (xs, e)
    | .ok _ => .error .panic) = (.ok ([1, 7], .ub) : Exec _) := rfl

/-! ## Lists -/

theorem clearLoop_exhausted (E : LEnv α σ) : ∀ (n p : Nat) (l : LList σ) (m : LMem α),
    LList.clearLoop E.exhausted n p l m = LList.clearLoop E n p l m := by
  intro n
  induction n with
  | zero => intros; rfl
  | succ n ih =>
    intro p l m
    simp only [LList.clearLoop, ih]
    rfl

section
variable (P : Placer (LNode α) α) {size : Nat} (align : Nat) (nd : Bool) (hsz : 0 < size)
include hsz

/-- C100.  When memory runs out, a call that adds elements to a list panics having changed
nothing (the error carries no new state), and every other call does what it always does. -/
theorem C100_list_out_of_memory (ops : List (ListOp α)) (m0 : LMem α) (hwf : m0.WF) (s : Nat)
    (hs : m0.node s ≠ none) {outs : List (Out α)} {l : LList Unit} {m : LMem α}
    (h : LList.history (listEnv P size align nd false) ops () s m0 = .ok (outs, l, m))
    (op : ListOp α) :
    if (ListOp.run ops []).2.length < (op.step (ListOp.run ops []).2).2.length then
      l.step (listEnv P size align nd false).exhausted op m = .error .panic
    else ∃ l' m', l.step (listEnv P size align nd false).exhausted op m =
        .ok ((op.step (ListOp.run ops []).2).1, l', m') ∧
      l.step (listEnv P size align nd false) op m =
        .ok ((op.step (ListOp.run ops []).2).1, l', m') := by
  obtain ⟨ps, _, h, _⟩ := list_history_ok hsz hwf hs h
  obtain ⟨l', m', _, h1, _⟩ := h.step (listEnv_law P align nd hsz m0) op
  have hnew : ∀ x, l.createNode (listEnv P size align nd false).exhausted x m =
      .error .panic := fun x => rfl
  split_ifs with hlt
  · cases op with
    | pushBack x => simp [LList.step, LList.pushBack, hnew]
    | pushFront x => simp [LList.step, LList.pushFront, hnew]
    | extend ys =>
      cases ys with
      | nil => simp [ListOp.step] at hlt
      | cons y ys => simp [LList.step, LList.extend, LList.pushBack, hnew]
    | setFront x =>
      simp only [ListOp.step] at hlt
      split_ifs at hlt with hx <;> simp [hx] at hlt
      have := List.length_pos_iff.2 hx
      omega
    | setBack x =>
      simp only [ListOp.step] at hlt
      split_ifs at hlt with hx <;> simp [hx] at hlt
      have := List.length_pos_iff.2 hx
      omega
    | popBack => simp [ListOp.step] at hlt; omega
    | popFront => simp [ListOp.step] at hlt; omega
    | _ => simp [ListOp.step] at hlt
  · refine ⟨l', m', ?_, h1⟩
    rw [← h1]
    cases op with
    | pushBack x => simp [ListOp.step] at hlt
    | pushFront x => simp [ListOp.step] at hlt
    | extend ys =>
      cases ys with
      | nil => rfl
      | cons y ys => simp [ListOp.step] at hlt
    | clear => simp only [LList.step, LList.clear, clearLoop_exhausted]
    | _ => rfl

omit hsz in
/-- A list of two elements: a push panics, a pop works. -/
example : (do
    let (_, l, m) ← LList.history (listEnv Placer.bump 24 8 true false) [.pushBack 5, .pushFront 4]
      () 64 exampleListMem
    let (o, _, _) ← l.step (listEnv Placer.bump 24 8 true false).exhausted .popBack m
    match l.step (listEnv Placer.bump 24 8 true false).exhausted (.pushBack 6) m with
    | .error e => .ok (o, e)
    | .ok _ => .error .ub) = (.ok (.elem (some 5), .panic) : Exec _) := rfl

end

/-! ## Hash maps -/

theorem findInBucket_exhausted (E : HEnv K V σ) : ∀ (n p : Nat) (k : K) (m : HMem K V),
    findInBucket E.exhausted n p k m = findInBucket E n p k m := by
  intro n
  induction n with
  | zero => intros; rfl
  | succ n ih =>
    intro p k m
    simp only [findInBucket, ih]
    rfl

theorem fillNull_exhausted (E : HEnv K V σ) : ∀ (n : Nat) (p : Ptr) (m : HMem K V),
    fillNull E.exhausted p n m = fillNull E p n m := by
  intro n
  induction n with
  | zero => intros; rfl
  | succ n ih =>
    intro p m
    simp only [fillNull, ih]
    rfl

theorem freeBucket_exhausted (E : HEnv K V σ) : ∀ (n p : Nat) (a : σ) (m : HMem K V),
    HTable.freeBucket E.exhausted n p a m = HTable.freeBucket E n p a m := by
  intro n
  induction n with
  | zero => intros; rfl
  | succ n ih =>
    intro p a m
    simp only [HTable.freeBucket, ih]
    rfl

theorem freeChains_exhausted (E : HEnv K V σ) (fuel : Nat) : ∀ (n : Nat) (p : Ptr) (a : σ)
    (m : HMem K V), HTable.freeChains E.exhausted fuel p n a m = HTable.freeChains E fuel p n a m := by
  intro n
  induction n with
  | zero => intros; rfl
  | succ n ih =>
    intro p a m
    simp only [HTable.freeChains, ih, freeBucket_exhausted]

theorem removeLoop_exhausted (E : HEnv K V σ) (k : K) : ∀ (n : Nat) (s : HSlot) (m : HMem K V),
    HTable.removeLoop E.exhausted k n s m = HTable.removeLoop E k n s m := by
  intro n
  induction n with
  | zero => intros; rfl
  | succ n ih =>
    intro s m
    simp only [HTable.removeLoop, ih]
    rfl

theorem moveChain_exhausted (E : HEnv K V σ) (nb : Ptr) (bc : Nat) : ∀ (n p : Nat) (m : HMem K V),
    HTable.moveChain E.exhausted nb bc n p m = HTable.moveChain E nb bc n p m := by
  intro n
  induction n with
  | zero => intros; rfl
  | succ n ih =>
    intro p m
    simp only [HTable.moveChain, ih]
    rfl

theorem moveChains_exhausted (E : HEnv K V σ) (fuel : Nat) (nb : Ptr) (bc : Nat) : ∀ (n : Nat)
    (p : Ptr) (m : HMem K V),
    HTable.moveChains E.exhausted fuel nb bc p n m = HTable.moveChains E fuel nb bc p n m := by
  intro n
  induction n with
  | zero => intros; rfl
  | succ n ih =>
    intro p m
    simp only [HTable.moveChains, ih, moveChain_exhausted]
    rfl

theorem freeBuckets_exhausted (E : HEnv K V σ) (t : HTable σ) (m : HMem K V) :
    t.freeBuckets E.exhausted m = t.freeBuckets E m := by
  simp only [HTable.freeBuckets, freeChains_exhausted, fillNull_exhausted]

theorem rehash_exhausted (E : HEnv K V σ) (t : HTable σ) (bc : Nat) (m : HMem K V) :
    t.rehash E.exhausted bc m = t.rehash E bc m := by
  simp only [HTable.rehash, freeBuckets_exhausted, moveChains_exhausted, fillNull_exhausted]
  rfl

theorem find_exhausted (E : HEnv K V σ) (t : HTable σ) (k : K) (m : HMem K V) :
    t.find E.exhausted k m = t.find E k m := by
  simp only [HTable.find, findInBucket_exhausted]
  rfl

section
variable {E : HEnv K V Unit} {m0 : HMem K V}

theorem insertImpl_exhausted (S : HSetting E m0) {ops : List (MapOp K V)} {t : HTable Unit}
    {m : HMem K V} {bl : List Nat} {cs : List (List (Nat × K × V))} (h : HAfter E m0 ops t m bl cs)
    (hmax : t.count < maxEntries) {k : K} (v : V) {target : Ptr}
    (htgt : t.bucketForKey E k m = .ok target) :
    t.insertImpl E.exhausted target k v m = .error .ub := by
  obtain ⟨r, nr, p1, _, tgt, t1, m1, bl1, cs1, e1, e2, e3, _⟩ :=
    h.rep.beforeNew S.law (fun _ => S.equiv) (k := k) hmax htgt
  obtain ⟨l1, c, l2, rfl, g1, g2, g3, _⟩ := e2.search k
  rw [e3] at g2
  obtain rfl : tgt = _ := by simpa using g2
  have hz : m1.n.node 0 = none := e2.inv.wf.zero
  have hal : E.exhausted.A.alloc E.exhausted.size E.exhausted.align t1.al m1.n =
    .ok (0, t1.al, m1.n) := rfl
  cases r with
  | none =>
    simp only [Except.ok.injEq, Prod.mk.injEq] at e1
    obtain ⟨rfl, rfl, rfl⟩ := e1
    simp only [HTable.insertImpl, p1, Exec.ok_bind, hal, g3, NMem.modify, hz, Exec.error_bind]
  | some b =>
    have e1' : (do
        let x ← HTable.rehash E.exhausted { t with nextResize := nr } b m
        let target ← x.1.bucketForKey E.exhausted k x.2
        .ok (target, x.1, x.2)) = (.ok (.loc (curArr E bl1) l1.length, t1, m1) : Exec _) := by
      rw [rehash_exhausted]; exact e1
    simp only [HTable.insertImpl, p1, Exec.ok_bind, e1', hal, g3, NMem.modify, hz,
      Exec.error_bind]

/-- C100.  When memory for nodes runs out, a call that would add a key to a hash map, as
`insert` and `entry(..).or_insert(..)` of a new key do, writes through a null pointer: undefined
behaviour in safe code. -/
theorem C100_hash_insert_out_of_memory (S : HSetting E m0) (ops : List (MapOp K V))
    (hpk : MapOp.peak E.eq ops [] ≤ 2557710464)
    (hroom : (MapOp.run E.eq ops []).2.length < 2557710464) {outs : List (MapOut K V)}
    {t : HTable Unit} {m : HMem K V} (h : HTable.history E ops m0 = .ok (outs, t, m))
    (op : MapOp K V)
    (hnew : (MapOp.run E.eq ops []).2.length < (op.step E.eq (MapOp.run E.eq ops []).2).2.length) :
    t.step E.exhausted op m = .error .ub := by
  obtain ⟨bl, cs, h⟩ := S.after hpk h
  have hcnt := h.count
  have hmax : t.count < maxEntries := by rw [hcnt]; exact hroom
  -- the search for a key that is not there
  have hfind : ∀ k, lookup E.eq (MapOp.run E.eq ops []).2 k = none →
      ∃ tgt, t.bucketForKey E k m = .ok tgt ∧ t.find E.exhausted k m = .ok (tgt, none) := by
    intro k hk
    rw [← h.look S.equiv] at hk
    obtain ⟨l1, c, l2, rfl, _, g2, _, hcase⟩ := h.rep.core.locate S.equiv S.hash k
    rcases hcase with ⟨_, n, _, _, _, _, hl, _⟩ | ⟨_, _, hf⟩
    · rw [hk] at hl; cases hl
    · exact ⟨_, g2, by rw [find_exhausted]; exact hf⟩
  have hset : ∀ (k : K) (v : V) (s : List (K × V)), (setVal E.eq k v s).length = s.length := by
    intro k v s; simp [setVal]
  cases op with
  | insert k v =>
    cases hk : lookup E.eq (MapOp.run E.eq ops []).2 k with
    | some p => simp [MapOp.step, hk, hset] at hnew
    | none =>
      obtain ⟨tgt, g1, g2⟩ := hfind k hk
      simp [HTable.step, HTable.insert, g2, insertImpl_exhausted S h hmax v g1]
  | entry k f v =>
    cases hk : lookup E.eq (MapOp.run E.eq ops []).2 k with
    | some p => simp [MapOp.step, hk, hset] at hnew
    | none =>
      obtain ⟨tgt, g1, g2⟩ := hfind k hk
      simp [HTable.step, HTable.entry, HEntry.andModify, HEntry.orInsert, HEntry.orInsertWith, g2,
        insertImpl_exhausted S h hmax v g1]
  | remove k =>
    simp only [MapOp.step, eraseKey] at hnew
    have := List.length_filter_le (fun p : K × V => !E.eq p.1 k) (MapOp.run E.eq ops []).2
    omega
  | removeEntry k =>
    simp only [MapOp.step, eraseKey] at hnew
    have := List.length_filter_le (fun p : K × V => !E.eq p.1 k) (MapOp.run E.eq ops []).2
    omega
  | modify k f =>
    cases hk : lookup E.eq (MapOp.run E.eq ops []).2 k with
    | some p => simp [MapOp.step, hk, hset] at hnew
    | none => simp [MapOp.step, hk] at hnew
  | entryKey k =>
    cases hk : lookup E.eq (MapOp.run E.eq ops []).2 k <;> simp [MapOp.step, hk] at hnew
  | _ => simp [MapOp.step] at hnew

/-- C100.  Every other call on a hash map does what it always does. -/
theorem C100_hash_out_of_memory_partial (S : HSetting E m0) (ops : List (MapOp K V))
    (hpk : MapOp.peak E.eq ops [] ≤ 2557710464) {outs : List (MapOut K V)}
    {t : HTable Unit} {m : HMem K V} (h : HTable.history E ops m0 = .ok (outs, t, m))
    (op : MapOp K V)
    (hold : (op.step E.eq (MapOp.run E.eq ops []).2).2.length ≤
      (MapOp.run E.eq ops []).2.length) :
    ∃ t' m', t.step E.exhausted op m =
        .ok ((op.step E.eq (MapOp.run E.eq ops []).2).1, t', m') ∧
      t.step E op m = .ok ((op.step E.eq (MapOp.run E.eq ops []).2).1, t', m') := by
  obtain ⟨bl, cs, h⟩ := S.after hpk h
  have hlen : (ents cs).length = (MapOp.run E.eq ops []).2.length := h.perm.length_eq
  have hd := h.rep.core.distinct
  obtain ⟨q1, q2⟩ := step_perm S.equiv h.perm hd op
  have hle := run_le_peak E.eq ops []
  obtain ⟨t', m', bl', cs', h1, _⟩ := h.rep.step S.law S.equiv S.hash op (by
    rw [q2.length_eq]; unfold maxEntries; omega)
  rw [q1] at h1
  refine ⟨t', m', ?_, h1⟩
  rw [← h1]
  -- a call for a key that is there makes no node
  have hfind : ∀ k, (lookup E.eq (MapOp.run E.eq ops []).2 k).isSome →
      ∃ tgt p, t.find E k m = .ok (tgt, some p) := by
    intro k hk
    rw [← h.look S.equiv] at hk
    obtain ⟨l1, c, l2, rfl, _, g2, _, hcase⟩ := h.rep.core.locate S.equiv S.hash k
    rcases hcase with ⟨_, n, _, _, _, _, hl, hf⟩ | ⟨_, hl, _⟩
    · exact ⟨_, _, hf⟩
    · rw [hl] at hk; cases hk
  cases op with
  | insert k v =>
    cases hk : lookup E.eq (MapOp.run E.eq ops []).2 k with
    | none => simp [MapOp.step, hk] at hold
    | some p =>
      obtain ⟨tgt, p, g⟩ := hfind k (by simp [hk])
      simp only [HTable.step, HTable.insert, find_exhausted, g, Exec.ok_bind]
      rfl
  | entry k f v =>
    cases hk : lookup E.eq (MapOp.run E.eq ops []).2 k with
    | none => simp [MapOp.step, hk] at hold
    | some p =>
      obtain ⟨tgt, p, g⟩ := hfind k (by simp [hk])
      simp only [HTable.step, HTable.entry, find_exhausted, g, Exec.ok_bind]
      rfl
  | remove k => simp only [HTable.step, HTable.remove, HTable.removeEntry, removeLoop_exhausted]; rfl
  | removeEntry k => simp only [HTable.step, HTable.removeEntry, removeLoop_exhausted]; rfl
  | get k => simp only [HTable.step, HTable.get, find_exhausted]
  | modify k f => simp only [HTable.step, HTable.modify, find_exhausted]
  | contains k => simp only [HTable.step, HTable.containsKey, HTable.get, find_exhausted]
  | entryKey k => simp only [HTable.step, HTable.entry, find_exhausted]; rfl
  | len => rfl
  | isEmpty => rfl
  | clear => simp only [HTable.step, HTable.clear, freeBuckets_exhausted]

/-- C100.  When only memory for bucket arrays runs out, a call for which the table would have
got more buckets writes through a null pointer, undefined behaviour in safe code; every other call,
also one that adds a key, does what it does with memory to spare.  `t'` is the table after the call
with memory to spare.  `stepA` is `step` with the allocator of bucket arrays as an argument, as the
first part says. -/
theorem C100_hash_no_bucket_array (S : HSetting E m0) (ops : List (MapOp K V))
    (hpk : MapOp.peak E.eq ops [] ≤ 2557710464) {outs : List (MapOut K V)}
    {t : HTable Unit} {m : HMem K V} (h : HTable.history E ops m0 = .ok (outs, t, m))
    (op : MapOp K V) {o : MapOut K V} {t' : HTable Unit} {m' : HMem K V}
    (hs : t.step E op m = .ok (o, t', m')) :
    t.stepA E (defaultAllocator E.R) op m = .ok (o, t', m') ∧
    t.bucketCount ≤ t'.bucketCount ∧
    (t.bucketCount < t'.bucketCount →
      t.stepA E (noArrays (defaultAllocator E.R)) op m = .error .ub) ∧
    (t'.bucketCount = t.bucketCount →
      t.stepA E (noArrays (defaultAllocator E.R)) op m = .ok (o, t', m')) := by
  refine ⟨(stepA_default E op t m).trans hs, ?_⟩
  obtain ⟨bl, cs, A⟩ := S.after hpk h
  rcases stepA_none (defaultAllocator E.R) hs with ⟨e1, e2⟩ | ⟨⟨nr, e1⟩, e2⟩
  · exact ⟨by omega, fun hlt => by omega, fun _ => e2⟩
  · have hlt : t.bucketCount < t'.bucketCount := by
      by_cases hc : t.count < maxEntries
      · obtain ⟨r, n, k1, _, _, k4⟩ := A.rep.policy.step A.rep.peak hc
        rw [e1] at k1
        cases k1
        exact (k4 _ rfl).1
      · have hp := A.rep.peak
        have hc' : t.count = maxEntries := by unfold maxEntries at *; omega
        obtain ⟨_, hf⟩ := A.rep.policy.full (by omega)
        rw [← hc', e1] at hf
        cases hf
    exact ⟨by omega, fun _ => e2, fun he => by omega⟩

/-- C100.  In particular the first key of a fresh map, and one that follows as many keys as there are
buckets, cannot be added without memory for a bucket array. -/
theorem C100_hash_full_needs_array (S : HSetting E m0) (ops : List (MapOp K V))
    (hpk : MapOp.peak E.eq ops [] < 17961079) {outs : List (MapOut K V)}
    {t : HTable Unit} {m : HMem K V} (h : HTable.history E ops m0 = .ok (outs, t, m))
    (hfull : t.bucketCount = 1 ∨ t.count = t.bucketCount) (op : MapOp K V)
    (hnew : (MapOp.run E.eq ops []).2.length < (op.step E.eq (MapOp.run E.eq ops []).2).2.length) :
    t.stepA E (noArrays (defaultAllocator E.R)) op m = .error .ub := by
  obtain ⟨bl, cs, A⟩ := S.after (by omega) h
  obtain ⟨q1, q2⟩ := step_perm S.equiv A.perm A.rep.core.distinct op
  have hlen : (ents cs).length = (MapOp.run E.eq ops []).2.length := A.perm.length_eq
  have hcnt := A.count
  have hpk' := A.rep.peak
  have hle := run_le_peak E.eq ops []
  have hone : (op.step E.eq (MapOp.run E.eq ops []).2).2.length ≤
      (MapOp.run E.eq ops []).2.length + 1 := step_length_le op _
  obtain ⟨t', m', bl', cs', h1, h2⟩ := A.rep.step S.law S.equiv S.hash op (by
    rw [q2.length_eq]; unfold maxEntries; omega)
  obtain ⟨_, g1, g2, _⟩ := C100_hash_no_bucket_array S ops (by omega) h op h1
  apply g2
  have hp := h2.rep.policy
  rw [q2.length_eq] at hp
  have hc' := h2.rep.peak
  rcases hfull with hf | hf
  · by_contra hle'
    rw [show t'.bucketCount = 1 by omega] at hp
    have := hp.one
    omega
  · have := hp.load.2 (by omega)
    omega

/-- A map of two entries: replacing and removing work, a third key does not. -/
example : (do
    let (_, t, m) ← HTable.history (exampleHash (· % 100)) [.insert 1 10, .insert 2 20]
      exampleHashMem
    let (o1, _, _) ← t.step (exampleHash (· % 100)).exhausted (.insert 101 11) m
    let (o2, _, _) ← t.step (exampleHash (· % 100)).exhausted (.remove 2) m
    match t.step (exampleHash (· % 100)).exhausted (.insert 3 30) m with
    | .error e => .ok (o1, o2, e)
    | .ok _ => .error .panic) = (.ok (.val (some 10), .val (some 20), .ub) : Exec _) := by
  decide +kernel

/-- A map of one entry, without memory for bucket arrays: there is still room for a second key; a
fresh map has none for the first. -/
example : (do
    let (_, t, m) ← HTable.history (exampleHash (· % 100)) [.insert 1 10] exampleHashMem
    let (o, t', m') ← t.stepA (exampleHash (· % 100)) (noArrays (defaultAllocator RawAlloc.bump))
      (.insert 3 30) m
    let (v, _, _) ← t'.stepA (exampleHash (· % 100)) (noArrays (defaultAllocator RawAlloc.bump))
      (.get 3) m'
    let (_, t, m) ← HTable.history (exampleHash (· % 100)) [] exampleHashMem
    match t.stepA (exampleHash (· % 100)) (noArrays (defaultAllocator RawAlloc.bump))
      (.insert 3 30) m with
    | .error e => .ok (o, v, e)
    | .ok _ => .error .panic) = (.ok (.val none, .val (some 30), .ub) : Exec _) := by
  decide +kernel

end

end Verif
