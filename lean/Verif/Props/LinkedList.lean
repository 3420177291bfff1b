import Verif.LinkedList.Inv
import Verif.Spec.Interleave

/-!
# Properties of `List` (C36–C40, C70)

The theorems hold for every element type (node layout `size`, `align`, destructor or not), every
placement `P` of blocks by the global allocator, including reuse of freed addresses, every
well-formed memory `m0` in which the list object with its sentinel at `s` was created, and every
history `ops` of calls.
-/

set_option autoImplicit false

namespace Verif
open Spec

variable {α : Type}

/-- `List<T, DefaultAllocator>`. -/
def listEnv (P : Placer (LNode α) α) (size align : Nat) (nd strict : Bool) : LEnv α Unit :=
  ⟨size, align, nd, defaultNAlloc P LNode.uninit strict⟩

/-- A list created with its sentinel at `s` and put through the calls `ops`. -/
def LList.history {σ : Type} (E : LEnv α σ) (ops : List (ListOp α)) (a : σ) (s : Nat)
    (m0 : LMem α) : Exec (List (Out α) × LList σ × LMem α) := do
  let (l, m) ← LList.newIn a s m0
  l.run E ops m

theorem modify_reg {N D : Type} {m m' : NMem N D} {p : Nat} {f : N → N}
    (h : m.modify p f = .ok m') : m'.reg = m.reg := by
  unfold NMem.modify at h
  split at h
  · exact absurd h (by simp)
  · cases h; rfl

theorem nodeRemove_reg {p : Nat} {m m' : LMem α} (h : nodeRemove p m = .ok m') :
    m'.reg = m.reg := by
  unfold nodeRemove at h
  obtain ⟨a, _, h⟩ := Exec.bind_ok h
  obtain ⟨b, _, h⟩ := Exec.bind_ok h
  obtain ⟨m1, h1, h⟩ := Exec.bind_ok h
  obtain ⟨c, _, h⟩ := Exec.bind_ok h
  obtain ⟨d, _, h⟩ := Exec.bind_ok h
  rw [modify_reg h, modify_reg h1]

section
variable (P : Placer (LNode α) α) {size : Nat} (align : Nat) (nd : Bool)

theorem listEnv_law (hsz : 0 < size) (m0 : LMem α) :
    LLaw (listEnv P size align nd false) (DefInv m0 size align) :=
  defaultNAlloc_law P LNode.uninit false hsz (by simp) m0

/-- A history with any lawful allocator. -/
theorem LRep.history {σ : Type} {E : LEnv α σ} {Inv : σ → LMem α → List Nat → Prop}
    (L : LLaw E Inv) {a : σ} {s : Nat} {m0 : LMem α} (hs : m0.node s ≠ none) (hi : Inv a m0 [])
    (ops : List (ListOp α)) :
    ∃ l m ps, LList.history E ops a s m0 = .ok ((ListOp.run ops []).1, l, m) ∧ l.head = s ∧
      m.dropped = m0.dropped ++ (if E.nd then ListOp.allDropped ops [] else []) ∧
      LRep Inv m l ps (ListOp.run ops []).2 ∧ LKeep s [] m0 ps m := by
  obtain ⟨l0, m1, e1, e2, e3, e4, e5⟩ := LRep.newIn hs L hi
  obtain ⟨l, m, ps, f1, f2, f3, f4, f5⟩ := LRep.run L ops e4
  rw [e2] at f5
  exact ⟨l, m, ps, by simp [LList.history, e1, f1], f2.trans e2, by rw [f3, e3], f4, e5.trans f5⟩

variable {P align nd}

theorem list_history_ok (hsz : 0 < size) {m0 m : LMem α} (hwf : m0.WF) {s : Nat}
    (hs : m0.node s ≠ none) {ops : List (ListOp α)} {outs : List (Out α)} {l : LList Unit}
    (h : LList.history (listEnv P size align nd false) ops () s m0 = .ok (outs, l, m)) :
    ∃ ps, l.head = s ∧ LRep (DefInv m0 size align) m l ps (ListOp.run ops []).2 ∧
      m.dropped = m0.dropped ++ (if nd then ListOp.allDropped ops [] else []) ∧
      LKeep s [] m0 ps m := by
  obtain ⟨l', m', ps, h1, h2, h3, h4, h5⟩ :=
    LRep.history (listEnv_law P align nd hsz m0) hs (DefInv.init hwf size align) ops
  rw [h1] at h
  simp only [Except.ok.injEq, Prod.mk.injEq] at h
  obtain ⟨_, rfl, rfl⟩ := h
  exact ⟨ps, h2, h4, h3, h5⟩

end

variable (P : Placer (LNode α) α) {size : Nat} (hsz : 0 < size) (align : Nat) (nd : Bool)
include hsz

/-! ## C36 -/

/-- C36.  Every history of calls runs without panic and without following a dangling pointer,
returns what the same history on a mathematical sequence returns, and leaves every node that is
not the list's own untouched. -/
theorem C36_list_refines_sequence (ops : List (ListOp α)) (m0 : LMem α) (hwf : m0.WF) (s : Nat)
    (hs : m0.node s ≠ none) :
    ∃ l m, LList.history (listEnv P size align nd false) ops () s m0 =
        .ok ((ListOp.run ops []).1, l, m) ∧
      ∀ z, z ≠ s → m0.node z ≠ none → m.node z = m0.node z := by
  obtain ⟨l, m, ps, h1, _, _, _, h5⟩ :=
    LRep.history (listEnv_law P align nd hsz m0) hs (DefInv.init hwf size align) ops
  exact ⟨l, m, h1, fun z hz hn => (h5 z hn (by simpa using hz)).2⟩

omit hsz in
/-- Memory with nothing but room for sentinels at 64 and 96. -/
def exampleListMem : LMem Nat where
  node a := if a = 64 ∨ a = 96 then some LNode.uninit else none
  link := fun _ => none
  reg a := if a = 64 then some ⟨64, 8, false⟩ else none
  top := 128
  top_ok := by intro a r h; split_ifs at h with h'; cases h; subst h'; decide
  dropped := []

omit hsz in
theorem exampleListMem_wf : exampleListMem.WF where
  disj a b r r' h1 h2 hne := by
    unfold exampleListMem at h1 h2
    dsimp only at h1 h2
    split_ifs at h1 h2
    omega
  cover q hq := by
    unfold exampleListMem at hq ⊢
    dsimp only at hq ⊢
    by_cases h : q = 64 ∨ q = 96
    · exact ⟨64, ⟨64, 8, false⟩, by simp, by omega, by dsimp only; omega⟩
    · rw [if_neg h] at hq; exact absurd rfl hq
  null a r h := by
    unfold exampleListMem at h
    dsimp only at h
    split_ifs at h
    omega

omit hsz in
/-- The hypotheses of C36 hold of a concrete list and history. -/
example : exampleListMem.WF ∧ exampleListMem.node 64 ≠ none ∧ 0 < 24 ∧
    (do
      let (os, _, _) ← LList.history (listEnv Placer.bump 24 8 true false)
        [.pushBack 1, .pushBack 2, .pushFront 3, .setBack 7, .popFront, .extend [4, 5], .popBack,
          .back, .front, .len] () 64 exampleListMem
      .ok (os.filterMap fun | .elem x => x | .nat n => some n | _ => none)) =
    (.ok [3, 5, 4, 1, 3] : Exec (List Nat)) :=
  ⟨exampleListMem_wf, by decide, by decide, rfl⟩

/-! ## C37 -/

/-- C37.  After any history, `n` calls of `next` yield the first `n` elements front to back,
then `None` forever, and the exact number of remaining elements is what `size_hint` tells. -/
theorem C37_list_iterates (ops : List (ListOp α)) (m0 : LMem α) (hwf : m0.WF) (s : Nat)
    (hs : m0.node s ≠ none) {outs : List (Out α)} {l : LList Unit} {m : LMem α}
    (h : LList.history (listEnv P size align nd false) ops () s m0 = .ok (outs, l, m)) (n : Nat) :
    ∃ it, l.iter.run n m =
        .ok ((List.range n).map (fun j => (ListOp.run ops []).2[j]?), it) ∧
      it.sizeHint = ((ListOp.run ops []).2.length - n, some ((ListOp.run ops []).2.length - n)) := by
  obtain ⟨ps, _, h, _⟩ := list_history_ok hsz hwf hs h
  have := h.iterRun n 0 (Nat.zero_le _)
  refine ⟨literAt l ps (min (0 + n) ps.length), ?_, ?_⟩
  · simpa [LList.iter, literAt] using this
  · have hl := h.length
    have : ps.length - min n ps.length = ps.length - n := by omega
    simp [LIter.sizeHint, ← hl, h.size, this]

/-- C37.  `iter_mut` hands out one reference per element, to pairwise different addresses, the
`k`-th one holding the `k`-th element. -/
theorem C37_list_iter_mut_no_alias (ops : List (ListOp α)) (m0 : LMem α) (hwf : m0.WF) (s : Nat)
    (hs : m0.node s ≠ none) {outs : List (Out α)} {l : LList Unit} {m : LMem α}
    (h : LList.history (listEnv P size align nd false) ops () s m0 = .ok (outs, l, m)) :
    ∃ ps, l.addrs m = .ok ps ∧ ps.Nodup ∧
      ps.map (LMem.val m) = (ListOp.run ops []).2.map Except.ok := by
  obtain ⟨ps, _, h, _⟩ := list_history_ok hsz hwf hs h
  exact ⟨ps, h.addrs, (List.nodup_cons.1 h.nodup).2, h.vals⟩

omit hsz in
example : (do
    let (_, l, m) ← LList.history (listEnv Placer.bump 24 8 true false)
      [.pushBack 1, .pushBack 2, .pushFront 3] () 64 exampleListMem
    let (os, it) ← l.iter.run 4 m
    let (_, it2) ← l.iter.run 2 m
    .ok (os, it.sizeHint, it2.sizeHint)) =
  (.ok ([some 3, some 1, some 2, none], (0, some 0), (1, some 1)) : Exec _) := rfl

/-! ## C38 -/

/-- C38.  After any history and the drop of the list, exactly the ranges in use before the list
was created are in use, no node but those from before is left, and every value moved into the
list was handed back to the caller or dropped, exactly once (`drops` lists the dropped values,
which are logged in this order if the type has a destructor). -/
theorem C38_list_frees_everything (ops : List (ListOp α)) (m0 : LMem α) (hwf : m0.WF) (s : Nat)
    (hs : m0.node s ≠ none) :
    ∃ outs l m m' drops,
      LList.history (listEnv P size align nd false) ops () s m0 = .ok (outs, l, m) ∧
      l.drop (listEnv P size align nd false) m = .ok m' ∧
      m'.reg = m0.reg ∧ (∀ z, z ≠ s → m'.node z = m0.node z) ∧
      m'.dropped = m0.dropped ++ (if nd then drops else []) ∧
      (ListOp.allIn ops []).Perm (ListOp.allOut ops [] ++ drops) := by
  have L := listEnv_law P align nd hsz m0
  obtain ⟨l, m, ps, h1, h2, h3, h4, h5⟩ := LRep.history L hs (DefInv.init hwf size align) ops
  obtain ⟨l', m', e1, e2, e3, e4, e5⟩ := h4.clear L
  have hd : DefInv m0 size align () m' [] := e4.inv
  refine ⟨_, l, m, m', ListOp.allDropped ops [] ++ (ListOp.run ops []).2, h1,
    by simp [LList.drop, e1], hd.done, ?_, ?_, ?_⟩
  · intro z hz
    by_cases hn : m0.node z = none
    · rw [hn, (hd.node z (by simp)).2 hn]
    · rw [h2] at e5
      exact ((h5.trans e5) z hn (by simpa using hz)).2
  · rw [e3, h3, show (listEnv P size align nd false).nd = nd from rfl]
    cases nd <;> simp
  · simpa using ListOp.run_accounts ops []

omit hsz in
example : (do
    let (_, l, m) ← LList.history (listEnv Placer.bump 24 8 true false)
      [.pushBack 1, .pushBack 2, .pushFront 3, .setBack 9, .popFront] () 64 exampleListMem
    let m' ← l.drop (listEnv Placer.bump 24 8 true false) m
    .ok (m.dropped, m'.dropped)) = (.ok ([2], [2, 1, 9]) : Exec _) := rfl

/-! ## C39 -/

/-- C39 fails.  If deallocation requires the layout of the allocation, as the Rust allocator API
does, then on every nonempty list, whatever its history, popping, clearing and dropping are
undefined behaviour: the layout passed is `size_of::<ListNode<T>>() * 16` bytes. -/
theorem C39_list_dealloc_layout_fails (ops : List (ListOp α)) (m0 : LMem α) (hwf : m0.WF)
    (s : Nat) (hs : m0.node s ≠ none) {outs : List (Out α)} {l : LList Unit} {m : LMem α}
    (h : LList.history (listEnv P size align nd false) ops () s m0 = .ok (outs, l, m))
    (hne : (ListOp.run ops []).2 ≠ []) :
    l.popFront (listEnv P size align nd true) m = .error .ub ∧
    l.popBack (listEnv P size align nd true) m = .error .ub ∧
    l.clear (listEnv P size align nd true) m = .error .ub ∧
    l.drop (listEnv P size align nd true) m = .error .ub := by
  obtain ⟨ps, _, h, _⟩ := list_history_ok hsz hwf hs h
  have key : ∀ p ∈ ps, ∀ m' : LMem α, m'.reg = m.reg →
      (listEnv P size align nd true).A.dealloc p ((listEnv P size align nd true).size * baseSize)
        baseAlign l.al m' = .error .ub := by
    intro p hp m' hm'
    have hr := (DefInv.ins (m := m) h.inv p hp).2
    simp only [listEnv, defaultNAlloc, hm', hr]
    rw [if_neg]
    rintro ⟨_, h2⟩
    have := (h2 trivial).1
    simp only [baseSize] at this
    omega
  have hlen := h.length
  have hclear : l.clear (listEnv P size align nd true) m = .error .ub := by
    cases ps with
    | nil => exact absurd (List.length_eq_zero_iff.1 hlen.symm) hne
    | cons p ps =>
      generalize (ListOp.run ops []).2 = xs at h hlen hne
      cases xs with
      | nil => exact absurd rfl hne
      | cons x xs =>
        have hp : p ≠ l.head := fun e => h.head_notin (by simp [e])
        have hv : LMem.val m p = .ok x := by have := h.vals; simp at this; exact this.1
        have hn := h.chain.1
        obtain ⟨q, hq⟩ : ∃ q, LMem.next m p = .ok q := by
          have := h.chain.next_at 1 (by simp)
          simp at this
          exact ⟨_, this⟩
        have hd := key p (by simp) (m.logDrop (listEnv P size align nd true).nd x)
          (by unfold NMem.logDrop; split <;> rfl)
        simp [LList.clear, LList.clearLoop, hn, hp, hq, hv, hd]
  have hrem : ∀ p ∈ ps, ∀ r, l.removeNode (listEnv P size align nd false) p m = .ok r →
      l.removeNode (listEnv P size align nd true) p m = .error .ub := by
    intro p hp r hr
    unfold LList.removeNode at hr
    obtain ⟨m1, hr1, hr⟩ := Exec.bind_ok hr
    obtain ⟨x, hr2, hr⟩ := Exec.bind_ok hr
    have := key p hp m1 (nodeRemove_reg hr1)
    simp only [LList.removeNode, hr1, hr2, this, Exec.ok_bind, Exec.error_bind]
  have L := listEnv_law P align nd hsz m0
  refine ⟨?_, ?_, hclear, by simp [LList.drop, hclear]⟩
  · cases ps with
    | nil => exact absurd (List.length_eq_zero_iff.1 hlen.symm) hne
    | cons p ps =>
      generalize (ListOp.run ops []).2 = xs at h hlen hne
      cases xs with
      | nil => exact absurd rfl hne
      | cons x xs =>
        have hp : p ≠ l.head := fun e => h.head_notin (by simp [e])
        obtain ⟨l', m', e1, _⟩ := h.popFront L
        simp only [LList.popFront, h.chain.1, Exec.ok_bind, ne_eq, hp, not_false_eq_true,
          if_true] at e1 ⊢
        obtain ⟨r, hr1, _⟩ := Exec.bind_ok e1
        rw [hrem p (by simp) r hr1]; rfl
  · rcases h.snoc with ⟨rfl, e⟩ | ⟨ps', p, xs', x, rfl, e⟩
    · exact absurd e hne
    · rw [e] at h
      obtain ⟨h1, h2, h3⟩ := h.last_val
      obtain ⟨l', m', e1, _⟩ := h.popBack L
      simp only [LList.popBack, h1, Exec.ok_bind, ne_eq, h3, not_false_eq_true,
        if_true] at e1 ⊢
      obtain ⟨r, hr1, _⟩ := Exec.bind_ok e1
      rw [hrem p (by simp) r hr1]; rfl

/-- What does hold of C39: every deallocation is given the address of a block that was allocated
and not yet freed, so with an allocator that ignores the layout (as the system allocator below
Rust's `dealloc` does) no history faults.  Missing: the layout. -/
theorem C39_list_dealloc_layout_partial (ops : List (ListOp α)) (m0 : LMem α) (hwf : m0.WF)
    (s : Nat) (hs : m0.node s ≠ none) :
    ∃ outs l m m', LList.history (listEnv P size align nd false) ops () s m0 = .ok (outs, l, m) ∧
      l.drop (listEnv P size align nd false) m = .ok m' := by
  obtain ⟨outs, l, m, m', _, h1, h2, _⟩ :=
    C38_list_frees_everything P hsz align nd ops m0 hwf s hs
  exact ⟨outs, l, m, m', h1, h2⟩

omit hsz in
/-- C39 fails on a concrete program: push one value and pop it. -/
theorem C39_list_dealloc_layout_witness :
    LList.history (listEnv Placer.bump 24 8 true true) [.pushBack 1, .popFront] () 64
      exampleListMem = .error .ub ∧
    (∃ r, LList.history (listEnv Placer.bump 24 8 true true) [.pushBack 1] () 64
      exampleListMem = .ok r) := ⟨rfl, _, rfl⟩

/-! ## C40 -/

/-- C40.  No call moves an element: with `ps` the addresses of the elements before a call and
`ps'` after, pushed elements are added at their end, popped ones removed from theirs, and all
others stay (`ListOp.inPlace`).  Addresses are aligned and the nodes do not overlap. -/
theorem C40_list_never_moves (ops : List (ListOp α)) (op : ListOp α) (m0 : LMem α) (hwf : m0.WF)
    (s : Nat) (hs : m0.node s ≠ none) {outs : List (Out α)} {l : LList Unit} {m : LMem α}
    (h : LList.history (listEnv P size align nd false) ops () s m0 = .ok (outs, l, m)) :
    ∃ ps o l' m' ps', l.addrs m = .ok ps ∧
      l.step (listEnv P size align nd false) op m = .ok (o, l', m') ∧
      l'.addrs m' = .ok ps' ∧ op.inPlace ps ps' ∧
      (∀ p ∈ ps', 0 < align → align ∣ p) ∧
      (∀ p ∈ ps', ∀ q ∈ ps', p ≠ q → p + size ≤ q ∨ q + size ≤ p) ∧ ps'.Nodup := by
  obtain ⟨ps, _, h, _⟩ := list_history_ok hsz hwf hs h
  obtain ⟨l', m', ps', e1, _, _, e4, _, e6⟩ := h.step (listEnv_law P align nd hsz m0) op
  have hi : DefInv m0 size align () m' ps' := e4.inv
  exact ⟨ps, _, l', m', ps', h.addrs, e1, e4.addrs, e6, hi.aligned,
    fun p hp q hq hne => hi.disjoint hp hq hne, hi.nodup⟩

omit hsz in
example : (do
    let (_, l, m) ← LList.history (listEnv Placer.bump 24 8 true false)
      [.pushBack 1, .pushBack 2, .pushBack 3] () 64 exampleListMem
    let ps ← l.addrs m
    let (_, l, m) ← l.step (listEnv Placer.bump 24 8 true false) (.pushFront 4) m
    let ps1 ← l.addrs m
    let (_, l, m) ← l.step (listEnv Placer.bump 24 8 true false) .popBack m
    .ok (decide (ps1.tail = ps ∧ ps.length = 3), decide ((← l.addrs m) = ps1.dropLast))) =
  (.ok (true, true) : Exec _) := rfl

/-! ## C70 -/

omit hsz in
/-- Two lists alive at the same time with interleaved calls: `(false, op)` calls the first. -/
def LList.run2 {σ : Type} (E : LEnv α σ) : List (Bool × ListOp α) → LList σ → LList σ → LMem α →
    Exec (List (Bool × Out α) × LList σ × LList σ × LMem α)
  | [], l1, l2, m => .ok ([], l1, l2, m)
  | (false, op) :: ops, l1, l2, m => do
    let (o, l1, m) ← l1.step E op m
    let (os, r) ← LList.run2 E ops l1 l2 m
    .ok ((false, o) :: os, r)
  | (true, op) :: ops, l1, l2, m => do
    let (o, l2, m) ← l2.step E op m
    let (os, r) ← LList.run2 E ops l1 l2 m
    .ok ((true, o) :: os, r)

omit hsz in
/-- A call on another list leaves this one as it is. -/
theorem LRep.other {σ : Type} {Inv Inv' : σ → LMem α → List Nat → Prop} {m m' : LMem α}
    {l : LList σ} {qs : List Nat} {ys : List α} {s : Nat} {ps ps' : List Nat}
    (h : LRep Inv m l qs ys) (hk : LKeep s ps m ps' m') (hd : ∀ q ∈ l.head :: qs, q ∉ s :: ps)
    (hi : Inv' l.al m' qs) : LRep Inv' m' l qs ys := by
  have hnode : ∀ q ∈ l.head :: qs, m'.node q = m.node q := fun q hq =>
    (hk q (h.chain.live q hq) (hd q hq)).2
  have hf : ∀ q ∈ l.head :: qs, LMem.next m' q = LMem.next m q ∧ LMem.prev m' q = LMem.prev m q ∧
      LMem.val m' q = LMem.val m q := fun q hq => by
    simp [LMem.next_def, LMem.prev_def, LMem.val_def, hnode q hq]
  refine ⟨h.chain.frame ?_ ?_, h.nodup, ?_, h.size, hi⟩
  · intro q hq; exact (hf q hq).1
  · intro q hq; exact (hf q (by simp at hq ⊢; tauto)).2.1
  · rw [← h.vals]
    apply List.map_congr_left
    intro q hq
    exact (hf q (by simp [hq])).2.2

/-- Both lists are intact and own disjoint sets of nodes. -/
structure TwoLists (m0 : LMem α) (size align s t : Nat) (m : LMem α) (l1 l2 : LList Unit)
    (xs ys : List α) : Prop where
  rep : ∃ ps qs, LRep (fun a m r => DefInv m0 size align a m (r ++ qs)) m l1 ps xs ∧
    LRep (fun a m r => DefInv m0 size align a m (r ++ ps)) m l2 qs ys
  head1 : l1.head = s
  head2 : l2.head = t

omit hsz in
theorem TwoLists.symm {m0 : LMem α} {align s t : Nat} {m : LMem α} {l1 l2 : LList Unit}
    {xs ys : List α} (h : TwoLists m0 size align s t m l1 l2 xs ys) :
    TwoLists m0 size align t s m l2 l1 ys xs := by
  obtain ⟨⟨ps, qs, h1, h2⟩, h3, h4⟩ := h
  exact ⟨⟨qs, ps, h2, h1⟩, h4, h3⟩

theorem TwoLists.step {m0 : LMem α} {s t : Nat} (hst : s ≠ t) (hs : m0.node s ≠ none)
    (ht : m0.node t ≠ none) {m : LMem α} {l1 l2 : LList Unit} {xs ys : List α}
    (h : TwoLists m0 size align s t m l1 l2 xs ys) (op : ListOp α) :
    ∃ l1' m', l1.step (listEnv P size align nd false) op m = .ok ((op.step xs).1, l1', m') ∧
      TwoLists m0 size align s t m' l1' l2 (op.step xs).2 ys := by
  obtain ⟨⟨ps, qs, h1, h2⟩, h3, h4⟩ := h
  have L := listEnv_law P align nd hsz m0
  obtain ⟨l1', m', ps', e1, e2, e3, e4, e5, _⟩ := LRep.step (L.aside qs) h1 op
  have hd1 : DefInv m0 size align () m (ps ++ qs) := h1.inv
  have hd2 : DefInv m0 size align () m' (ps' ++ qs) := e4.inv
  refine ⟨l1', m', e1, ⟨ps', qs, e4, ?_⟩, e2.trans h3, h4⟩
  refine LRep.other h2 e5 ?_ (L.perm hd2 List.perm_append_comm)
  intro q hq hm
  rw [h3] at hm
  rw [h4] at hq
  rcases List.mem_cons.1 hq with rfl | hq' <;> rcases List.mem_cons.1 hm with hm' | hm'
  · exact hst hm'.symm
  · exact ht (hd1.live q (by simp [hm'])).1
  · subst hm'; exact hs (hd1.live q (by simp [hq'])).1
  · exact (List.disjoint_of_nodup_append hd1.nodup) hm' hq'

/-- C70.  Two lists alive at the same time, sharing the allocator, do not interfere: under any
interleaving of calls each list returns what its own calls return on a sequence of its own. -/
theorem C70_lists_do_not_interfere (ops : List (Bool × ListOp α)) (m0 : LMem α) (hwf : m0.WF)
    (s t : Nat) (hst : s ≠ t) (hs : m0.node s ≠ none) (ht : m0.node t ≠ none) :
    ∃ l1 m1 l2 m2 os r, LList.newIn () s m0 = .ok (l1, m1) ∧ LList.newIn () t m1 = .ok (l2, m2) ∧
      LList.run2 (listEnv P size align nd false) ops l1 l2 m2 = .ok (os, r) ∧
      os.map Prod.fst = ops.map Prod.fst ∧
      sentTo false os = (ListOp.run (sentTo false ops) []).1 ∧
      sentTo true os = (ListOp.run (sentTo true ops) []).1 := by
  have L := listEnv_law P align nd hsz m0
  obtain ⟨l1, m1, e1, e2, e3, e4, e5⟩ := LRep.newIn hs L (DefInv.init hwf size align)
  have hd1 : DefInv m0 size align () m1 [] := e4.inv
  obtain ⟨l2, m2, f1, f2, f3, f4, f5⟩ := LRep.newIn (a := ()) (s := t) (m0 := m1)
    (fun e => ht ((hd1.node t (by simp)).1 e)) L hd1
  have hd2 : DefInv m0 size align () m2 [] := f4.inv
  have key : ∀ (ops : List (Bool × ListOp α)) (l1 l2 : LList Unit) (m : LMem α) (xs ys : List α),
      TwoLists m0 size align s t m l1 l2 xs ys →
      ∃ os r, LList.run2 (listEnv P size align nd false) ops l1 l2 m = .ok (os, r) ∧
        os.map Prod.fst = ops.map Prod.fst ∧
        sentTo false os = (ListOp.run (sentTo false ops) xs).1 ∧
        sentTo true os = (ListOp.run (sentTo true ops) ys).1 := by
    intro ops
    induction ops with
    | nil => intro l1 l2 m xs ys h; exact ⟨[], _, rfl, rfl, rfl, rfl⟩
    | cons op ops ih =>
      intro l1 l2 m xs ys h
      obtain ⟨b, op⟩ := op
      cases b with
      | false =>
        obtain ⟨l1', m', h1, h2⟩ := TwoLists.step P hsz align nd hst hs ht h op
        obtain ⟨os, r, h3, h4, h5, h6⟩ := ih _ _ _ _ _ h2
        exact ⟨(false, (op.step xs).1) :: os, r, by simp [LList.run2, h1, h3], by simp [h4],
          by simpa [sentTo, sentTo, ListOp.run] using h5, by simpa [sentTo, sentTo] using h6⟩
      | true =>
        obtain ⟨l2', m', h1, h2⟩ := TwoLists.step P hsz align nd hst.symm ht hs h.symm op
        obtain ⟨os, r, h3, h4, h5, h6⟩ := ih _ _ _ _ _ h2.symm
        exact ⟨(true, (op.step ys).1) :: os, r, by simp [LList.run2, h1, h3], by simp [h4],
          by simpa [sentTo, sentTo] using h5, by simpa [sentTo, sentTo, ListOp.run] using h6⟩
  have hr : LRep (fun a m r => DefInv m0 size align a m (r ++ [])) m2 l1 [] [] := by
    refine LRep.other e4 f5 ?_ hd2
    intro q hq
    simp only [List.mem_singleton] at hq ⊢
    rw [hq, e2]; exact hst
  obtain ⟨os, r, g1, g2, g3, g4⟩ := key ops l1 l2 m2 [] []
    ⟨⟨[], [], hr, by simpa using f4⟩, e2, f2⟩
  exact ⟨l1, m1, l2, m2, os, r, e1, f1, g1, g2, g3, g4⟩

omit hsz in
example : (do
    let (l1, m) ← LList.newIn () 64 exampleListMem
    let (l2, m) ← LList.newIn () 96 m
    let (os, _) ← LList.run2 (listEnv Placer.bump 24 8 true false)
      [(false, .pushBack 1), (true, .pushBack 2), (true, .pushFront 3), (false, .popFront),
        (false, .pushBack 4), (true, .popBack), (false, .clear), (true, .front)] l1 l2 m
    .ok ((sentTo true os).filterMap fun | .elem x => x | _ => none)) =
  (.ok [2, 3] : Exec (List Nat)) := rfl

end Verif
