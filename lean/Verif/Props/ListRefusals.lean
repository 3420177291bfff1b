import Verif.LinkedList.Grants
import Verif.Props.Pool

/-!
# Lists whose allocator panics (C123)

Each call comes with the number of requests for memory that are granted; the next one panics, and the
program catches the panic and goes on using the list.
-/

set_option autoImplicit false

namespace Verif
open Spec

variable {α : Type}

/-- A list created with its sentinel at `s` and put through `calls`, panics being caught. -/
def LList.historyG {σ : Type} (E : LEnv α σ) (asks : σ → Bool) (calls : List (Nat × ListOp α))
    (a : σ) (s : Nat) (m0 : LMem α) : Exec (List (Option (Out α)) × LList σ × LMem α) := do
  let (l, m) ← LList.newIn a s m0
  l.runG E asks calls m

theorem default_supply (P : Placer (LNode α) α) (size align : Nat) (nd : Bool) (m0 : LMem α) :
    Supply (listEnv P size align nd false) (DefInv m0 size align) (fun _ => true) (fun _ => 0) :=
  ⟨fun _ => by simp, fun _ _ => rfl, fun _ => rfl⟩

/-- C123 for lists.  A call granted `n` requests does as much of its work as `n` new elements allow:
a push is carried out or not, `extend` appends the values it had memory for.  It panics exactly if it
is passed more than `n` values.  Results and contents are those of the sequence, dropping the list
frees all its memory, and every value moved in, those that did not fit included, was handed out or
dropped exactly once. -/
theorem C123_list_refusals (P : Placer (LNode α) α) {size : Nat} (hsz : 0 < size) (align : Nat)
    (nd : Bool) (calls : List (Nat × ListOp α)) (m0 : LMem α) (hwf : m0.WF) (s : Nat)
    (hs : m0.node s ≠ none) :
    ∃ l m m' drops ys outs,
      LList.historyG (listEnv P size align nd false) (fun _ => true) calls () s m0 =
        .ok (ListOp.outsFitted calls outs, l, m) ∧
      ListOp.run (ListOp.fittedAll calls) [] = (outs, ys) ∧
      (∀ n, ∃ it, l.iter.run n m = .ok ((List.range n).map (fun j => ys[j]?), it)) ∧
      l.drop (listEnv P size align nd false) m = .ok m' ∧
      m'.reg = m0.reg ∧ (∀ z, z ≠ s → m'.node z = m0.node z) ∧
      m'.dropped = m0.dropped ++ (if nd then drops else []) ∧
      (ListOp.allIn (ListOp.fittedAll calls) [] ++ ListOp.unfitted calls).Perm
        (ListOp.allOut (ListOp.fittedAll calls) [] ++ drops) := by
  have L := listEnv_law P align nd hsz m0
  obtain ⟨l0, m1, e1, e2, e3, e4, e5⟩ := LRep.newIn hs L (DefInv.init hwf size align)
  obtain ⟨fs, f0, l, m, ps, f1, f2, f3, f4, ds, f5, f6⟩ :=
    LRep.runG L (default_supply P size align nd m0) calls e4
  have : calls = fs := by
    clear f1 f3 f6
    induction f0 with
    | nil => rfl
    | cons h _ ih => obtain ⟨_, rfl⟩ := h; rw [ih]; rfl
  subst this
  obtain ⟨l', m', g1, g2, g3, g4, g5⟩ := f3.clear L
  have hd : DefInv m0 size align () m' [] := g4.inv
  refine ⟨l, m, m', ds ++ (ListOp.run (ListOp.fittedAll calls) []).2,
    (ListOp.run (ListOp.fittedAll calls) []).2, (ListOp.run (ListOp.fittedAll calls) []).1,
    by simp [LList.historyG, e1, f1], rfl, ?_,
    by simp [LList.drop, g1], hd.done, ?_, ?_, ?_⟩
  · intro n
    exact ⟨_, by simpa [LList.iter, literAt] using f3.iterRun n 0 (Nat.zero_le _)⟩
  · intro z hz
    by_cases hn : m0.node z = none
    · rw [hn, (hd.node z (by simp)).2 hn]
    · rw [e2] at f4
      rw [f2, e2] at g5
      exact (((e5.trans f4).trans g5) z hn (by simpa using hz)).2
  · rw [g3, f5, e3, show (listEnv P size align nd false).nd = nd from rfl]
    cases nd <;> simp
  · have := ListOp.run_accounts (ListOp.fittedAll calls) ([] : List α)
    classical
    rw [List.perm_iff_count] at *
    intro a
    have := this a
    have := f6 a
    simp only [List.count_append, List.count_nil] at *
    omega

/-- A list of which a push and the second half of an `extend` are refused. -/
example : (do
    let (o, l, m) ← LList.historyG (listEnv Placer.bump 24 8 true false) (fun _ => true)
      [(0, .pushBack 1), (1, .pushBack 2), (2, .extend [3, 4, 5, 6]), (0, .popFront),
       (0, .pushFront 7), (0, .setBack 8), (2, .extend [9])] () 64 exampleListMem
    let (xs, _) ← l.iter.run 4 m
    let m' ← l.drop (listEnv Placer.bump 24 8 true false) m
    .ok (o.map Option.isSome, xs, m'.dropped)) =
      (.ok ([false, true, false, true, false, true, true], [some 3, some 8, some 9, none],
        [1, 5, 6, 7, 4, 3, 8, 9]) : Exec _) := rfl

/-! ## Fixed lists -/

/-- An allocator that grants nothing. -/
def refusingNAlloc (P : Placer (LNode α) α) : NAlloc (LNode α) α Unit where
  alloc _ _ _ _ := .error .panic
  dealloc := (defaultNAlloc P LNode.uninit false).dealloc

/-- A fixed list whose overflow allocator grants nothing. -/
def refusedListEnv (P : Placer (LNode α) α) (size align : Nat) (nd : Bool) : LEnv α OPool :=
  ⟨size, align, nd, opoolNAlloc LNode.uninit size align (refusingNAlloc P)⟩

/-- Whether a fixed list's next node has to come from the overflow allocator. -/
def fixedAsks (s : OPool) : Bool := !s.canAllocate

/-- A fixed list created with its sentinel at `s` and its inline buffer of `len` bytes at `buf`, and
put through `calls`, panics being caught. -/
def fixedListHistoryG (P : Placer (LNode α) α) (size align : Nat) (nd : Bool) (s buf len : Nat)
    (calls : List (Nat × ListOp α)) (m0 : LMem α) :
    Exec (List (Option (Out α)) × LList OPool × LMem α) := do
  let (l, m) ← fixedListNewIn size align s buf len m0
  l.runG (fixedListEnv P size align nd) fixedAsks calls m

section
variable {m0 : LMem α} {size align s buf len : Nat}

/-- Inline nodes that are free if the nodes `ps` are in use. -/
def inlineFree (size align buf len : Nat) (ps : List Nat) : Nat :=
  roomFor size align buf len - inline (roundUp align buf) size (roomFor size align buf len) ps

theorem fixed_supply (P : Placer (LNode α) α) (nd : Bool) {r : Range}
    (R : Room m0 buf (roundUp align buf) size (roomFor size align buf len) s r) :
    Supply (fixedListEnv P size align nd)
      (OInv m0 buf (roundUp align buf) size align (roomFor size align buf len)) fixedAsks
      (inlineFree size align buf len) where
  asks_iff := by
    rintro a m ps ⟨pp, qs, fs, k, mB, hp, h⟩
    have h1 := h.inline_eq R hp
    simp only [fixedAsks, OPool.canAllocate, h.pool.canAllocate, inlineFree, h1]
    simp
    omega
  alloc := by
    rintro a a' m m' ps p ⟨pp, qs, fs, k, mB, hp, h⟩ he
    obtain ⟨p', s', m'', f1, _, _, _, _, f6⟩ := h.alloc R P LNode.uninit
    have f1' : (fixedListEnv P size align nd).A.alloc size align a m = .ok (p', s', m'') := f1
    rw [show (fixedListEnv P size align nd).A.alloc (fixedListEnv P size align nd).size
      (fixedListEnv P size align nd).align a m = .ok (p', s', m'') from f1'] at he
    simp only [Except.ok.injEq, Prod.mk.injEq] at he
    obtain ⟨rfl, rfl, rfl⟩ := he
    have h1 := h.inline_eq R hp
    rcases f6 with ⟨hlt, _, fs', k', mB', h'⟩ | ⟨heq, h'⟩
    · have h2 := h'.inline_eq R (ps := p' :: ps) (hp.cons p')
      simp only [inlineFree, h1, h2, List.length_cons]
      omega
    · have h2 := h'.inline_eq R (ps := p' :: ps) ((hp.cons p').trans List.perm_middle.symm)
      simp only [inlineFree, h1, h2]
      omega
  perm := fun h => by simp only [inlineFree, inline, h.countP_eq]

theorem fixedList_newIn (h : FixedObj m0 size align s buf len) :
    ∃ l m r, fixedListNewIn size align s buf len m0 = .ok (l, m) ∧ l.head = s ∧
      Room m0 buf (roundUp align buf) size (roomFor size align buf len) s r ∧
      LRep (OInv m0 buf (roundUp align buf) size align (roomFor size align buf len)) m l [] [] ∧
      m.dropped = m0.dropped ∧ LKeep s [] m0 [] m := by
  obtain ⟨l, m, ps, r, h1, h2, R, h4, h5, h6⟩ := fixedList_history Placer.bump false h []
  obtain ⟨⟨l1, m1⟩, e1, e2⟩ := Exec.bind_ok h1
  simp only [LList.run, Except.ok.injEq, Prod.mk.injEq] at e2
  obtain ⟨_, rfl, rfl⟩ := e2
  have : ps = [] := List.length_eq_zero_iff.1 (by simpa [ListOp.run] using h4.length)
  subst this
  exact ⟨l1, m1, r, e1, h2, R, h4, by simpa using h5, h6⟩

theorem fixedList_historyG (P : Placer (LNode α) α) (nd : Bool)
    (h : FixedObj m0 size align s buf len) (calls : List (Nat × ListOp α)) :
    ∃ (fs : List (Nat × ListOp α)) (l : LList OPool) (m : LMem α) (ps : List Nat) (r : Range)
      (ds : List α), List.Forall₂ (fun c f => c.1 ≤ f.1 ∧ f.2 = c.2) calls fs ∧
      fixedListHistoryG P size align nd s buf len calls m0 =
        .ok (ListOp.outsFitted fs (ListOp.run (ListOp.fittedAll fs) []).1, l, m) ∧ l.head = s ∧
      Room m0 buf (roundUp align buf) size (roomFor size align buf len) s r ∧
      LRep (OInv m0 buf (roundUp align buf) size align (roomFor size align buf len)) m l ps
        (ListOp.run (ListOp.fittedAll fs) []).2 ∧
      m.dropped = m0.dropped ++ (if nd then ds else []) ∧
      ds.Perm (ListOp.allDropped (ListOp.fittedAll fs) [] ++ ListOp.unfitted fs) ∧
      LKeep s [] m0 ps m := by
  obtain ⟨l0, m1, r, e1, e2, R, e4, e5, e6⟩ := fixedList_newIn h
  have L : LLaw (fixedListEnv P size align nd)
      (OInv m0 buf (roundUp align buf) size align (roomFor size align buf len)) :=
    OInv.law R P LNode.uninit (size * baseSize) baseAlign
  obtain ⟨fs, f0, l, m, ps, f1, f2, f3, f4, ds, f5, f6⟩ :=
    LRep.runG L (fixed_supply P nd R) calls e4
  rw [e2] at f4
  refine ⟨fs, l, m, ps, r, ds, f0.imp ?_, by simp [fixedListHistoryG, e1, f1], f2.trans e2, R, f3,
    by rw [f5, e5]; rfl, f6, e6.trans f4⟩
  rintro c f ⟨qs, rfl⟩
  exact ⟨Nat.le_add_right _ _, rfl⟩

/-- C123 for fixed lists.  As for lists; a call granted `n` requests has memory for at least `n` new
elements (for how many more, the next theorem tells). -/
theorem C123_fixed_list_refusals (P : Placer (LNode α) α) (nd : Bool)
    (h : FixedObj m0 size align s buf len) (calls : List (Nat × ListOp α)) :
    ∃ fs l m m' drops ys outs, List.Forall₂ (fun c f => c.1 ≤ f.1 ∧ f.2 = c.2) calls fs ∧
      fixedListHistoryG P size align nd s buf len calls m0 =
        .ok (ListOp.outsFitted fs outs, l, m) ∧
      ListOp.run (ListOp.fittedAll fs) [] = (outs, ys) ∧
      (∀ n, ∃ it, l.iter.run n m = .ok ((List.range n).map (fun j => ys[j]?), it)) ∧
      l.drop (fixedListEnv P size align nd) m = .ok m' ∧
      m'.reg = m0.reg ∧ (∀ z, z ≠ s → m0.node z ≠ none → m'.node z = m0.node z) ∧
      m'.dropped = m0.dropped ++ (if nd then drops else []) ∧
      (ListOp.allIn (ListOp.fittedAll fs) [] ++ ListOp.unfitted fs).Perm
        (ListOp.allOut (ListOp.fittedAll fs) [] ++ drops) := by
  obtain ⟨fs, l, m, ps, r, ds, h0, h1, h2, R, h4, h5, h6, h7⟩ := fixedList_historyG P nd h calls
  have L : LLaw (fixedListEnv P size align nd)
      (OInv m0 buf (roundUp align buf) size align (roomFor size align buf len)) :=
    OInv.law R P LNode.uninit (size * baseSize) baseAlign
  obtain ⟨l', m', g1, g2, g3, g4, g5⟩ := h4.clear L
  refine ⟨fs, l, m, m', ds ++ (ListOp.run (ListOp.fittedAll fs) []).2,
    (ListOp.run (ListOp.fittedAll fs) []).2, (ListOp.run (ListOp.fittedAll fs) []).1, h0, h1, rfl,
    ?_, by simp [LList.drop, g1], ?_, ?_, ?_, ?_⟩
  · intro n
    exact ⟨_, by simpa [LList.iter, literAt] using h4.iterRun n 0 (Nat.zero_le _)⟩
  · obtain ⟨pp, qs, fs, k, mB, hp, hI⟩ := g4.inv
    obtain ⟨rfl, rfl⟩ := List.append_eq_nil_iff.1 (List.nil_perm.1 hp)
    rw [hI.over.done, hI.reg]
  · intro z hz hn
    rw [h2] at g5
    exact ((h7.trans g5) z hn (by simpa using hz)).2
  · rw [g3, h5, show (fixedListEnv P size align nd).nd = nd from rfl]
    cases nd <;> simp
  · have := ListOp.run_accounts (ListOp.fittedAll fs) ([] : List α)
    classical
    rw [List.perm_iff_count] at *
    intro a
    have := this a
    have := h6 a
    simp only [List.count_append, List.count_nil] at *
    omega

/-- C123 for fixed lists, call by call.  After any history, a call granted `g` requests has memory for
`g` new elements and as many more as inline nodes are free; so it never panics, whatever it is
granted, if the list with the values passed to it does not exceed the inline capacity. -/
theorem C123_fixed_list_refused_call (P : Placer (LNode α) α) (nd : Bool)
    (h : FixedObj m0 size align s buf len) {calls : List (Nat × ListOp α)}
    {outs : List (Option (Out α))} {l : LList OPool} {m : LMem α}
    (hrun : fixedListHistoryG P size align nd s buf len calls m0 = .ok (outs, l, m))
    (g : Nat) (op : ListOp α) :
    ∃ ps xs o l' m' it it', l.addrs m = .ok ps ∧
      l.iter.run ps.length m = .ok (xs.map some, it) ∧
      l.stepG (fixedListEnv P size align nd) fixedAsks g op m = .ok (o, l', m') ∧
      ps.countP (inSlots size align buf len) ≤ roomFor size align buf len ∧
      (o = none ↔ g + (roomFor size align buf len - ps.countP (inSlots size align buf len)) <
        op.given.length) ∧
      (∀ n, n = g + (roomFor size align buf len - ps.countP (inSlots size align buf len)) →
        (∀ r, o = some r → r = (op.step xs).1) ∧
        l'.iter.run ((op.fitted n).step xs).2.length m' =
          .ok (((op.fitted n).step xs).2.map some, it') ∧
        m'.dropped = m.dropped ++
          if nd then (op.fitted n).discarded xs ++ op.given.drop n else []) ∧
      (xs.length + op.given.length ≤ roomFor size align buf len → o ≠ none) := by
  obtain ⟨fs, l1, m1, ps, r, ds, h0, h1, h2, R, h4, h5, h6, h7⟩ := fixedList_historyG P nd h calls
  rw [h1] at hrun
  simp only [Except.ok.injEq, Prod.mk.injEq] at hrun
  obtain ⟨_, rfl, rfl⟩ := hrun
  have L : LLaw (fixedListEnv P size align nd)
      (OInv m0 buf (roundUp align buf) size align (roomFor size align buf len)) :=
    OInv.law R P LNode.uninit (size * baseSize) baseAlign
  obtain ⟨l', m', ps', e1, e2, e3, e4, e5⟩ := h4.stepG L (fixed_supply P nd R) g op
  have hall : ∀ {m : LMem α} {l : LList OPool} {ps : List Nat} {xs : List α},
      LRep (OInv m0 buf (roundUp align buf) size align (roomFor size align buf len)) m l ps xs →
      ∃ it, l.iter.run xs.length m = .ok (xs.map some, it) := by
    intro m l ps xs h
    have := h.iterRun xs.length 0 (Nat.zero_le _)
    have e : (List.range xs.length).map (fun j => xs[0 + j]?) = xs.map some := by
      refine List.ext_getElem (by simp) fun i h1 h2 => ?_
      simp only [List.length_map, List.length_range] at h1
      simp [h1]
    rw [e] at this
    exact ⟨_, this⟩
  obtain ⟨it, hit⟩ := hall h4
  obtain ⟨it', hit'⟩ := hall e4
  have hcount : ps.countP (inSlots size align buf len) =
      inline (roundUp align buf) size (roomFor size align buf len) ps := rfl
  have hle : ps.countP (inSlots size align buf len) ≤ roomFor size align buf len := by
    obtain ⟨pp, qs, fs, k, mB, hp, hI⟩ := h4.inv
    rw [hcount, hI.inline_eq R hp]
    have := hI.pool.length
    have := hI.pool.le
    omega
  have hlen := h4.length
  have hc := List.countP_le_length (p := fun p => decide (inSlots size align buf len p)) (l := ps)
  refine ⟨ps, (ListOp.run (ListOp.fittedAll fs) []).2, _, l', m', it, it', h4.addrs,
    by rw [hlen]; exact hit, e1, hle, ?_, ?_, ?_⟩
  · show _ ↔ g + inlineFree size align buf len ps < _
    by_cases hlt : g + inlineFree size align buf len ps < op.given.length
    · simp [hlt]
    · simp [hlt]
  · intro n hn
    have hn : n = g + inlineFree size align buf len ps := hn
    rw [hn]
    refine ⟨?_, hit', e3⟩
    intro r hr
    split_ifs at hr with hlt
    simp only [Option.some.injEq] at hr
    rw [← hr]
    cases op <;> simp only [ListOp.fitted] <;> try rfl
    all_goals
      simp only [ListOp.given, List.length_singleton, Nat.lt_one_iff] at hlt
      rw [if_neg hlt]
  · intro hfit hnone
    split_ifs at hnone with hlt
    have : inlineFree size align buf len ps =
      roomFor size align buf len - ps.countP (inSlots size align buf len) := rfl
    omega

/-- C123 for fixed lists: that a call needs a grant exactly if it calls the overflow allocator.  With
an overflow allocator that grants nothing, a push panics exactly if it is refused in the history above,
and otherwise does the same. -/
theorem C123_fixed_list_overflow_refused (P : Placer (LNode α) α) (nd : Bool)
    (h : FixedObj m0 size align s buf len) {calls : List (Nat × ListOp α)}
    {outs : List (Option (Out α))} {l : LList OPool} {m : LMem α}
    (hrun : fixedListHistoryG P size align nd s buf len calls m0 = .ok (outs, l, m))
    (x : α) (front : Bool) :
    (if front then l.pushFront (refusedListEnv P size align nd) x m
      else l.pushBack (refusedListEnv P size align nd) x m) =
      match l.stepG (fixedListEnv P size align nd) fixedAsks 0
          (if front then .pushFront x else .pushBack x) m with
      | .ok (some _, l', m') => .ok (l', m')
      | _ => .error .panic := by
  obtain ⟨fs, l1, m1, ps, r, ds, h0, h1, h2, R, h4, h5, h6, h7⟩ := fixedList_historyG P nd h calls
  rw [h1] at hrun
  simp only [Except.ok.injEq, Prod.mk.injEq] at hrun
  obtain ⟨_, rfl, rfl⟩ := hrun
  have L : LLaw (fixedListEnv P size align nd)
      (OInv m0 buf (roundUp align buf) size align (roomFor size align buf len)) :=
    OInv.law R P LNode.uninit (size * baseSize) baseAlign
  obtain ⟨pp, qs, fs', k, mB, hp, hI⟩ := h4.inv
  have halloc : (refusedListEnv P size align nd).A.alloc size align l1.al m1 =
      if fixedAsks l1.al = true then .error .panic
      else (fixedListEnv P size align nd).A.alloc size align l1.al m1 := by
    have hlen := hI.pool.length
    have hle := hI.pool.le
    have hcan := hI.pool.canAllocate
    cases fs' with
    | cons f fs' =>
      obtain ⟨s1, m2, e1, _⟩ := hI.pool.alloc_free LNode.uninit align
      have hf0 := hI.pool.ne_zero (p := f) (by simp)
      have ha : fixedAsks l1.al = false := by
        simp only [List.length_cons] at hlen
        simp only [fixedAsks, OPool.canAllocate, hcan]
        simp; omega
      simp [ha, refusedListEnv, fixedListEnv, opoolNAlloc, e1, hf0]
    | nil =>
      by_cases hk : k < roomFor size align buf len
      · obtain ⟨s1, m2, e1, _, _, _, _, _, e7, _⟩ := hI.pool.alloc_fresh hk LNode.uninit align
        have hf0 := e7.ne_zero (p := roundUp align buf + k * size) (by simp)
        have ha : fixedAsks l1.al = false := by
          simp only [List.length_nil] at hlen
          simp only [fixedAsks, OPool.canAllocate, hcan]
          simp; omega
        simp only [ha, refusedListEnv, fixedListEnv, opoolNAlloc, e1, Exec.ok_bind]
        rw [if_pos hf0, if_pos hf0]
        simp
      · have hkc : k = roomFor size align buf len := by omega
        have hp := hI.pool
        rw [hkc] at hp
        have ha : fixedAsks l1.al = true := by
          simp only [List.length_nil] at hlen
          simp only [fixedAsks, OPool.canAllocate, hcan]
          simp; omega
        simp [ha, refusedListEnv, opoolNAlloc, hp.alloc_full LNode.uninit align, refusingNAlloc]
  have hcreate : l1.createNode (refusedListEnv P size align nd) x m1 =
      if fixedAsks l1.al = true then .error .panic
      else l1.createNode (fixedListEnv P size align nd) x m1 := by
    unfold LList.createNode
    rw [show (refusedListEnv P size align nd).size = size from rfl,
      show (refusedListEnv P size align nd).align = align from rfl, halloc]
    by_cases ha : fixedAsks l1.al = true
    · rw [if_pos ha, if_pos ha]; rfl
    · rw [if_neg ha, if_neg ha]; rfl
  by_cases ha : fixedAsks l1.al = true
  · cases front with
    | false => simp [LList.pushBack, hcreate, ha, LList.stepG, LList.pushBackG]
    | true => simp [LList.pushFront, hcreate, ha, LList.stepG, LList.pushFrontG]
  · rw [if_neg ha] at hcreate
    cases front with
    | false =>
      obtain ⟨l', m', p, e1, _⟩ := h4.pushBack L x
      have e2 : l1.pushBack (refusedListEnv P size align nd) x m1 = .ok (l', m') := by
        rw [← e1]; unfold LList.pushBack; rw [hcreate]
      simp [e1, e2, ha, LList.stepG, LList.pushBackG]
    | true =>
      obtain ⟨l', m', p, e1, _⟩ := h4.pushFront L x
      have e2 : l1.pushFront (refusedListEnv P size align nd) x m1 = .ok (l', m') := by
        rw [← e1]; unfold LList.pushFront; rw [hcreate]
      simp [e1, e2, ha, LList.stepG, LList.pushFrontG]

/-- The fixed list of C44, with two inline nodes, of which the third element is refused. -/
example : (do
    let (o, l, m) ← fixedListHistoryG Placer.bump 24 8 true 64 128 (2 * 24)
      [(0, .pushBack 1), (0, .extend [2, 3, 4]), (1, .pushFront 5), (0, .pushBack 6), (0, .popBack),
       (0, .pushBack 7)] exampleFixedMem
    let (xs, _) ← l.iter.run 4 m
    let m' ← l.drop (fixedListEnv Placer.bump 24 8 true) m
    .ok (o.map Option.isSome, xs, m'.dropped)) =
      (.ok ([true, false, true, false, true, true], [some 5, some 1, some 7, none],
        [3, 4, 6, 5, 1, 7]) : Exec _) := by decide +kernel

end

end Verif
