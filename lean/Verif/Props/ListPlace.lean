import Verif.LinkedList.Place
import Verif.Props.LinkedList
import Verif.Props.Pool

/-!
# C126: lists that change their place
-/

set_option autoImplicit false

namespace Verif
open Spec

variable {α : Type}

theorem LList.moveTo_ok {Inv : Unit → LMem α → List Nat → Prop} {E : LEnv α Unit} (L : LLaw E Inv)
    {m : LMem α} {l : LList Unit} {ps : List Nat} {xs : List α} (h : LRep Inv m l ps xs) {s : Nat}
    (hs : s ∉ l.head :: ps) (hl : m.node s ≠ none) :
    ∃ m', l.moveTo s m = .ok ({ l with head := s }, m') ∧
      Stray Inv m' { l with head := s } l.head ps xs := by
  obtain ⟨n, hn⟩ := Option.ne_none_iff_exists'.1 (h.chain.live l.head (by simp))
  obtain ⟨c, hc⟩ := Option.ne_none_iff_exists'.1 hl
  have hsl : l.head ≠ s := fun e => hs (by simp [e])
  have hsl' : s ≠ l.head := Ne.symm hsl
  let m1 : LMem α := { m with
    node := Function.update m.node s (some { c with next := n.next, prev := n.prev }) }
  let m2 : LMem α := { m1 with node := Function.update m1.node l.head (some LNode.uninit) }
  have e1 : m2.node s = some { c with next := n.next, prev := n.prev } := by simp [m2, m1, hsl']
  have e2 : m2.node l.head = some LNode.uninit := by simp [m2]
  have e3 : ∀ q, q ≠ s → q ≠ l.head → m2.node q = m.node q := by
    intro q h1 h2; simp [m2, m1, h1, h2]
  refine ⟨m2, ?_, h.stray L hs e3 ?_ rfl rfl ?_ ?_ ?_⟩
  · simp [LList.moveTo, NMem.get, NMem.modify, hn, hc, m2, m1, hsl]
  · intro q
    by_cases h1 : q = s
    · simp [h1, e1, hc]
    · by_cases h2 : q = l.head
      · simp [h2, e2, hn]
      · rw [e3 q h1 h2]
  · simp [LMem.next_def, e1, hn]
  · simp [LMem.prev_def, e1, hn]
  · simp [LMem.val_def, e2, LNode.uninit, initd]

/-- C126 is false.  Let a list be moved, after any history, to another place `s'` of the program's
memory.  To clear it or to drop it is undefined behaviour, and so is to look for the first or the last
element if it is empty; iteration does not stop after the last element but panics (in a debug
build). -/
theorem C126_moved_list_dangles (P : Placer (LNode α) α) {size : Nat} (hsz : 0 < size) (align : Nat)
    (nd : Bool) (ops : List (ListOp α)) (m0 : LMem α) (hwf : m0.WF) (s s' : Nat) (hss : s' ≠ s)
    (hs : m0.node s ≠ none) (hs' : m0.node s' ≠ none) {outs : List (Out α)} {l : LList Unit}
    {m : LMem α} (h : LList.history (listEnv P size align nd false) ops () s m0 = .ok (outs, l, m)) :
    ∃ l' m', l.moveTo s' m = .ok (l', m') ∧
      l'.drop (listEnv P size align nd false) m' = .error .ub ∧
      l'.step (listEnv P size align nd false) .clear m' = .error .ub ∧
      l'.iter.run ((ListOp.run ops []).2.length + 1) m' = .error .panic ∧
      ((ListOp.run ops []).2 = [] → l'.front m' = .error .ub ∧ l'.back m' = .error .ub) := by
  obtain ⟨ps, hh, h, _⟩ := list_history_ok hsz hwf hs h
  have L := listEnv_law P align nd hsz m0
  have hi : DefInv m0 size align () m ps := h.inv
  have hps : s' ∉ ps := fun e => hs' (hi.live _ e).1
  obtain ⟨m', e, hS⟩ := LList.moveTo_ok L h (s := s') (by simp [hh, hss, hps])
    (fun e => hs' ((hi.node s' hps).1 e))
  refine ⟨_, m', e, hS.drop L, by simp [LList.step, hS.clear L], hS.iter.2, fun hx => ?_⟩
  exact ⟨by rw [hS.front, if_pos hx], by rw [hS.back, if_pos hx]⟩

/-- What is true of C126: a list that is moved knows its length, its first and its last element, if it
has any, and an iterator yields its elements before it goes astray.  Missing: everything in
`C126_moved_list_dangles`. -/
theorem C126_moved_list_partial (P : Placer (LNode α) α) {size : Nat} (hsz : 0 < size) (align : Nat)
    (nd : Bool) (ops : List (ListOp α)) (m0 : LMem α) (hwf : m0.WF) (s s' : Nat) (hss : s' ≠ s)
    (hs : m0.node s ≠ none) (hs' : m0.node s' ≠ none) {outs : List (Out α)} {l : LList Unit}
    {m : LMem α} (h : LList.history (listEnv P size align nd false) ops () s m0 = .ok (outs, l, m)) :
    ∃ l' m' it, l.moveTo s' m = .ok (l', m') ∧ l'.size = (ListOp.run ops []).2.length ∧
      l'.iter.run (ListOp.run ops []).2.length m' = .ok ((ListOp.run ops []).2.map some, it) ∧
      ((ListOp.run ops []).2 ≠ [] → l'.front m' = .ok (ListOp.run ops []).2.head? ∧
        l'.back m' = .ok (ListOp.run ops []).2.getLast?) := by
  obtain ⟨ps, hh, h, _⟩ := list_history_ok hsz hwf hs h
  have L := listEnv_law P align nd hsz m0
  have hi : DefInv m0 size align () m ps := h.inv
  have hps : s' ∉ ps := fun e => hs' (hi.live _ e).1
  obtain ⟨m', e, hS⟩ := LList.moveTo_ok L h (s := s') (by simp [hh, hss, hps])
    (fun e => hs' ((hi.node s' hps).1 e))
  obtain ⟨it, hit⟩ := hS.iter.1
  refine ⟨_, m', it, e, hS.size, hit, fun hx => ⟨?_, ?_⟩⟩
  · rw [hS.front, if_neg hx]
  · rw [hS.back, if_neg hx]

/-- Two elements, moved from 64 to 96. -/
example : (do
    let E := listEnv Placer.bump 24 8 true false
    let (_, l, m) ← LList.history E [.pushBack 1, .pushBack 2] () 64 exampleListMem
    let (l, m) ← l.moveTo 96 m
    let (os, _) ← l.iter.run 2 m
    .ok (os, l.front m, l.back m, (l.iter.run 3 m).isOk, (l.drop E m).isOk)) =
  (.ok ([some 1, some 2], .ok (some 1), .ok (some 2), false, false) : Exec _) := rfl

/-! ## Exchanging -/

/-- Two lists in one memory after any interleaved history. -/
theorem two_lists_run (P : Placer (LNode α) α) {size : Nat} (hsz : 0 < size) (align : Nat) (nd : Bool)
    {m0 : LMem α} {s t : Nat} (hst : s ≠ t) (hs : m0.node s ≠ none) (ht : m0.node t ≠ none) :
    ∀ (ops : List (Bool × ListOp α)) {l1 l2 : LList Unit} {m : LMem α} {xs ys : List α},
    TwoLists m0 size align s t m l1 l2 xs ys → ∀ {os : List (Bool × Out α)} {l1' l2' : LList Unit}
      {m' : LMem α}, LList.run2 (listEnv P size align nd false) ops l1 l2 m = .ok (os, l1', l2', m') →
    TwoLists m0 size align s t m' l1' l2' (ListOp.run (sentTo false ops) xs).2
      (ListOp.run (sentTo true ops) ys).2 := by
  intro ops
  induction ops with
  | nil => intro l1 l2 m xs ys h os l1' l2' m' he; cases he; exact h
  | cons op ops ih =>
    intro l1 l2 m xs ys h os l1' l2' m' he
    obtain ⟨b, op⟩ := op
    cases b with
    | false =>
      obtain ⟨l, m1, h1, h2⟩ := TwoLists.step P hsz align nd hst hs ht h op
      simp only [LList.run2, h1, Exec.ok_bind] at he
      obtain ⟨⟨os', r⟩, h3, he⟩ := Exec.bind_ok he
      cases he
      simpa [sentTo, ListOp.run] using ih h2 h3
    | true =>
      obtain ⟨l, m1, h1, h2⟩ := TwoLists.step P hsz align nd hst.symm ht hs h.symm op
      simp only [LList.run2, h1, Exec.ok_bind] at he
      obtain ⟨⟨os', r⟩, h3, he⟩ := Exec.bind_ok he
      cases he
      simpa [sentTo, ListOp.run] using ih h2.symm h3

theorem two_lists_history (P : Placer (LNode α) α) {size : Nat} (hsz : 0 < size) (align : Nat)
    (nd : Bool) {ops : List (Bool × ListOp α)} {m0 : LMem α} (hwf : m0.WF) {s t : Nat} (hst : s ≠ t)
    (hs : m0.node s ≠ none) (ht : m0.node t ≠ none) {l1 l2 l1' l2' : LList Unit} {m1 m2 m : LMem α}
    {os : List (Bool × Out α)} (h1 : LList.newIn () s m0 = .ok (l1, m1))
    (h2 : LList.newIn () t m1 = .ok (l2, m2))
    (h : LList.run2 (listEnv P size align nd false) ops l1 l2 m2 = .ok (os, l1', l2', m)) :
    TwoLists m0 size align s t m l1' l2' (ListOp.run (sentTo false ops) []).2
      (ListOp.run (sentTo true ops) []).2 := by
  have L := listEnv_law P align nd hsz m0
  obtain ⟨_, _, e1, e2, e3, e4, e5⟩ := LRep.newIn hs L (DefInv.init hwf size align)
  rw [h1] at e1
  cases e1
  have hd1 : DefInv m0 size align () m1 [] := e4.inv
  obtain ⟨_, _, f1, f2, f3, f4, f5⟩ := LRep.newIn (a := ()) (s := t) (m0 := m1)
    (fun e => ht ((hd1.node t (by simp)).1 e)) L hd1
  rw [h2] at f1
  cases f1
  have hd2 : DefInv m0 size align () m2 [] := f4.inv
  have hr : LRep (fun a m r => DefInv m0 size align a m (r ++ [])) m2 l1 [] [] := by
    refine LRep.other e4 f5 ?_ hd2
    intro q hq
    simp only [List.mem_singleton] at hq ⊢
    rw [hq, e2]; exact hst
  exact two_lists_run P hsz align nd hst hs ht ops
    ⟨⟨[], [], hr, by simpa using f4⟩, e2, f2⟩ h

/-- C126 is false of lists exchanged by `std::mem::swap`.  Whatever was done with the two lists
before, and also if both are empty, to clear or to drop either of them is then undefined behaviour; so
is to look for the first element of one that is empty; iteration panics after the last element.  The
elements did change places, as far as one can see them.  (`hv1`, `hv2`: there is no value behind a
sentinel.) -/
theorem C126_exchanged_lists_dangle (P : Placer (LNode α) α) {size : Nat} (hsz : 0 < size)
    (align : Nat) (nd : Bool) (ops : List (Bool × ListOp α)) (m0 : LMem α) (hwf : m0.WF)
    (s t : Nat) (hst : s ≠ t) (hs : m0.node s ≠ none) (ht : m0.node t ≠ none)
    {l1 l2 l1' l2' : LList Unit} {m1 m2 m : LMem α}
    {os : List (Bool × Out α)} (h1 : LList.newIn () s m0 = .ok (l1, m1))
    (h2 : LList.newIn () t m1 = .ok (l2, m2))
    (h : LList.run2 (listEnv P size align nd false) ops l1 l2 m2 = .ok (os, l1', l2', m))
    (hv1 : LMem.val m s = .error .ub) (hv2 : LMem.val m t = .error .ub) :
    ∃ k1 k2 m', l1'.swap l2' m = .ok (k1, k2, m') ∧
      ∀ k ys, (k, ys) = (k1, (ListOp.run (sentTo true ops) []).2) ∨
          (k, ys) = (k2, (ListOp.run (sentTo false ops) []).2) →
        k.drop (listEnv P size align nd false) m' = .error .ub ∧
        k.step (listEnv P size align nd false) .clear m' = .error .ub ∧
        (∃ it, k.iter.run ys.length m' = .ok (ys.map some, it)) ∧
        k.iter.run (ys.length + 1) m' = .error .panic ∧
        (k.front m' = if ys = [] then .error .ub else .ok ys.head?) := by
  obtain ⟨⟨ps, qs, r1, r2⟩, rfl, rfl⟩ := two_lists_history P hsz align nd hwf hst hs ht h1 h2 h
  have L := listEnv_law P align nd hsz m0
  have hi : DefInv m0 size align () m (ps ++ qs) := r1.inv
  obtain ⟨n1, hn1⟩ := Option.ne_none_iff_exists'.1 (r1.chain.live l1'.head (by simp))
  obtain ⟨n2, hn2⟩ := Option.ne_none_iff_exists'.1 (r2.chain.live l2'.head (by simp))
  have hts := Ne.symm hst
  let m3 : LMem α := { m with
    node := Function.update m.node l1'.head (some { n1 with next := n2.next, prev := n2.prev }) }
  let m4 : LMem α := { m3 with
    node := Function.update m3.node l2'.head (some { n2 with next := n1.next, prev := n1.prev }) }
  have e1 : m4.node l1'.head = some { n1 with next := n2.next, prev := n2.prev } := by
    simp [m4, m3, hst]
  have e2 : m4.node l2'.head = some { n2 with next := n1.next, prev := n1.prev } := by simp [m4]
  have e3 : ∀ q, q ≠ l1'.head → q ≠ l2'.head → m4.node q = m.node q := by
    intro q a b; simp [m4, m3, a, b]
  have e4 : ∀ q, m4.node q = none ↔ m.node q = none := by
    intro q
    by_cases a : q = l1'.head
    · simp [a, e1, hn1]
    · by_cases b : q = l2'.head
      · simp [b, e2, hn2]
      · rw [e3 q a b]
  have v1 : LMem.val m4 l1'.head = .error .ub := by
    rw [LMem.val_def, hn1] at hv1
    simpa [LMem.val_def, e1] using hv1
  have v2 : LMem.val m4 l2'.head = .error .ub := by
    rw [LMem.val_def, hn2] at hv2
    simpa [LMem.val_def, e2] using hv2
  have S1 := r2.stray (L.aside ps) (m' := m4) (s := l1'.head)
    (by
      have : l1'.head ∉ qs := fun e => hs (hi.live _ (by simp [e])).1
      simp [hst, this])
    e3 e4 rfl rfl (by simp [LMem.next_def, e1, hn2]) (by simp [LMem.prev_def, e1, hn2]) v2
  have S2 := r1.stray (L.aside qs) (m' := m4) (s := l2'.head)
    (by
      have : l2'.head ∉ ps := fun e => ht (hi.live _ (by simp [e])).1
      simp [hts, this])
    (fun q a b => e3 q b a) e4 rfl rfl (by simp [LMem.next_def, e2, hn1])
    (by simp [LMem.prev_def, e2, hn1]) v1
  refine ⟨{ l2' with head := l1'.head }, { l1' with head := l2'.head }, m4, ?_, ?_⟩
  · simp [LList.swap, NMem.get, NMem.modify, hn1, hn2, m4, m3, hts]
  · rintro k ys (e | e)
    · obtain ⟨rfl, rfl⟩ := Prod.mk.inj e
      exact ⟨S1.drop (L.aside ps), by simp [LList.step, S1.clear (L.aside ps)], S1.iter.1, S1.iter.2,
        S1.front⟩
    · obtain ⟨rfl, rfl⟩ := Prod.mk.inj e
      exact ⟨S2.drop (L.aside qs), by simp [LList.step, S2.clear (L.aside qs)], S2.iter.1, S2.iter.2,
        S2.front⟩

/-- One list has three elements, the other none. -/
example : (do
    let E := listEnv Placer.bump 24 8 true false
    let (l1, m) ← LList.newIn () 64 exampleListMem
    let (l2, m) ← LList.newIn () 96 m
    let (_, l1, l2, m) ← LList.run2 E [(false, .extend [1, 2, 3])] l1 l2 m
    let v := [(LMem.val m 64).isOk, (LMem.val m 96).isOk]
    let (k1, k2, m) ← l1.swap l2 m
    .ok (v, k1.size, k2.size, (k1.front m).isOk, k2.front m, (k1.drop E m).isOk, (k2.drop E m).isOk)) =
  (.ok ([false, false], 0, 3, false, .ok (some 1), false, false) : Exec _) := rfl

/-- C126 is false of fixed lists, whose list `std::mem::swap` can exchange with any other without
`unsafe`.  Let a fixed list have gone through any history, its elements in inline nodes or not, and
let its list be exchanged with the one at `t`, whatever that is.  What is at `t` then shows the
elements of the fixed list, but to clear or to drop it is undefined behaviour.  (`hv`: there is no
value behind a sentinel.) -/
theorem C126_exchanged_fixed_list_dangles (P : Placer (LNode α) α) (nd : Bool) {m0 : LMem α}
    {size align s buf len : Nat} (h : FixedObj m0 size align s buf len) (ops : List (ListOp α))
    {outs : List (Out α)} {l : LList OPool} {m : LMem α}
    (hrun : fixedListHistory P size align nd s buf len ops m0 = .ok (outs, l, m))
    (hv : LMem.val m s = .error .ub) (l2 : LList OPool) (hts : l2.head ≠ s)
    (ht : m0.node l2.head ≠ none) :
    ∃ k1 k2 m', l.swap l2 m = .ok (k1, k2, m') ∧
      k2.drop (fixedListEnv P size align nd) m' = .error .ub ∧
      k2.step (fixedListEnv P size align nd) .clear m' = .error .ub ∧
      (∃ it, k2.iter.run (ListOp.run ops []).2.length m' =
        .ok ((ListOp.run ops []).2.map some, it)) ∧
      k2.iter.run ((ListOp.run ops []).2.length + 1) m' = .error .panic ∧
      (k2.front m' = if (ListOp.run ops []).2 = [] then .error .ub
        else .ok (ListOp.run ops []).2.head?) := by
  obtain ⟨l1, m1, ps, r, h1, rfl, R, h4, _, h6⟩ := fixedList_history P nd h ops
  rw [h1] at hrun
  simp only [Except.ok.injEq, Prod.mk.injEq] at hrun
  obtain ⟨_, rfl, rfl⟩ := hrun
  have L : LLaw (fixedListEnv P size align nd)
      (OInv m0 buf (roundUp align buf) size align (roomFor size align buf len)) :=
    OInv.law R P LNode.uninit (size * baseSize) baseAlign
  obtain ⟨htp, htn⟩ := h6 _ ht (by simpa using hts)
  obtain ⟨n1, hn1⟩ := Option.ne_none_iff_exists'.1 (h4.chain.live l1.head (by simp))
  obtain ⟨n2, hn2⟩ := Option.ne_none_iff_exists'.1 ht
  rw [← htn] at hn2
  have hst := Ne.symm hts
  let m3 : LMem α := { m1 with
    node := Function.update m1.node l1.head (some { n1 with next := n2.next, prev := n2.prev }) }
  let m4 : LMem α := { m3 with
    node := Function.update m3.node l2.head (some { n2 with next := n1.next, prev := n1.prev }) }
  have e1 : m4.node l1.head = some { n1 with next := n2.next, prev := n2.prev } := by
    simp [m4, m3, hst]
  have e2 : m4.node l2.head = some { n2 with next := n1.next, prev := n1.prev } := by simp [m4]
  have e3 : ∀ q, q ≠ l2.head → q ≠ l1.head → m4.node q = m1.node q := by
    intro q a b; simp [m4, m3, a, b]
  have e4 : ∀ q, m4.node q = none ↔ m1.node q = none := by
    intro q
    by_cases a : q = l1.head
    · simp [a, e1, hn1]
    · by_cases b : q = l2.head
      · simp [b, e2, hn2]
      · rw [e3 q b a]
  have v1 : LMem.val m4 l1.head = .error .ub := by
    rw [LMem.val_def, hn1] at hv
    simpa [LMem.val_def, e1] using hv
  have S := h4.stray L (m' := m4) (s := l2.head) (by simp [hts, htp]) e3 e4 rfl rfl
    (by simp [LMem.next_def, e2, hn1]) (by simp [LMem.prev_def, e2, hn1]) v1
  refine ⟨{ l2 with head := l1.head }, { l1 with head := l2.head }, m4, ?_, S.drop L,
    by simp [LList.step, S.clear L], S.iter.1, S.iter.2, S.front⟩
  simp [LList.swap, NMem.get, NMem.modify, hn1, hn2, m4, m3, hts]

/-- As `exampleFixedMem`, with another object from 8 to 48. -/
def exampleFixedMem2 : LMem Nat where
  node a := if a = 64 ∨ a = 8 then some LNode.uninit else none
  link := fun _ => none
  reg a := if a = 64 then some ⟨136, 8, false⟩ else if a = 8 then some ⟨40, 8, false⟩ else none
  top := 200
  top_ok := by
    intro a r h
    split_ifs at h with h1 h2 <;> cases h
    · subst h1; decide
    · subst h2; decide
  dropped := []

/-- Two inline elements and an overflow block, exchanged with an empty list at 8. -/
example : FixedObj exampleFixedMem2 24 8 64 128 (2 * 24) ∧ exampleFixedMem2.node 8 ≠ none ∧ (do
    let (_, l, m) ← fixedListHistory Placer.bump 24 8 true 64 128 (2 * 24)
      [.pushBack 1, .pushBack 2, .pushFront 3] exampleFixedMem2
    let v := (LMem.val m 64).isOk
    let (l2, m) ← LList.newIn OPool.withAllocator 8 m
    let (k1, k2, m) ← l.swap l2 m
    .ok (v, k1.size, k2.size, (k2.front m).toOption, (k2.drop (fixedListEnv Placer.bump 24 8 true) m).isOk)) =
    (.ok (false, 0, 3, some (some 3), false) : Exec (Bool × Nat × Nat × Option (Option Nat) × Bool)) := by
  have hwf : exampleFixedMem2.WF := by
    refine ⟨?_, ?_, ?_⟩
    · intro a b r r' h1 h2 hne
      unfold exampleFixedMem2 at h1 h2
      dsimp only at h1 h2
      split_ifs at h1 h2 <;> cases h1 <;> cases h2 <;> dsimp only <;> omega
    · intro q hq
      unfold exampleFixedMem2 at hq ⊢
      dsimp only at hq ⊢
      by_cases h : q = 64
      · exact ⟨64, ⟨136, 8, false⟩, by simp, by omega, by dsimp only; omega⟩
      · by_cases h8 : q = 8
        · exact ⟨8, ⟨40, 8, false⟩, by simp, by omega, by dsimp only; omega⟩
        · rw [if_neg (by omega)] at hq; exact absurd rfl hq
    · intro a r h
      unfold exampleFixedMem2 at h
      dsimp only at h
      split_ifs at h <;> omega
  refine ⟨(FixedObj.plain hwf (by decide) (r := ⟨136, 8, false⟩) rfl (by decide)
    ⟨3, rfl⟩ (by decide) (by decide) (by decide) (by decide) (by
      intro q h1 _
      unfold exampleFixedMem2
      simp only
      rw [if_neg (by omega)])).1, by decide, by decide +kernel⟩

end Verif
