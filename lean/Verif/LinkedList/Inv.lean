import Verif.LinkedList.Proofs
import Mathlib.Data.List.Induction

/-!
# The list as a whole: every public call refines a mathematical sequence
-/

set_option autoImplicit false

namespace Verif
open Spec

variable {α σ : Type} {E : LEnv α σ} {Inv : σ → LMem α → List Nat → Prop} {m : LMem α}
  {l : LList σ} {ps : List Nat} {xs : List α}

theorem LRep.front (h : LRep Inv m l ps xs) : l.front m = .ok xs.head? := by
  cases ps with
  | nil =>
    have : xs = [] := List.length_eq_zero_iff.1 (by simpa using h.length.symm)
    subst this
    simp [LList.front, h.chain.1]
  | cons p ps =>
    cases xs with
    | nil => have := h.length; simp at this
    | cons x xs =>
      have hv : LMem.val m p = .ok x := by have := h.vals; simp at this; exact this.1
      have hp : p ≠ l.head := fun e => h.head_notin (by simp [e])
      simp [LList.front, h.chain.1, hp, hv]

theorem LRep.last_val {p : Nat} {x : α} (h : LRep Inv m l (ps ++ [p]) (xs ++ [x])) :
    LMem.prev m l.head = .ok p ∧ LMem.val m p = .ok x ∧ p ≠ l.head := by
  refine ⟨by rw [h.chain.prev_last]; simp, ?_, fun e => h.head_notin (by simp [e])⟩
  have hv := h.vals
  simp only [List.map_append, List.map_cons, List.map_nil] at hv
  have hlen : ps.length = xs.length := by have := h.length; simpa using this
  have hv := List.append_inj hv (by simpa using hlen)
  simpa using hv.2

/-- Split off the last node of a nonempty list. -/
theorem LRep.snoc (h : LRep Inv m l ps xs) :
    (ps = [] ∧ xs = []) ∨ ∃ ps' p xs' x, ps = ps' ++ [p] ∧ xs = xs' ++ [x] := by
  have hl := h.length
  rcases List.eq_nil_or_concat ps with rfl | ⟨ps', p, rfl⟩
  · exact .inl ⟨rfl, List.length_eq_zero_iff.1 (by simpa using hl.symm)⟩
  · rcases List.eq_nil_or_concat xs with rfl | ⟨xs', x, rfl⟩
    · simp at hl
    · exact .inr ⟨ps', p, xs', x, by simp, by simp⟩

theorem LRep.back (h : LRep Inv m l ps xs) : l.back m = .ok xs.getLast? := by
  rcases h.snoc with ⟨rfl, rfl⟩ | ⟨ps', p, xs', x, rfl, rfl⟩
  · simp [LList.back, h.chain.2]
  · obtain ⟨h1, h2, h3⟩ := h.last_val
    simp [LList.back, h1, h2, h3]

/-- Overwriting the value of the node at position `i`. -/
theorem LRep.assign (L : LLaw E Inv) {p : Nat} {x : α} (y : α) {qs rs : List Nat} {us vs : List α}
    (h : LRep Inv m l (qs ++ p :: rs) (us ++ x :: vs)) (hlen : qs.length = us.length) :
    ∃ m', LList.assign E p y m = .ok m' ∧
      m'.dropped = m.dropped ++ (if E.nd then [x] else []) ∧
      LRep Inv m' l (qs ++ p :: rs) (us ++ y :: vs) ∧
      LKeep l.head (qs ++ p :: rs) m (qs ++ p :: rs) m' := by
  have hv := h.vals
  simp only [List.map_append, List.map_cons] at hv
  obtain ⟨hv1, hv2⟩ := List.append_inj hv (by simpa using hlen)
  simp only [List.cons.injEq] at hv2
  have hn := (List.nodup_cons.1 h.nodup).2
  have hd : ∀ q, (NMem.logDrop m E.nd x).node q = m.node q := by
    intro q; unfold NMem.logDrop; split <;> rfl
  obtain ⟨m', e1, e2, e3, e4, e5⟩ := LMem.setVal_ok (m := NMem.logDrop m E.nd x) (p := p) y
    (by rw [hd]; exact LMem.live_of_val hv2.1)
  have hx : ∀ z, LMem.next (NMem.logDrop m E.nd x) z = LMem.next m z := by
    intro z; rw [LMem.next_def, LMem.next_def, hd]
  have hp : ∀ z, LMem.prev (NMem.logDrop m E.nd x) z = LMem.prev m z := by
    intro z; rw [LMem.prev_def, LMem.prev_def, hd]
  have hw : ∀ z, LMem.val (NMem.logDrop m E.nd x) z = LMem.val m z := by
    intro z; rw [LMem.val_def, LMem.val_def, hd]
  have hvals : ∀ z, z ≠ p → LMem.val m' z = LMem.val m z := by
    intro z hz; rw [e5, if_neg hz, hw]
  rw [List.nodup_append] at hn
  refine ⟨m', by simp [LList.assign, hv2.1, e1], ?_, ⟨?_, h.nodup, ?_, ?_, ?_⟩, ?_⟩
  · rw [e2.dropped]; unfold NMem.logDrop; split <;> simp
  · exact h.chain.frame (fun z _ => by rw [e3, hx]) (fun z _ => by rw [e4, hp])
  · simp only [List.map_append, List.map_cons]
    rw [← hv1, ← hv2.2]
    congr 1
    · apply List.map_congr_left
      intro z hz
      exact hvals z (hn.2.2 z hz p (by simp))
    · congr 1
      · rw [e5, if_pos rfl]
      · apply List.map_congr_left
        intro z hz
        exact hvals z (fun e => (List.nodup_cons.1 hn.2.1).1 (e ▸ hz))
  · rw [h.size]; simp
  · refine L.frame h.inv (fun q => by rw [e2.node, hd]) ?_ ?_
    · rw [e2.link]; unfold NMem.logDrop; split <;> rfl
    · rw [e2.reg]; unfold NMem.logDrop; split <;> rfl
  · intro z _ hs
    refine ⟨fun hm => hs (List.mem_cons_of_mem _ hm), ?_⟩
    rw [e2.keep z, hd]
    simp only [List.mem_cons, List.mem_append, not_or] at hs
    simpa using hs.2.2.1

/-- `ps` is a forward linked path ending in `b`. -/
def FChain (m : LMem α) : List Nat → Nat → Prop
  | [], _ => True
  | p :: ps, b => LMem.next m p = .ok (ps.head?.getD b) ∧ FChain m ps b

theorem FChain.frame {m m' : LMem α} {b : Nat} : ∀ {ps : List Nat}, FChain m ps b →
    (∀ z ∈ ps, LMem.next m' z = LMem.next m z) → FChain m' ps b := by
  intro ps
  induction ps with
  | nil => intros; trivial
  | cons p ps ih =>
    intro h h1
    exact ⟨by rw [h1 p (by simp)]; exact h.1, ih h.2 fun z hz => h1 z (List.mem_cons_of_mem _ hz)⟩

theorem LChain.forward {m : LMem α} {b : Nat} : ∀ {ps : List Nat} {a : Nat}, LChain m a ps b →
    FChain m ps b := by
  intro ps
  induction ps with
  | nil => intros; trivial
  | cons p ps ih => intro a h; exact ⟨h.2.2.next_head, ih h.2.2⟩

theorem clearLoop_ok (L : LLaw E Inv) : ∀ {ps : List Nat} {xs : List α} {m : LMem α} {l : LList σ}
    {p fuel : Nat}, ps.length < fuel → ps.head?.getD l.head = p → FChain m ps l.head →
    (l.head :: ps).Nodup → ps.map (fun p => LMem.val m p) = xs.map Except.ok → Inv l.al m ps →
    m.node l.head ≠ none →
    ∃ a' m', LList.clearLoop E fuel p l m = .ok ({ l with al := a' }, m') ∧ Inv a' m' [] ∧
      m'.node l.head ≠ none ∧ m'.dropped = m.dropped ++ (if E.nd then xs else []) ∧
      LKeep l.head ps m [] m' := by
  intro ps
  induction ps with
  | nil =>
    intro xs m l p fuel hf hp _ _ hv hi hl
    obtain ⟨f, rfl⟩ : ∃ f, fuel = f + 1 := ⟨fuel - 1, by omega⟩
    have : xs = [] := by
      have := congrArg List.length hv
      exact List.length_eq_zero_iff.1 (by simpa using this.symm)
    subst this
    refine ⟨l.al, m, ?_, hi, hl, by simp, LKeep.refl _ _ _⟩
    simp only [List.head?_nil, Option.getD_none] at hp
    subst hp
    simp [LList.clearLoop]
  | cons q ps ih =>
    intro xs m l p fuel hf hp hc hn hv hi hl
    obtain ⟨f, rfl⟩ : ∃ f, fuel = f + 1 := ⟨fuel - 1, by omega⟩
    simp only [List.head?_cons, Option.getD_some] at hp
    subst hp
    cases xs with
    | nil => simp at hv
    | cons x xs =>
      simp only [List.map_cons, List.cons.injEq] at hv
      have hn1 := List.nodup_cons.1 hn
      have hn2 := List.nodup_cons.1 hn1.2
      have hqs : q ≠ l.head := fun e => hn1.1 (by simp [e])
      have hi' : Inv l.al (NMem.logDrop m E.nd x) (q :: ps) :=
        L.frame hi (fun z => by unfold NMem.logDrop; split <;> rfl)
          (by unfold NMem.logDrop; split <;> rfl) (by unfold NMem.logDrop; split <;> rfl)
      obtain ⟨a1, m1, e1, e2, e3, e4⟩ := L.dealloc hi' (p := q) (by simp)
      have e2 : m1.node = Function.update m.node q none := by
        rw [e2]; unfold NMem.logDrop; split <;> rfl
      obtain ⟨a', m', f1, f2, f3, f4, f5⟩ := ih (xs := xs) (m := m1) (l := { l with al := a1 })
        (fuel := f) (by simp at hf; omega) rfl
        (hc.2.frame fun z hz => (LMem.erase_fields e2 (fun e => hn2.1 (e ▸ hz))).1)
        (by
          simp only [List.nodup_cons, List.mem_cons, not_or] at hn ⊢
          exact ⟨hn.1.2, hn.2.2⟩)
        (by
          rw [← hv.2]
          apply List.map_congr_left
          intro z hz
          exact (LMem.erase_fields e2 (fun e => hn2.1 (e ▸ hz))).2.2)
        (by simpa using e4)
        (by
          show m1.node l.head ≠ none
          rw [e2, Function.update_of_ne (Ne.symm hqs)]; exact hl)
      refine ⟨a', m', ?_, f2, f3, ?_, ?_⟩
      · simp only [LList.clearLoop, if_neg hqs, hc.1, Exec.ok_bind, hv.1, e1]
        exact f1
      · rw [f4, e3]; unfold NMem.logDrop; split <;> simp
      · refine LKeep.trans (ps2 := ps) (m2 := m1) ?_ f5
        intro z _ hs
        simp only [List.mem_cons, not_or] at hs
        exact ⟨hs.2.2, by rw [e2, Function.update_of_ne hs.2.1]⟩

theorem initSentinel_ok (l : LList σ) {m : LMem α} (h : m.node l.head ≠ none) :
    ∃ m', l.initSentinel m = .ok m' ∧ LMem.Same [l.head] m m' ∧ LChain m' l.head [] l.head := by
  obtain ⟨m1, e1, e2, e3, e4, e5⟩ := LMem.setPrev_ok l.head h
  obtain ⟨m2, f1, f2, f3, f4, f5⟩ := LMem.setNext_ok (m := m1) (p := l.head) l.head
    (by rw [Ne, e2.node]; exact h)
  exact ⟨m2, by simp [LList.initSentinel, e1, f1],
    (e2.trans f2).mono (by simp), by rw [f3, if_pos rfl],
    by rw [f4, e4, if_pos rfl]⟩

theorem LRep.clear (L : LLaw E Inv) (h : LRep Inv m l ps xs) :
    ∃ l' m', l.clear E m = .ok (l', m') ∧ l'.head = l.head ∧
      m'.dropped = m.dropped ++ (if E.nd then xs else []) ∧ LRep Inv m' l' [] [] ∧
      LKeep l.head ps m [] m' := by
  obtain ⟨a1, m1, e1, e2, e3, e4, e5⟩ := clearLoop_ok L (fuel := l.size + 1)
    (by rw [h.size, h.length]; omega) rfl h.chain.forward h.nodup h.vals h.inv
    (h.chain.live _ (by simp))
  obtain ⟨m2, f1, f2, f3⟩ := initSentinel_ok { l with al := a1 } (m := m1) e3
  refine ⟨⟨l.head, 0, a1⟩, m2, ?_, rfl, by rw [f2.dropped, e4], ⟨f3, by simp, rfl, rfl,
    L.frame e2 f2.node f2.link f2.reg⟩, e5.trans ?_⟩
  · simp [LList.clear, h.chain.next_head, e1, f1]
  · intro z _ hs
    exact ⟨by simp, f2.keep z hs⟩

theorem LRep.extend (L : LLaw E Inv) : ∀ (ys : List α) {xs : List α} {ps : List Nat} {m : LMem α}
    {l : LList σ}, LRep Inv m l ps xs →
    ∃ l' m' qs, LList.extend E ys l m = .ok (l', m') ∧ l'.head = l.head ∧
      m'.dropped = m.dropped ∧ qs.length = ys.length ∧ LRep Inv m' l' (ps ++ qs) (xs ++ ys) ∧
      LKeep l.head ps m (ps ++ qs) m' := by
  intro ys
  induction ys with
  | nil =>
    intro xs ps m l h
    exact ⟨l, m, [], rfl, rfl, rfl, rfl, by simpa using h, by simpa using LKeep.refl _ _ _⟩
  | cons y ys ih =>
    intro xs ps m l h
    obtain ⟨l1, m1, p, e1, e2, _, e3, e4, e5⟩ := h.pushBack L y
    obtain ⟨l2, m2, qs, f1, f2, f3, f6, f4, f5⟩ := ih e4
    rw [e2] at f5
    exact ⟨l2, m2, p :: qs, by simp [LList.extend, e1, f1], f2.trans e2, f3.trans e3,
      by simp [f6], by simpa using f4, by simpa using e5.trans f5⟩

/-- Every public call does to the list what it does to a mathematical sequence. -/
theorem LRep.step (L : LLaw E Inv) (h : LRep Inv m l ps xs) (op : ListOp α) :
    ∃ l' m' ps', l.step E op m = .ok ((op.step xs).1, l', m') ∧ l'.head = l.head ∧
      m'.dropped = m.dropped ++ (if E.nd then op.discarded xs else []) ∧
      LRep Inv m' l' ps' (op.step xs).2 ∧ LKeep l.head ps m ps' m' ∧
      op.inPlace ps ps' := by
  cases op with
  | pushBack x =>
    obtain ⟨l', m', p, e1, e2, _, e3, e4, e5⟩ := h.pushBack L x
    exact ⟨l', m', _, by simp [LList.step, e1, ListOp.step], e2, by simp [ListOp.discarded, e3], e4, e5, _, rfl⟩
  | pushFront x =>
    obtain ⟨l', m', p, e1, e2, _, e3, e4, e5⟩ := h.pushFront L x
    exact ⟨l', m', _, by simp [LList.step, e1, ListOp.step], e2, by simp [ListOp.discarded, e3], e4, e5, _, rfl⟩
  | popBack =>
    rcases h.snoc with ⟨rfl, rfl⟩ | ⟨ps', p, xs', x, rfl, rfl⟩
    · exact ⟨l, m, [], by simp [LList.step, h.popBack_nil, ListOp.step], rfl,
        by simp [ListOp.discarded], h, LKeep.refl _ _ _, by simp [ListOp.inPlace]⟩
    · obtain ⟨l', m', e1, e2, e3, e4, e5⟩ := h.popBack L
      exact ⟨l', m', ps', by simp [LList.step, e1, ListOp.step], e2,
        by simp [ListOp.discarded, e3], by simpa [ListOp.step] using e4, e5, by simp [ListOp.inPlace]⟩
  | popFront =>
    cases ps with
    | nil =>
      have : xs = [] := List.length_eq_zero_iff.1 (by simpa using h.length.symm)
      subst this
      exact ⟨l, m, [], by simp [LList.step, h.popFront_nil, ListOp.step], rfl,
        by simp [ListOp.discarded], h, LKeep.refl _ _ _, by simp [ListOp.inPlace]⟩
    | cons p ps =>
      cases xs with
      | nil => have := h.length; simp at this
      | cons x xs =>
        obtain ⟨l', m', e1, e2, e3, e4, e5⟩ := h.popFront L
        exact ⟨l', m', ps, by simp [LList.step, e1, ListOp.step], e2,
          by simp [ListOp.discarded, e3], by simpa [ListOp.step] using e4, e5, by simp [ListOp.inPlace]⟩
  | front => exact ⟨l, m, ps, by simp [LList.step, h.front, ListOp.step], rfl,
      by simp [ListOp.discarded], h, LKeep.refl _ _ _, by simp [ListOp.inPlace]⟩
  | back => exact ⟨l, m, ps, by simp [LList.step, h.back, ListOp.step], rfl,
      by simp [ListOp.discarded], h, LKeep.refl _ _ _, by simp [ListOp.inPlace]⟩
  | setFront x =>
    cases ps with
    | nil =>
      have : xs = [] := List.length_eq_zero_iff.1 (by simpa using h.length.symm)
      subst this
      exact ⟨l, m, [], by simp [LList.step, LList.setFront, h.chain.1, ListOp.step], rfl,
        by simp [ListOp.discarded], by simpa [ListOp.step] using h, LKeep.refl _ _ _, by simp [ListOp.inPlace]⟩
    | cons p ps =>
      cases xs with
      | nil => have := h.length; simp at this
      | cons y xs =>
        have hp : p ≠ l.head := fun e => h.head_notin (by simp [e])
        obtain ⟨m', e1, e2, e3, e4⟩ := LRep.assign L (qs := []) (us := []) x h rfl
        exact ⟨l, m', p :: ps, by simp [LList.step, LList.setFront, h.chain.1, hp, e1, ListOp.step],
          rfl, by simpa [ListOp.discarded] using e2, by simpa [ListOp.step] using e3, e4, rfl⟩
  | setBack x =>
    rcases h.snoc with ⟨rfl, rfl⟩ | ⟨ps', p, xs', y, rfl, rfl⟩
    · exact ⟨l, m, [], by simp [LList.step, LList.setBack, h.chain.2, ListOp.step], rfl,
        by simp [ListOp.discarded], by simpa [ListOp.step] using h, LKeep.refl _ _ _, by simp [ListOp.inPlace]⟩
    · obtain ⟨h1, h2, h3⟩ := h.last_val
      obtain ⟨m', e1, e2, e3, e4⟩ := LRep.assign L (rs := []) (vs := []) x h
        (by have := h.length; simpa using this)
      exact ⟨l, m', ps' ++ [p], by simp [LList.step, LList.setBack, h1, h3, e1, ListOp.step],
        rfl, by simpa [ListOp.discarded] using e2, by simpa [ListOp.step] using e3, e4, rfl⟩
  | len => exact ⟨l, m, ps, by simp [LList.step, h.size, ListOp.step], rfl,
      by simp [ListOp.discarded], h, LKeep.refl _ _ _, by simp [ListOp.inPlace]⟩
  | isEmpty => exact ⟨l, m, ps, by simp [LList.step, h.size, ListOp.step], rfl,
      by simp [ListOp.discarded], h, LKeep.refl _ _ _, by simp [ListOp.inPlace]⟩
  | clear =>
    obtain ⟨l', m', e1, e2, e3, e4, e5⟩ := h.clear L
    exact ⟨l', m', [], by simp [LList.step, e1, ListOp.step], e2,
      by simpa [ListOp.discarded] using e3, e4, e5, by simp [ListOp.inPlace]⟩
  | extend ys =>
    obtain ⟨l', m', qs, e1, e2, e3, e6, e4, e5⟩ := LRep.extend L ys h
    exact ⟨l', m', _, by simp [LList.step, e1, ListOp.step], e2,
      by simp [ListOp.discarded, e3], e4, e5, qs, e6, rfl⟩

theorem LRep.run (L : LLaw E Inv) : ∀ (ops : List (ListOp α)) {m : LMem α} {l : LList σ}
    {ps : List Nat} {xs : List α}, LRep Inv m l ps xs →
    ∃ l' m' ps', l.run E ops m = .ok ((ListOp.run ops xs).1, l', m') ∧ l'.head = l.head ∧
      m'.dropped = m.dropped ++ (if E.nd then ListOp.allDropped ops xs else []) ∧
      LRep Inv m' l' ps' (ListOp.run ops xs).2 ∧ LKeep l.head ps m ps' m' := by
  intro ops
  induction ops with
  | nil => intro m l ps xs h; exact ⟨l, m, ps, rfl, rfl, by simp [ListOp.allDropped], h, LKeep.refl _ _ _⟩
  | cons op ops ih =>
    intro m l ps xs h
    obtain ⟨l1, m1, ps1, e1, e2, e3, e4, e5, _⟩ := h.step L op
    obtain ⟨l2, m2, ps2, f1, f2, f3, f4, f5⟩ := ih e4
    rw [e2] at f5
    refine ⟨l2, m2, ps2, by simp [LList.run, e1, f1, ListOp.run], f2.trans e2, ?_, f4, e5.trans f5⟩
    rw [f3, e3]
    cases E.nd <;> simp [ListOp.allDropped]

theorem LRep.newIn {a : σ} {s : Nat} {m0 : LMem α} (hs : m0.node s ≠ none)
    (L : LLaw E Inv) (hi : Inv a m0 []) :
    ∃ l m, LList.newIn a s m0 = .ok (l, m) ∧ l.head = s ∧ m.dropped = m0.dropped ∧
      LRep Inv m l [] [] ∧ LKeep s [] m0 [] m := by
  obtain ⟨m1, e1, e2, e3⟩ := initSentinel_ok (⟨s, 0, a⟩ : LList σ) hs
  exact ⟨⟨s, 0, a⟩, m1, by simp [LList.newIn, e1], rfl, e2.dropped,
    ⟨e3, by simp, rfl, rfl, L.frame hi e2.node e2.link e2.reg⟩,
    fun z _ hs => ⟨by simp, e2.keep z hs⟩⟩

/-- What goes in comes out or is discarded. -/
theorem Spec.ListOp.accounts (op : ListOp α) (xs : List α) :
    (op.movedIn xs ++ xs).Perm (op.movedOut xs ++ (op.discarded xs ++ (op.step xs).2)) := by
  cases op with
  | pushBack x =>
    simpa [ListOp.movedIn, ListOp.movedOut, ListOp.discarded, ListOp.step] using
      (List.perm_append_singleton x xs).symm
  | pushFront x => simp [ListOp.movedIn, ListOp.movedOut, ListOp.discarded, ListOp.step]
  | popBack =>
    rcases List.eq_nil_or_concat xs with rfl | ⟨ys, y, rfl⟩
    · simp [ListOp.movedIn, ListOp.movedOut, ListOp.discarded, ListOp.step]
    · simp [ListOp.movedIn, ListOp.movedOut, ListOp.discarded, ListOp.step]
  | popFront =>
    cases xs <;> simp [ListOp.movedIn, ListOp.movedOut, ListOp.discarded, ListOp.step]
  | front | back | len | isEmpty =>
    simp [ListOp.movedIn, ListOp.movedOut, ListOp.discarded, ListOp.step]
  | setFront x =>
    cases xs with
    | nil => simp [ListOp.movedIn, ListOp.movedOut, ListOp.discarded, ListOp.step]
    | cons y ys =>
      simpa [ListOp.movedIn, ListOp.movedOut, ListOp.discarded, ListOp.step] using
        List.Perm.swap y x ys
  | setBack x =>
    rcases List.eq_nil_or_concat xs with rfl | ⟨ys, y, rfl⟩
    · simp [ListOp.movedIn, ListOp.movedOut, ListOp.discarded, ListOp.step]
    · simp only [ListOp.movedIn, ListOp.movedOut, ListOp.discarded, ListOp.step,
        List.concat_eq_append, List.append_eq_nil_iff, List.cons_ne_self, and_false, if_false,
        List.getLast?_append, List.getLast?_singleton, List.dropLast_concat, Option.some_or,
        Option.toList_some, List.nil_append, List.singleton_append]
      refine (List.Perm.cons x (List.perm_append_singleton y ys)).trans ?_
      refine (List.Perm.swap y x ys).trans ?_
      exact List.Perm.cons y (List.perm_append_singleton x ys).symm
  | clear => simp [ListOp.movedIn, ListOp.movedOut, ListOp.discarded, ListOp.step]
  | extend ys =>
    simpa [ListOp.movedIn, ListOp.movedOut, ListOp.discarded, ListOp.step] using
      List.perm_append_comm

/-- Over a history: what went in is what came out, what was discarded and what is left. -/
theorem Spec.ListOp.run_accounts : ∀ (ops : List (ListOp α)) (xs : List α),
    (ListOp.allIn ops xs ++ xs).Perm
      (ListOp.allOut ops xs ++ (ListOp.allDropped ops xs ++ (ListOp.run ops xs).2)) := by
  intro ops
  induction ops with
  | nil => intro xs; simp [ListOp.allIn, ListOp.allOut, ListOp.allDropped, ListOp.run]
  | cons op ops ih =>
    intro xs
    have h1 := op.accounts xs
    have h2 := ih (op.step xs).2
    simp only [ListOp.allIn, ListOp.allOut, ListOp.allDropped, ListOp.run]
    classical
    rw [List.perm_iff_count] at *
    intro a
    have h1 := h1 a
    have h2 := h2 a
    simp only [List.count_append] at *
    omega

/-! ## Iteration -/

/-- The iterator after `k` steps. -/
abbrev literAt (l : LList σ) (ps : List Nat) (k : Nat) : LIter :=
  ⟨l.head, if k = 0 then l.head else ps.getD (k - 1) l.head, l.size - k⟩

theorem LChain.next_at {m : LMem α} {b : Nat} : ∀ {ps : List Nat} {a : Nat}, LChain m a ps b →
    ∀ (k : Nat), k ≤ ps.length →
      LMem.next m (if k = 0 then a else ps.getD (k - 1) a) = .ok (ps[k]?.getD b) := by
  intro ps
  induction ps with
  | nil => intro a h k hk; simp at hk; subst hk; simpa using h.1
  | cons p ps ih =>
    intro a h k hk
    cases k with
    | zero => simpa using h.1
    | succ k =>
      have := ih h.2.2 k (by simpa using hk)
      simp only [Nat.add_one_ne_zero, if_false, Nat.add_sub_cancel, List.getElem?_cons_succ]
      rw [← this]
      congr 1
      cases k with
      | zero => simp
      | succ k =>
        have hk : k < ps.length := by simp at hk; omega
        simp [hk]

theorem LRep.iter_next (h : LRep Inv m l ps xs) {k : Nat} (hk : k ≤ ps.length) :
    (literAt l ps k).next m = .ok (ps[k]?,
      if k < ps.length then literAt l ps (k + 1) else literAt l ps k) := by
  have hn := h.chain.next_at k hk
  unfold LIter.next
  simp only [hn, Exec.ok_bind]
  by_cases hlt : k < ps.length
  · have hne : ps[k] ≠ l.head := fun e => h.head_notin (by rw [← e]; exact List.getElem_mem _)
    have hsz : l.size - k ≠ 0 := by rw [h.size, ← h.length]; omega
    simp [hlt, hne, hsz, literAt, Nat.sub_sub]
  · simp [hlt]

theorem LRep.val_at (h : LRep Inv m l ps xs) {k : Nat} (hk : k < ps.length) :
    LMem.val m ps[k] = .ok (xs[k]'(by rw [← h.length]; exact hk)) := by
  have := congrArg (fun l => l[k]?) h.vals
  have hk' : k < xs.length := by rw [← h.length]; exact hk
  simpa [hk, hk'] using this

theorem LRep.iterRun (h : LRep Inv m l ps xs) : ∀ (n k : Nat), k ≤ ps.length →
    (literAt l ps k).run n m = .ok ((List.range n).map (fun j => xs[k + j]?),
      literAt l ps (min (k + n) ps.length)) := by
  intro n
  induction n with
  | zero => intro k hk; simp [LIter.run, Nat.min_eq_left hk]
  | succ n ih =>
    intro k hk
    simp only [LIter.run, h.iter_next hk, Exec.ok_bind, List.range_succ_eq_map, List.map_cons,
      List.map_map]
    by_cases hlt : k < ps.length
    · have hv := h.val_at hlt
      have hx : k < xs.length := by rw [← h.length]; exact hlt
      simp only [List.getElem?_eq_getElem hlt, hv, Exec.ok_bind, if_pos hlt, ih (k + 1) hlt,
        Nat.add_zero, List.getElem?_eq_getElem hx]
      congr 3
      · apply List.map_congr_left; intro j _; simp; congr 1; omega
      · rw [show k + 1 + n = k + (n + 1) by omega]
    · have hge : ps.length ≤ k := by omega
      have hx : xs.length ≤ k := by rw [← h.length]; exact hge
      simp only [List.getElem?_eq_none hge, Exec.ok_bind, if_neg hlt, ih k hk,
        Nat.add_zero, List.getElem?_eq_none hx]
      congr 3
      · apply List.map_congr_left; intro j _
        simp [List.getElem?_eq_none (show xs.length ≤ k + j by omega),
          List.getElem?_eq_none (show xs.length ≤ k + (j + 1) by omega)]
      · omega

theorem LRep.addrs_aux (h : LRep Inv m l ps xs) : ∀ (fuel k : Nat), k ≤ ps.length →
    ps.length - k < fuel → (literAt l ps k).addrs fuel m = .ok (ps.drop k) := by
  intro fuel
  induction fuel with
  | zero => intro k _ h; omega
  | succ fuel ih =>
    intro k hk hf
    simp only [LIter.addrs, h.iter_next hk, Exec.ok_bind]
    by_cases hlt : k < ps.length
    · simp only [List.getElem?_eq_getElem hlt, if_pos hlt, ih (k + 1) hlt (by omega),
        Exec.ok_bind]
      rw [List.drop_eq_getElem_cons hlt]
    · have hge : ps.length ≤ k := by omega
      simp [List.getElem?_eq_none hge, List.drop_eq_nil_of_le hge]

theorem LRep.addrs (h : LRep Inv m l ps xs) : l.addrs m = .ok ps := by
  have := h.addrs_aux (l.size + 1) 0 (Nat.zero_le _) (by rw [h.size, h.length]; omega)
  simpa [LList.addrs, LList.iter, literAt] using this

end Verif
