import Verif.LinkedList.Inv

/-! A list that changes its place.

The first and the last node of a list point at the sentinel inside the list object, and so does the
sentinel of an empty list.  The constructors are `unsafe` because "the resulting list must not be
moved" (src/list/mod.rs:32-33, src/fixed_list/mod.rs:40-41), but the type has no marker against being
moved and `FixedList` lends its list out mutably (src/fixed_list/mod.rs:97-103), so `std::mem::swap`
can be called without `unsafe`. -/

set_option autoImplicit false

namespace Verif
open Spec

variable {α σ : Type}

/-- Moving the object (src/list/mod.rs:18-25) to the address `s`: two pointers, the count and the
allocator are copied; what is left behind is uninitialised. -/
def LList.moveTo (l : LList σ) (s : Nat) (m : LMem α) : Exec (LList σ × LMem α) := do
  let n ← m.get l.head
  let m ← m.modify s fun c => { c with next := n.next, prev := n.prev }
  let m ← m.modify l.head fun _ => LNode.uninit
  .ok ({ l with head := s }, m)

/-- `std::mem::swap(l1, l2)` (objects as in src/list/mod.rs:18-25): the contents of the two objects
change places, among them the two pointers of each sentinel. -/
def LList.swap (l1 l2 : LList σ) (m : LMem α) : Exec (LList σ × LList σ × LMem α) := do
  let n1 ← m.get l1.head
  let n2 ← m.get l2.head
  let m ← m.modify l1.head fun c => { c with next := n2.next, prev := n2.prev }
  let m ← m.modify l2.head fun c => { c with next := n1.next, prev := n1.prev }
  .ok ({ l2 with head := l1.head }, { l1 with head := l2.head }, m)

/-! ## Lemmas -/

/-- A list whose nodes lead to another place `b` than its sentinel, where no value is. -/
structure Stray (Inv : σ → LMem α → List Nat → Prop) (m : LMem α) (l : LList σ) (b : Nat)
    (ps : List Nat) (xs : List α) : Prop where
  next : LMem.next m l.head = .ok (ps.head?.getD b)
  prev : LMem.prev m l.head = .ok (ps.getLast?.getD b)
  chain : FChain m ps b
  nodup : (l.head :: ps).Nodup
  away : b ∉ l.head :: ps
  vals : ps.map (fun p => LMem.val m p) = xs.map Except.ok
  size : l.size = xs.length
  inv : Inv l.al m ps
  hole : LMem.val m b = .error .ub

theorem LMem.next_err {m : LMem α} {p : Nat} {e : Fault} (h : LMem.next m p = .error e) : e = .ub := by
  rw [LMem.next_def] at h
  cases hn : m.node p with
  | none => rw [hn] at h; cases h; rfl
  | some n =>
    rw [hn] at h
    cases hx : n.next with
    | none => simp only [hx, initd] at h; cases h; rfl
    | some q => simp only [hx, initd] at h; cases h

section
variable {E : LEnv α σ} {Inv : σ → LMem α → List Nat → Prop} {b : Nat}

theorem clearLoop_stray (L : LLaw E Inv) : ∀ {ps : List Nat} {xs : List α} {m : LMem α} {l : LList σ},
    FChain m ps b → (l.head :: ps).Nodup → b ∉ l.head :: ps →
    ps.map (fun p => LMem.val m p) = xs.map Except.ok → Inv l.al m ps → LMem.val m b = .error .ub →
    LList.clearLoop E (ps.length + 1) (ps.head?.getD b) l m = .error .ub := by
  intro ps
  induction ps with
  | nil =>
    intro xs m l _ _ hb _ _ hv
    have hbh : b ≠ l.head := fun e => hb (by simp [e])
    simp only [List.length_nil, List.head?_nil, Option.getD_none, LList.clearLoop,
      if_neg hbh]
    cases hn : LMem.next m b with
    | error e => rw [LMem.next_err hn]; rfl
    | ok q => simp [hv]
  | cons p ps ih =>
    intro xs m l hc hn hb hvs hi hv
    cases xs with
    | nil => simp at hvs
    | cons x xs =>
    simp only [List.map_cons, List.cons.injEq] at hvs
    have hn1 := List.nodup_cons.1 hn
    have hn2 := List.nodup_cons.1 hn1.2
    have hph : p ≠ l.head := fun e => hn1.1 (by simp [e])
    have hbp : b ≠ p := fun e => hb (by simp [e])
    have hd : ∀ q, (NMem.logDrop m E.nd x).node q = m.node q := by
      intro q; unfold NMem.logDrop; split <;> rfl
    have hi' : Inv l.al (NMem.logDrop m E.nd x) (p :: ps) := by
      refine L.frame hi (fun q => by rw [hd]) ?_ ?_
      · unfold NMem.logDrop; split <;> rfl
      · unfold NMem.logDrop; split <;> rfl
    obtain ⟨al, m1, e1, e2, _, e3⟩ := L.dealloc hi' (p := p) (by simp)
    simp only [List.erase_cons_head] at e3
    have hnode : ∀ q, q ≠ p → m1.node q = m.node q := by
      intro q hq; rw [e2, Function.update_of_ne hq, hd]
    have hps : ∀ q ∈ ps, q ≠ p := fun q hq e => hn2.1 (e ▸ hq)
    have := ih (xs := xs) (m := m1) (l := { l with al := al })
      (hc.2.frame fun z hz => by rw [LMem.next_def, LMem.next_def, hnode z (hps z hz)])
      (List.nodup_cons.2 ⟨fun e => hn1.1 (List.mem_cons_of_mem _ e), hn2.2⟩)
      (fun e => hb (by simp only [List.mem_cons] at e ⊢; tauto))
      (by
        rw [← hvs.2]
        exact List.map_congr_left fun q hq => by
          rw [LMem.val_def, LMem.val_def, hnode q (hps q hq)])
      e3 (by rw [LMem.val_def, hnode b hbp, ← LMem.val_def]; exact hv)
    simp only [List.length_cons, List.head?_cons, Option.getD_some]
    unfold LList.clearLoop
    simp only [if_neg hph, hc.1, Exec.ok_bind, hvs.1, e1]
    exact this

theorem iter_stray {m : LMem α} {s : Nat} : ∀ {ps : List Nat} {xs : List α} {c : Nat},
    LMem.next m c = .ok (ps.head?.getD b) → FChain m ps b → s ∉ ps → b ≠ s →
    ps.map (fun p => LMem.val m p) = xs.map Except.ok →
    (∃ it, LIter.run xs.length ⟨s, c, xs.length⟩ m = .ok (xs.map some, it)) ∧
      LIter.run (xs.length + 1) ⟨s, c, xs.length⟩ m = .error .panic := by
  intro ps
  induction ps with
  | nil =>
    intro xs c hn _ _ hb hv
    cases xs with
    | cons x xs => simp at hv
    | nil =>
      refine ⟨⟨_, rfl⟩, ?_⟩
      simp only [List.head?_nil, Option.getD_none] at hn
      simp [LIter.run, LIter.next, hn, hb]
  | cons p ps ih =>
    intro xs c hn hc hs hb hv
    cases xs with
    | nil => simp at hv
    | cons x xs =>
    simp only [List.map_cons, List.cons.injEq] at hv
    simp only [List.head?_cons, Option.getD_some] at hn
    have hps : p ≠ s := fun e => hs (by simp [e])
    obtain ⟨⟨it, h1⟩, h2⟩ := ih hc.1 hc.2 (fun e => hs (List.mem_cons_of_mem _ e)) hb hv.2
    refine ⟨⟨it, ?_⟩, ?_⟩
    · rw [List.length_cons]
      unfold LIter.run
      simp [LIter.next, hn, hps, hv.1, h1]
    · rw [List.length_cons]
      unfold LIter.run
      simp [LIter.next, hn, hps, hv.1, h2]

variable {m : LMem α} {l : LList σ} {ps : List Nat} {xs : List α}

theorem Stray.length (h : Stray Inv m l b ps xs) : ps.length = xs.length := by
  simpa using congrArg List.length h.vals

theorem Stray.clear (L : LLaw E Inv) (h : Stray Inv m l b ps xs) : l.clear E m = .error .ub := by
  have := clearLoop_stray L h.chain h.nodup h.away h.vals h.inv h.hole
  rw [h.length, ← h.size] at this
  simp [LList.clear, h.next, this]

theorem Stray.drop (L : LLaw E Inv) (h : Stray Inv m l b ps xs) : l.drop E m = .error .ub := by
  simp [LList.drop, h.clear L]

theorem Stray.iter (h : Stray Inv m l b ps xs) :
    (∃ it, l.iter.run xs.length m = .ok (xs.map some, it)) ∧
      l.iter.run (xs.length + 1) m = .error .panic := by
  have hb : b ≠ l.head := fun e => h.away (by simp [e])
  have := iter_stray (s := l.head) h.next h.chain (List.nodup_cons.1 h.nodup).1 hb h.vals
  rw [LList.iter, h.size]
  exact this

theorem Stray.front (h : Stray Inv m l b ps xs) :
    l.front m = if xs = [] then .error .ub else .ok xs.head? := by
  have hb : b ≠ l.head := fun e => h.away (by simp [e])
  have hv := h.vals
  have hn := h.next
  have hl := h.length
  cases ps with
  | nil =>
    obtain rfl : xs = [] := List.length_eq_zero_iff.1 (by simpa using hl.symm)
    simp only [List.head?_nil, Option.getD_none] at hn
    simp [LList.front, hn, hb, h.hole]
  | cons p ps =>
    cases xs with
    | nil => simp at hv
    | cons x xs =>
      simp only [List.map_cons, List.cons.injEq] at hv
      simp only [List.head?_cons, Option.getD_some] at hn
      have hp : p ≠ l.head := fun e => (List.nodup_cons.1 h.nodup).1 (by simp [e])
      simp [LList.front, hn, hp, hv.1]

theorem Stray.back (h : Stray Inv m l b ps xs) :
    l.back m = if xs = [] then .error .ub else .ok xs.getLast? := by
  have hb : b ≠ l.head := fun e => h.away (by simp [e])
  have hv := h.vals
  have hn := h.prev
  have hl := h.length
  rcases List.eq_nil_or_concat ps with rfl | ⟨ps, p, rfl⟩
  · obtain rfl : xs = [] := List.length_eq_zero_iff.1 (by simpa using hl.symm)
    simp only [List.getLast?_nil, Option.getD_none] at hn
    simp [LList.back, hn, hb, h.hole]
  · rcases List.eq_nil_or_concat xs with rfl | ⟨xs, x, rfl⟩
    · simp at hl
    · simp only [List.concat_eq_append, List.map_append, List.map_cons, List.map_nil] at hv
      have hv := (List.append_inj' hv (by simp)).2
      simp only [List.cons.injEq, and_true] at hv
      simp only [List.concat_eq_append, List.getLast?_append, List.getLast?_singleton,
        Option.some_or, Option.getD_some] at hn
      have hp : p ≠ l.head := fun e => (List.nodup_cons.1 h.nodup).1 (by simp [e])
      simp [LList.back, hn, hp, hv]

/-- A list in order, described without the backward links. -/
theorem LRep.last (h : LRep Inv m l ps xs) : LMem.prev m l.head = .ok (ps.getLast?.getD l.head) :=
  h.chain.prev_last

/-- What `l` becomes when its object is copied to `s`. -/
theorem LRep.stray (L : LLaw E Inv) (h : LRep Inv m l ps xs) {m' : LMem α} {s : Nat}
    (hs : s ∉ l.head :: ps) (hnode : ∀ q, q ≠ s → q ≠ l.head → m'.node q = m.node q)
    (hnone : ∀ q, m'.node q = none ↔ m.node q = none) (hlink : m'.link = m.link)
    (hreg : m'.reg = m.reg) (hnext : LMem.next m' s = LMem.next m l.head)
    (hprev : LMem.prev m' s = LMem.prev m l.head) (hval : LMem.val m' l.head = .error .ub) :
    Stray Inv m' { l with head := s } l.head ps xs where
  next := by rw [hnext, h.chain.next_head]
  prev := by rw [hprev, h.last]
  chain := h.chain.forward.frame fun z hz => by
    rw [LMem.next_def, LMem.next_def, hnode z (fun e => hs (by simp [← e, hz]))
      (fun e => h.head_notin (e ▸ hz))]
  nodup := List.nodup_cons.2 ⟨fun e => hs (List.mem_cons_of_mem _ e), (List.nodup_cons.1 h.nodup).2⟩
  away := by
    intro e
    rcases List.mem_cons.1 e with e | e
    · exact hs (by rw [← show l.head = s from e]; simp)
    · exact h.head_notin e
  vals := by
    rw [← h.vals]
    exact List.map_congr_left fun z hz => by
      rw [LMem.val_def, LMem.val_def, hnode z (fun e => hs (by simp [← e, hz]))
        (fun e => h.head_notin (e ▸ hz))]
  size := h.size
  inv := L.frame h.inv hnone hlink hreg
  hole := hval

end

end Verif
