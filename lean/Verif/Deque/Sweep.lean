import Verif.Deque.Inv
import Verif.Spec.Sweep

/-! Assigning to the elements of a deque during `iter_mut`. -/

set_option autoImplicit false

namespace Verif
open Spec

variable {α : Type}

/-- Calls of `next` and `next_back` of `IterMut` (src/deque/iter.rs:317-331), each followed by
`*r = y` if it returned a reference `r`; the values that were there. -/
def DIter.sweep (E : DEnv α) : List (IterOp × α) → DIter → DMem α → Exec (List (Option α) × DMem α)
  | [], _, m => .ok ([], m)
  | (op, y) :: ws, it, m => do
    let (p, it) ← (match op with
      | .next => it.next m
      | .nextBack => it.nextBack m)
    let o ← readOpt m.t p
    let (_, m) ← assignOpt E m y p
    let (os, m) ← DIter.sweep E ws it m
    .ok (o :: os, m)

/-- A call, or a loop over `iter_mut` (src/deque/mod.rs:67-69). -/
def Deque.stepI (E : DEnv α) : DeqItem α → Deque → DMem α → Exec (Seen α × Deque × DMem α)
  | .call op, d, m => do
    let (o, d, m) ← d.step E op m
    .ok (.out o, d, m)
  | .sweep ws, d, m => do
    let it ← d.iter
    let (os, m) ← it.sweep E ws m
    .ok (.saw os, d, m)

/-- A history of calls and loops. -/
def Deque.runI (E : DEnv α) : List (DeqItem α) → Deque → DMem α →
    Exec (List (Seen α) × Deque × DMem α)
  | [], d, m => .ok ([], d, m)
  | i :: is, d, m => do
    let (o, d, m) ← d.stepI E i m
    let (os, d, m) ← Deque.runI E is d m
    .ok (o :: os, d, m)

section
variable {E : DEnv α} {wt : World α} {wp : World Ptr} {d : Deque} {pb lo bo : Nat} {bl : List Nat}

theorem DRep.sweep : ∀ (ws : List (IterOp × α)) {a b c : List α} {m : DMem α},
    DRep E wt wp m d pb lo bo bl (a ++ b ++ c) →
    ∃ m', (iterAt E.S pb lo bl (bo + a.length) (bo + (a.length + b.length))).sweep E ws m =
        .ok ((IterOp.run (ws.map Prod.fst) b).1, m') ∧
      DRep E wt wp m' d pb lo bo bl (a ++ IterOp.written ws b ++ c) ∧
      m'.t.dropped = m.t.dropped ++
        if E.nd then (IterOp.run (ws.map Prod.fst) b).1.filterMap id else [] := by
  intro ws
  induction ws with
  | nil => intro a b c m h; exact ⟨m, rfl, h, by simp [IterOp.run]⟩
  | cons w ws ih =>
    intro a b c m h
    obtain ⟨op, y⟩ := w
    have hle : a.length + b.length ≤ (a ++ b ++ c).length := by simp
    have hn := h.next (Nat.le_add_right a.length b.length) hle
    have hb := h.nextBack (Nat.le_add_right a.length b.length) hle
    cases op with
    | next =>
      cases b with
      | nil =>
        obtain ⟨m', e1, e2, e3⟩ := ih h
        simp only [List.length_nil, Nat.add_zero, if_true] at hn e1
        refine ⟨m', ?_, ?_, ?_⟩
        · simp [DIter.sweep, hn, readOpt, assignOpt, e1, IterOp.run, IterOp.step]
        · have : IterOp.written ws ([] : List α) = [] := by
            cases ws with
            | nil => rfl
            | cons w ws => obtain ⟨op, y⟩ := w; cases op <;> simp [IterOp.written]
          simpa [IterOp.written, this] using e2
        · simpa [IterOp.run, IterOp.step] using e3
      | cons x b =>
        have hk : a.length < (a ++ x :: b ++ c).length := by simp
        obtain ⟨m1, f1, f2, f3⟩ := h.assign hk y
        have hx : m.t.read (cellPtr E.S bl (bo + a.length)) = .ok x := by
          simpa using h.head? hk
        have hset : (a ++ x :: b ++ c).set a.length y = (a ++ [y]) ++ b ++ c := by
          simp
        rw [hset] at f2
        obtain ⟨m', e1, e2, e3⟩ := ih f2
        rw [if_neg (by simp)] at hn
        have hidx : bo + (a ++ [y]).length = bo + a.length + 1 := by simp; omega
        have hidx' : (a ++ [y]).length + b.length = a.length + (x :: b).length := by simp; omega
        rw [hidx, hidx'] at e1
        refine ⟨m', ?_, ?_, ?_⟩
        · simp only [DIter.sweep, hn, Exec.ok_bind, readOpt, hx, f1, e1]
          simp [IterOp.run, IterOp.step]
        · simpa [IterOp.written] using e2
        · rw [e3, f3]
          cases E.nd <;> simp [IterOp.run, IterOp.step]
    | nextBack =>
      rcases List.eq_nil_or_concat b with rfl | ⟨b, x, rfl⟩
      · obtain ⟨m', e1, e2, e3⟩ := ih h
        simp only [List.length_nil, Nat.add_zero, if_true] at hb e1
        refine ⟨m', ?_, ?_, ?_⟩
        · simp [DIter.sweep, hb, readOpt, assignOpt, e1, IterOp.run, IterOp.step]
        · have : IterOp.written ws ([] : List α) = [] := by
            cases ws with
            | nil => rfl
            | cons w ws => obtain ⟨op, y⟩ := w; cases op <;> simp [IterOp.written]
          simpa [IterOp.written, this] using e2
        · simpa [IterOp.run, IterOp.step] using e3
      · simp only [List.concat_eq_append] at *
        have hk : a.length + b.length < (a ++ (b ++ [x]) ++ c).length := by simp
        obtain ⟨m1, f1, f2, f3⟩ := h.assign hk y
        have hx : m.t.read (cellPtr E.S bl (bo + (a.length + b.length))) = .ok x := by
          rw [h.head? hk]
          simp
        have hset : (a ++ (b ++ [x]) ++ c).set (a.length + b.length) y = a ++ b ++ ([y] ++ c) := by
          simp
        rw [hset] at f2
        obtain ⟨m', e1, e2, e3⟩ := ih f2
        rw [if_neg (by simp)] at hb
        have hidx : a.length + (b ++ [x]).length - 1 = a.length + b.length := by simp
        rw [hidx] at hb
        refine ⟨m', ?_, ?_, ?_⟩
        · simp only [DIter.sweep, hb, Exec.ok_bind, readOpt, hx, f1, e1]
          simp [IterOp.run, IterOp.step]
        · simpa [IterOp.written] using e2
        · rw [e3, f3]
          cases E.nd <;> simp [IterOp.run, IterOp.step]

/-- An item of a history does to the deque what it does to a sequence. -/
theorem DInv.stepI {m0 m : DMem α} {xs : List α} (h : DInv E m0 m d xs) (i : DeqItem α) :
    ∃ d' m', d.stepI E i m = .ok ((i.step xs).1, d', m') ∧ DInv E m0 m' d' (i.step xs).2 ∧
      m'.t.dropped = m.t.dropped ++ if E.nd then i.overwritten xs else [] := by
  cases i with
  | call op =>
    obtain ⟨d', m', e1, e2, e3⟩ := h.step op
    exact ⟨d', m', by simp [Deque.stepI, e1, DeqItem.step], e2, e3⟩
  | sweep ws =>
    obtain ⟨pb, lo, bo, bl, h⟩ := h
    obtain ⟨m', e1, e2, e3⟩ := DRep.sweep ws (a := []) (b := xs) (c := []) (by simpa using h)
    simp only [List.length_nil, Nat.add_zero, Nat.zero_add] at e1
    exact ⟨d, m', by simp [Deque.stepI, h.iter, e1, DeqItem.step],
      ⟨pb, lo, bo, bl, by simpa [DeqItem.step] using e2⟩, e3⟩

theorem DInv.runI {m0 : DMem α} : ∀ (is : List (DeqItem α)) {m : DMem α} {d : Deque} {xs : List α},
    DInv E m0 m d xs →
    ∃ d' m', Deque.runI E is d m = .ok ((DeqItem.run is xs).1, d', m') ∧
      DInv E m0 m' d' (DeqItem.run is xs).2 ∧
      m'.t.dropped = m.t.dropped ++ if E.nd then DeqItem.allOverwritten is xs else [] := by
  intro is
  induction is with
  | nil => intro m d xs h; exact ⟨d, m, rfl, h, by simp [DeqItem.allOverwritten]⟩
  | cons i is ih =>
    intro m d xs h
    obtain ⟨d1, m1, e1, e2, e3⟩ := h.stepI i
    obtain ⟨d2, m2, f1, f2, f3⟩ := ih e2
    refine ⟨d2, m2, by simp [Deque.runI, e1, f1, DeqItem.run], f2, ?_⟩
    rw [f3, e3]
    cases E.nd <;> simp [DeqItem.allOverwritten]

end

end Verif
