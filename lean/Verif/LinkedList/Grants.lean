import Verif.LinkedList.Inv
import Verif.Spec.Refusals

/-! Lists with an allocator that panics.

Each call comes with the number of requests for memory that are granted; the next one panics, and the
program catches the panic.  `asks` says whether the list's allocator, in its present state, needs a
grant: `DefaultAllocator` always does, a pool with overflow if the pool is exhausted. -/

set_option autoImplicit false

namespace Verif
open Spec

variable {α σ : Type}

namespace LList

/-- `push_back` (src/list/mod.rs:169-175).  `create_node` (193-197) asks for the node before anything
changes; if that panics, the value is dropped.  Returns the requests still granted, or `none` if it
panicked. -/
def pushBackG (E : LEnv α σ) (asks : σ → Bool) (g : Nat) (l : LList σ) (x : α) (m : LMem α) :
    Exec (Option Nat × LList σ × LMem α) :=
  if asks l.al = true ∧ g = 0 then .ok (none, l, m.logDrop E.nd x)
  else do
    let (l', m) ← l.pushBack E x m
    .ok (some (if asks l.al then g - 1 else g), l', m)

/-- `push_front` (src/list/mod.rs:178-185), likewise. -/
def pushFrontG (E : LEnv α σ) (asks : σ → Bool) (g : Nat) (l : LList σ) (x : α) (m : LMem α) :
    Exec (Option Nat × LList σ × LMem α) :=
  if asks l.al = true ∧ g = 0 then .ok (none, l, m.logDrop E.nd x)
  else do
    let (l', m) ← l.pushFront E x m
    .ok (some (if asks l.al then g - 1 else g), l', m)

/-- Values dropped one after another. -/
def dropAll (E : LEnv α σ) : List α → LMem α → LMem α
  | [], m => m
  | x :: xs, m => dropAll E xs (m.logDrop E.nd x)

/-- `extend` (src/list/mod.rs:238-250) pushes one value after another; if a push panics, the iterator
is dropped with the values it has left. -/
def extendG (E : LEnv α σ) (asks : σ → Bool) : Nat → List α → LList σ → LMem α →
    Exec (Bool × LList σ × LMem α)
  | _, [], l, m => .ok (true, l, m)
  | g, x :: xs, l, m => do
    let (r, l, m) ← l.pushBackG E asks g x m
    match r with
    | none => .ok (false, l, dropAll E xs m)
    | some g => extendG E asks g xs l m

/-- One public call: what it returned, or `none` if it panicked. -/
def stepG (E : LEnv α σ) (asks : σ → Bool) (g : Nat) (op : ListOp α) (l : LList σ) (m : LMem α) :
    Exec (Option (Out α) × LList σ × LMem α) :=
  match op with
  | .pushBack x => do
    let (r, l, m) ← l.pushBackG E asks g x m
    .ok (r.map fun _ => .unit, l, m)
  | .pushFront x => do
    let (r, l, m) ← l.pushFrontG E asks g x m
    .ok (r.map fun _ => .unit, l, m)
  | .extend ys => do
    let (ok, l, m) ← extendG E asks g ys l m
    .ok (if ok then some .unit else none, l, m)
  | op => do
    let (o, l, m) ← l.step E op m
    .ok (some o, l, m)

/-- A history of public calls, each panic being caught. -/
def runG (E : LEnv α σ) (asks : σ → Bool) : List (Nat × ListOp α) → LList σ → LMem α →
    Exec (List (Option (Out α)) × LList σ × LMem α)
  | [], l, m => .ok ([], l, m)
  | (g, op) :: calls, l, m => do
    let (o, l, m) ← l.stepG E asks g op m
    let (os, l, m) ← runG E asks calls l m
    .ok (o :: os, l, m)

end LList

/-- What the theorems need of an allocator: `free ps` is the number of nodes it can still provide
without a grant if it has provided the nodes `ps`. -/
structure Supply (E : LEnv α σ) (Inv : σ → LMem α → List Nat → Prop) (asks : σ → Bool)
    (free : List Nat → Nat) : Prop where
  asks_iff : ∀ {a m ps}, Inv a m ps → (asks a = true ↔ free ps = 0)
  alloc : ∀ {a a' m m' ps p}, Inv a m ps → E.A.alloc E.size E.align a m = .ok (p, a', m') →
    free (p :: ps) = free ps - 1
  perm : ∀ {ps qs}, ps.Perm qs → free ps = free qs

variable {E : LEnv α σ} {Inv : σ → LMem α → List Nat → Prop} {m : LMem α} {l : LList σ}
  {ps : List Nat} {xs : List α} {asks : σ → Bool} {free : List Nat → Nat}

theorem logDrop_same (m : LMem α) (b : Bool) (x : α) :
    (m.logDrop b x).node = m.node ∧ (m.logDrop b x).link = m.link ∧
    (m.logDrop b x).reg = m.reg ∧
    (m.logDrop b x).dropped = m.dropped ++ if b then [x] else [] := by
  cases b <;> simp [NMem.logDrop]

theorem dropAll_same (E : LEnv α σ) : ∀ (xs : List α) (m : LMem α),
    (LList.dropAll E xs m).node = m.node ∧ (LList.dropAll E xs m).link = m.link ∧
    (LList.dropAll E xs m).reg = m.reg ∧
    (LList.dropAll E xs m).dropped = m.dropped ++ if E.nd then xs else [] := by
  intro xs
  induction xs with
  | nil => intro m; simp [LList.dropAll]
  | cons x xs ih =>
    intro m
    obtain ⟨a1, a2, a3, a4⟩ := ih (m.logDrop E.nd x)
    obtain ⟨b1, b2, b3, b4⟩ := logDrop_same m E.nd x
    refine ⟨a1.trans b1, a2.trans b2, a3.trans b3, ?_⟩
    rw [LList.dropAll, a4, b4]
    cases E.nd <;> simp

/-- Only nodes matter to a list. -/
theorem LRep.sameNodes (L : LLaw E Inv) (h : LRep Inv m l ps xs) {m' : LMem α}
    (h1 : m'.node = m.node) (h2 : m'.link = m.link) (h3 : m'.reg = m.reg) :
    LRep Inv m' l ps xs := by
  refine ⟨h.chain.frame (fun z _ => ?_) (fun z _ => ?_), h.nodup, ?_, h.size,
    L.frame h.inv (fun q => by rw [h1]) h2 h3⟩
  · rw [LMem.next_def, LMem.next_def, h1]
  · rw [LMem.prev_def, LMem.prev_def, h1]
  · rw [← h.vals]
    refine List.map_congr_left fun z _ => ?_
    rw [LMem.val_def, LMem.val_def, h1]

theorem LKeep.sameNodes {s : Nat} {m' : LMem α} (h : m'.node = m.node) : LKeep s ps m ps m' :=
  fun z _ hs => ⟨fun hm => hs (List.mem_cons_of_mem _ hm), by rw [h]⟩

/-- A push: it fits exactly if a node is free or granted. -/
theorem LRep.pushBackG (L : LLaw E Inv) (S : Supply E Inv asks free) (h : LRep Inv m l ps xs)
    (g : Nat) (x : α) :
    (g + free ps = 0 ∧ l.pushBackG E asks g x m = .ok (none, l, m.logDrop E.nd x)) ∨
    (g + free ps ≠ 0 ∧ ∃ g' l' m' p, l.pushBackG E asks g x m = .ok (some g', l', m') ∧
      l'.head = l.head ∧ m'.dropped = m.dropped ∧ LRep Inv m' l' (ps ++ [p]) (xs ++ [x]) ∧
      LKeep l.head ps m (ps ++ [p]) m' ∧ g' + free (ps ++ [p]) + 1 = g + free ps) := by
  have ha := S.asks_iff h.inv
  obtain ⟨l', m', p, e1, e2, ⟨_, a1, m1, e3⟩, e4, e5, e6⟩ := h.pushBack L x
  have hf := S.alloc h.inv e3
  rw [S.perm (List.perm_append_singleton p ps).symm] at hf
  by_cases hc : asks l.al = true ∧ g = 0
  · left
    have := ha.1 hc.1
    exact ⟨by omega, by rw [LList.pushBackG, if_pos hc]⟩
  · right
    have hn : g + free ps ≠ 0 := fun e => hc ⟨ha.2 (by omega), by omega⟩
    refine ⟨hn, _, l', m', p, by rw [LList.pushBackG, if_neg hc, e1]; rfl, e2, e4, e5, e6, ?_⟩
    by_cases hb : asks l.al = true
    · have := ha.1 hb
      rw [if_pos hb]; omega
    · have : free ps ≠ 0 := fun e => hb (ha.2 e)
      rw [if_neg hb]; omega

theorem LRep.pushFrontG (L : LLaw E Inv) (S : Supply E Inv asks free) (h : LRep Inv m l ps xs)
    (g : Nat) (x : α) :
    (g + free ps = 0 ∧ l.pushFrontG E asks g x m = .ok (none, l, m.logDrop E.nd x)) ∨
    (g + free ps ≠ 0 ∧ ∃ g' l' m' p, l.pushFrontG E asks g x m = .ok (some g', l', m') ∧
      l'.head = l.head ∧ m'.dropped = m.dropped ∧ LRep Inv m' l' (p :: ps) (x :: xs) ∧
      LKeep l.head ps m (p :: ps) m') := by
  have ha := S.asks_iff h.inv
  obtain ⟨l', m', p, e1, e2, _, e4, e5, e6⟩ := h.pushFront L x
  by_cases hc : asks l.al = true ∧ g = 0
  · left
    have := ha.1 hc.1
    exact ⟨by omega, by rw [LList.pushFrontG, if_pos hc]⟩
  · right
    have hn : g + free ps ≠ 0 := fun e => hc ⟨ha.2 (by omega), by omega⟩
    exact ⟨hn, _, l', m', p, by rw [LList.pushFrontG, if_neg hc, e1]; rfl, e2, e4, e5, e6⟩

theorem LRep.extendG (L : LLaw E Inv) (S : Supply E Inv asks free) : ∀ (ys : List α) (g : Nat)
    {xs : List α} {ps : List Nat} {m : LMem α} {l : LList σ}, LRep Inv m l ps xs →
    ∃ l' m' ps', LList.extendG E asks g ys l m =
        .ok (decide (ys.length ≤ g + free ps), l', m') ∧ l'.head = l.head ∧
      m'.dropped = m.dropped ++ (if E.nd then ys.drop (g + free ps) else []) ∧
      LRep Inv m' l' ps' (xs ++ ys.take (g + free ps)) ∧ LKeep l.head ps m ps' m' := by
  intro ys
  induction ys with
  | nil =>
    intro g xs ps m l h
    exact ⟨l, m, ps, by simp [LList.extendG], rfl, by simp, by simpa using h, LKeep.refl _ _ _⟩
  | cons y ys ih =>
    intro g xs ps m l h
    rcases h.pushBackG L S g y with ⟨e0, e1⟩ | ⟨e0, g', l1, m1, p, e1, e2, e3, e4, e5, e6⟩
    · obtain ⟨a1, a2, a3, a4⟩ := dropAll_same E (y :: ys) m
      refine ⟨l, LList.dropAll E (y :: ys) m, ps, ?_, rfl, ?_, ?_, LKeep.sameNodes a1⟩
      · simp [LList.extendG, e1, e0, LList.dropAll]
      · rw [a4, e0, List.drop_zero]
      · rw [e0, List.take_zero, List.append_nil]
        exact h.sameNodes L a1 a2 a3
    · obtain ⟨l2, m2, ps2, f1, f2, f3, f4, f5⟩ := ih g' e4
      rw [e2] at f5
      refine ⟨l2, m2, ps2, ?_, f2.trans e2, ?_, ?_, e5.trans f5⟩
      · simp only [LList.extendG, e1, Exec.ok_bind, f1, List.length_cons, ← e6,
          Nat.add_le_add_iff_right]
      · rw [f3, e3, ← e6, List.drop_succ_cons]
      · rw [← e6, List.take_succ_cons]
        simpa using f4

theorem LRep.stepG_other (L : LLaw E Inv) (h : LRep Inv m l ps xs) {g : Nat}
    (op : ListOp α) (h1 : op.given = []) (h2 : ∀ n, op.fitted n = op)
    (h3 : l.stepG E asks g op m = (do
      let (o, l, m) ← l.step E op m
      .ok (some o, l, m))) :
    ∃ l' m' ps', l.stepG E asks g op m = .ok (if g + free ps < op.given.length then none
          else some ((op.fitted (g + free ps)).step xs).1, l', m') ∧ l'.head = l.head ∧
      m'.dropped = m.dropped ++ (if E.nd then
        (op.fitted (g + free ps)).discarded xs ++ op.given.drop (g + free ps) else []) ∧
      LRep Inv m' l' ps' ((op.fitted (g + free ps)).step xs).2 ∧ LKeep l.head ps m ps' m' := by
  obtain ⟨l', m', ps', e1, e2, e3, e4, e5, _⟩ := h.step L op
  rw [h2, h1, h3, e1]
  exact ⟨l', m', ps', by simp, e2, by simpa using e3, e4, e5⟩

/-- A call does as much as fits. -/
theorem LRep.stepG (L : LLaw E Inv) (S : Supply E Inv asks free) (h : LRep Inv m l ps xs)
    (g : Nat) (op : ListOp α) :
    ∃ l' m' ps', l.stepG E asks g op m = .ok (if g + free ps < op.given.length then none
          else some ((op.fitted (g + free ps)).step xs).1, l', m') ∧ l'.head = l.head ∧
      m'.dropped = m.dropped ++ (if E.nd then
        (op.fitted (g + free ps)).discarded xs ++ op.given.drop (g + free ps) else []) ∧
      LRep Inv m' l' ps' ((op.fitted (g + free ps)).step xs).2 ∧ LKeep l.head ps m ps' m' := by
  cases op with
  | pushBack x =>
    rcases h.pushBackG L S g x with ⟨e0, e1⟩ | ⟨e0, g', l1, m1, p, e1, e2, e3, e4, e5, _⟩
    · obtain ⟨a1, a2, a3, a4⟩ := logDrop_same m E.nd x
      exact ⟨l, m.logDrop E.nd x, ps, by simp [LList.stepG, e1, e0, ListOp.given], rfl,
        by simp [a4, e0, ListOp.fitted, ListOp.discarded, ListOp.given],
        by simpa [e0, ListOp.fitted, ListOp.step] using h.sameNodes L a1 a2 a3,
        LKeep.sameNodes a1⟩
    · obtain ⟨k, hk⟩ := Nat.exists_eq_succ_of_ne_zero e0
      rw [hk]
      exact ⟨l1, m1, ps ++ [p], by simp [LList.stepG, e1, ListOp.given, ListOp.fitted, ListOp.step], e2,
        by simp [e3, ListOp.fitted, ListOp.discarded, ListOp.given],
        by simpa [ListOp.fitted, ListOp.step] using e4, e5⟩
  | pushFront x =>
    rcases h.pushFrontG L S g x with ⟨e0, e1⟩ | ⟨e0, g', l1, m1, p, e1, e2, e3, e4, e5⟩
    · obtain ⟨a1, a2, a3, a4⟩ := logDrop_same m E.nd x
      exact ⟨l, m.logDrop E.nd x, ps, by simp [LList.stepG, e1, e0, ListOp.given], rfl,
        by simp [a4, e0, ListOp.fitted, ListOp.discarded, ListOp.given],
        by simpa [e0, ListOp.fitted, ListOp.step] using h.sameNodes L a1 a2 a3,
        LKeep.sameNodes a1⟩
    · obtain ⟨k, hk⟩ := Nat.exists_eq_succ_of_ne_zero e0
      rw [hk]
      exact ⟨l1, m1, p :: ps, by simp [LList.stepG, e1, ListOp.given, ListOp.fitted, ListOp.step], e2,
        by simp [e3, ListOp.fitted, ListOp.discarded, ListOp.given],
        by simpa [ListOp.fitted, ListOp.step] using e4, e5⟩
  | extend ys =>
    obtain ⟨l', m', ps', e1, e2, e3, e4, e5⟩ := LRep.extendG L S ys g h
    refine ⟨l', m', ps', ?_, e2, by simpa [ListOp.fitted, ListOp.discarded, ListOp.given] using e3,
      by simpa [ListOp.fitted, ListOp.step] using e4, e5⟩
    show LList.stepG E asks g (.extend ys) l m =
      .ok (if g + free ps < ys.length then none else some .unit, l', m')
    by_cases hc : ys.length ≤ g + free ps
    · rw [if_neg (by omega)]
      simp [LList.stepG, e1, hc]
    · rw [if_pos (by omega)]
      simp [LList.stepG, e1, hc]
  | popBack | popFront | front | back | setFront x | setBack x | len | isEmpty | clear =>
    exact h.stepG_other L _ rfl (fun _ => rfl) rfl

/-- A history, `ns` telling for how many more elements there is memory at each call. -/
theorem LRep.runG (L : LLaw E Inv) (S : Supply E Inv asks free) :
    ∀ (calls : List (Nat × ListOp α)) {m : LMem α} {l : LList σ}
    {ps : List Nat} {xs : List α}, LRep Inv m l ps xs →
    ∃ fs : List (Nat × ListOp α), List.Forall₂ (fun c f => ∃ qs, f = (c.1 + free qs, c.2)) calls fs ∧
    ∃ l' m' ps', l.runG E asks calls m =
        .ok (ListOp.outsFitted fs (ListOp.run (ListOp.fittedAll fs) xs).1, l', m') ∧
      l'.head = l.head ∧ LRep Inv m' l' ps' (ListOp.run (ListOp.fittedAll fs) xs).2 ∧
      LKeep l.head ps m ps' m' ∧
      ∃ ds, m'.dropped = m.dropped ++ (if E.nd then ds else []) ∧
        ds.Perm (ListOp.allDropped (ListOp.fittedAll fs) xs ++ ListOp.unfitted fs) := by
  intro calls
  induction calls with
  | nil =>
    intro m l ps xs h
    exact ⟨[], .nil, l, m, ps, rfl, rfl, h, LKeep.refl _ _ _, [], by simp, by
      simp [ListOp.allDropped, ListOp.fittedAll, ListOp.unfitted]⟩
  | cons c calls ih =>
    intro m l ps xs h
    obtain ⟨g, op⟩ := c
    obtain ⟨l1, m1, ps1, e1, e2, e3, e4, e5⟩ := h.stepG L S g op
    obtain ⟨fs, f0, l2, m2, ps2, f1, f2, f3, f4, ds, f5, f6⟩ := ih e4
    rw [e2] at f4
    refine ⟨(g + free ps, op) :: fs, .cons ⟨ps, rfl⟩ f0, l2, m2, ps2, ?_, f2.trans e2, f3,
      e5.trans f4,
      ((op.fitted (g + free ps)).discarded xs ++ op.given.drop (g + free ps)) ++ ds, ?_, ?_⟩
    · simp only [LList.runG, e1, Exec.ok_bind, f1]
      rfl
    · rw [f5, e3]
      cases E.nd <;> simp
    · simp only [ListOp.fittedAll, ListOp.unfitted, List.map_cons, List.flatMap_cons,
        ListOp.allDropped] at f6 ⊢
      classical
      rw [List.perm_iff_count] at *
      intro a
      have := f6 a
      simp only [List.count_append] at *
      omega

end Verif
