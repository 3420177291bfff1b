import Verif.LinkedList.Model
import Verif.Node.Law
import Verif.FixedVector.Proofs
import Mathlib.Data.List.Nodup
import Mathlib.Tactic.SplitIfs

/-!
# Proofs about the list model
-/

set_option autoImplicit false

namespace Verif
open Spec

variable {α σ : Type}

/-- Two memories that differ at most in the contents of the nodes `S`. -/
structure LMem.Same (S : List Nat) (m m' : LMem α) : Prop where
  node : ∀ q, m'.node q = none ↔ m.node q = none
  link : m'.link = m.link
  reg : m'.reg = m.reg
  dropped : m'.dropped = m.dropped
  keep : ∀ q, q ∉ S → m'.node q = m.node q

theorem LMem.Same.trans {S T : List Nat} {a b c : LMem α} (h : LMem.Same S a b)
    (h' : LMem.Same T b c) : LMem.Same (S ++ T) a c :=
  ⟨fun q => (h'.node q).trans (h.node q), h'.link.trans h.link, h'.reg.trans h.reg,
    h'.dropped.trans h.dropped, fun q hq => by
      simp only [List.mem_append, not_or] at hq
      rw [h'.keep q hq.2, h.keep q hq.1]⟩

theorem LMem.Same.mono {S T : List Nat} {a b : LMem α} (h : LMem.Same S a b)
    (hst : ∀ x ∈ S, x ∈ T) : LMem.Same T a b :=
  ⟨h.node, h.link, h.reg, h.dropped, fun q hq => h.keep q fun hm => hq (hst q hm)⟩

/-- A call on the list with sentinel `s` and nodes `ps` leaves every other node alone, and does
not take it over into its new nodes `ps'`. -/
def LKeep (s : Nat) (ps : List Nat) (m : LMem α) (ps' : List Nat) (m' : LMem α) : Prop :=
  ∀ z, m.node z ≠ none → z ∉ s :: ps → z ∉ ps' ∧ m'.node z = m.node z

theorem LKeep.refl (s : Nat) (ps : List Nat) (m : LMem α) : LKeep s ps m ps m :=
  fun _ _ h => ⟨fun hm => h (List.mem_cons_of_mem _ hm), rfl⟩

theorem LKeep.trans {s : Nat} {ps1 ps2 ps3 : List Nat} {m1 m2 m3 : LMem α}
    (h : LKeep s ps1 m1 ps2 m2) (h' : LKeep s ps2 m2 ps3 m3) : LKeep s ps1 m1 ps3 m3 := by
  intro z hz hs
  obtain ⟨h1, h2⟩ := h z hz hs
  obtain ⟨h3, h4⟩ := h' z (by rw [h2]; exact hz) (by
    simp only [List.mem_cons, not_or] at hs ⊢
    exact ⟨hs.1, h1⟩)
  exact ⟨h3, h4.trans h2⟩

theorem LMem.next_def (m : LMem α) (p : Nat) :
    LMem.next m p = (match m.node p with | none => .error .ub | some n => initd n.next) := by
  unfold LMem.next NMem.get
  cases m.node p <;> rfl

theorem LMem.prev_def (m : LMem α) (p : Nat) :
    LMem.prev m p = (match m.node p with | none => .error .ub | some n => initd n.prev) := by
  unfold LMem.prev NMem.get
  cases m.node p <;> rfl

theorem LMem.val_def (m : LMem α) (p : Nat) :
    LMem.val m p = (match m.node p with | none => .error .ub | some n => initd n.val) := by
  unfold LMem.val NMem.get
  cases m.node p <;> rfl

theorem LMem.live_of_next {m : LMem α} {p q : Nat} (h : LMem.next m p = .ok q) :
    m.node p ≠ none := by
  intro e; rw [LMem.next_def, e] at h; simp at h

theorem LMem.live_of_prev {m : LMem α} {p q : Nat} (h : LMem.prev m p = .ok q) :
    m.node p ≠ none := by
  intro e; rw [LMem.prev_def, e] at h; simp at h

theorem LMem.live_of_val {m : LMem α} {p : Nat} {x : α} (h : LMem.val m p = .ok x) :
    m.node p ≠ none := by
  intro e; rw [LMem.val_def, e] at h; simp at h

theorem LMem.setNext_ok {m : LMem α} {p : Nat} (q : Nat) (h : m.node p ≠ none) :
    ∃ m', LMem.setNext m p q = .ok m' ∧ LMem.Same [p] m m' ∧
      (∀ z, LMem.next m' z = if z = p then .ok q else LMem.next m z) ∧
      (∀ z, LMem.prev m' z = LMem.prev m z) ∧ (∀ z, LMem.val m' z = LMem.val m z) := by
  cases hn : m.node p with
  | none => exact absurd hn h
  | some n =>
    refine ⟨{ m with node := Function.update m.node p (some { n with next := some q }) },
      by simp [LMem.setNext, NMem.modify, hn], ⟨?_, rfl, rfl, rfl, ?_⟩, ?_, ?_, ?_⟩ <;>
      intro z <;> by_cases hz : z = p <;>
      simp [hz, LMem.next_def, LMem.prev_def, LMem.val_def, hn, Function.update, initd]

theorem LMem.setPrev_ok {m : LMem α} {p : Nat} (q : Nat) (h : m.node p ≠ none) :
    ∃ m', LMem.setPrev m p q = .ok m' ∧ LMem.Same [p] m m' ∧
      (∀ z, LMem.next m' z = LMem.next m z) ∧
      (∀ z, LMem.prev m' z = if z = p then .ok q else LMem.prev m z) ∧
      (∀ z, LMem.val m' z = LMem.val m z) := by
  cases hn : m.node p with
  | none => exact absurd hn h
  | some n =>
    refine ⟨{ m with node := Function.update m.node p (some { n with prev := some q }) },
      by simp [LMem.setPrev, NMem.modify, hn], ⟨?_, rfl, rfl, rfl, ?_⟩, ?_, ?_, ?_⟩ <;>
      intro z <;> by_cases hz : z = p <;>
      simp [hz, LMem.next_def, LMem.prev_def, LMem.val_def, hn, Function.update, initd]

theorem LMem.setVal_ok {m : LMem α} {p : Nat} (x : α) (h : m.node p ≠ none) :
    ∃ m', LMem.setVal m p x = .ok m' ∧ LMem.Same [p] m m' ∧
      (∀ z, LMem.next m' z = LMem.next m z) ∧ (∀ z, LMem.prev m' z = LMem.prev m z) ∧
      (∀ z, LMem.val m' z = if z = p then .ok x else LMem.val m z) := by
  cases hn : m.node p with
  | none => exact absurd hn h
  | some n =>
    refine ⟨{ m with node := Function.update m.node p (some { n with val := some x }) },
      by simp [LMem.setVal, NMem.modify, hn], ⟨?_, rfl, rfl, rfl, ?_⟩, ?_, ?_, ?_⟩ <;>
      intro z <;> by_cases hz : z = p <;>
      simp [hz, LMem.next_def, LMem.prev_def, LMem.val_def, hn, Function.update, initd]

theorem nodeInsert_ok {m : LMem α} {n nx pv : Nat} (hn : m.node n ≠ none)
    (hp : LMem.prev m nx = .ok pv) (hpv : m.node pv ≠ none) (h1 : n ≠ nx) :
    ∃ m', nodeInsert n nx m = .ok m' ∧ LMem.Same [n, nx, pv] m m' ∧
      (∀ z, LMem.next m' z = if z = pv then .ok n else if z = n then .ok nx else LMem.next m z) ∧
      (∀ z, LMem.prev m' z = if z = nx then .ok n else if z = n then .ok pv else LMem.prev m z) ∧
      (∀ z, LMem.val m' z = LMem.val m z) := by
  obtain ⟨m1, a1, s1, n1, p1, v1⟩ := LMem.setNext_ok nx hn
  have hp1 : LMem.prev m1 nx = .ok pv := by rw [p1, hp]
  obtain ⟨m2, a2, s2, n2, p2, v2⟩ := LMem.setPrev_ok (m := m1) (p := n) pv
    (by rw [Ne, s1.node]; exact hn)
  have hp2 : LMem.prev m2 nx = .ok pv := by rw [p2, if_neg (Ne.symm h1), hp1]
  obtain ⟨m3, a3, s3, n3, p3, v3⟩ := LMem.setNext_ok (m := m2) (p := pv) n
    (by rw [Ne, s2.node, s1.node]; exact hpv)
  obtain ⟨m4, a4, s4, n4, p4, v4⟩ := LMem.setPrev_ok (m := m3) (p := nx) n
    (by rw [Ne, s3.node, s2.node, s1.node]; exact LMem.live_of_prev hp)
  refine ⟨m4, ?_, (s1.trans (s2.trans (s3.trans s4))).mono (by simp), ?_, ?_, ?_⟩
  · simp [nodeInsert, a1, hp1, a2, hp2, a3, a4]
  · intro z; rw [n4, n3, n2, n1]
  · intro z; rw [p4, p3, p2, p1]
  · intro z; rw [v4, v3, v2, v1]

theorem nodeRemove_ok {m : LMem α} {n nx pv : Nat} (hx : LMem.next m n = .ok nx)
    (hp : LMem.prev m n = .ok pv) (hnx : m.node nx ≠ none) (hpv : m.node pv ≠ none)
    (h1 : n ≠ nx) :
    ∃ m', nodeRemove n m = .ok m' ∧ LMem.Same [nx, pv] m m' ∧
      (∀ z, LMem.next m' z = if z = pv then .ok nx else LMem.next m z) ∧
      (∀ z, LMem.prev m' z = if z = nx then .ok pv else LMem.prev m z) ∧
      (∀ z, LMem.val m' z = LMem.val m z) := by
  obtain ⟨m1, a1, s1, n1, p1, v1⟩ := LMem.setPrev_ok pv hnx
  have hp1 : LMem.prev m1 n = .ok pv := by rw [p1, if_neg h1, hp]
  have hx1 : LMem.next m1 n = .ok nx := by rw [n1, hx]
  obtain ⟨m2, a2, s2, n2, p2, v2⟩ := LMem.setNext_ok (m := m1) (p := pv) nx
    (by rw [Ne, s1.node]; exact hpv)
  refine ⟨m2, ?_, (s1.trans s2).mono (by simp), ?_, ?_, ?_⟩
  · simp [nodeRemove, hx, hp, a1, hp1, hx1, a2]
  · intro z; rw [n2, n1]
  · intro z; rw [p2, p1]
  · intro z; rw [v2, v1]

/-- `a → ps → b` is a doubly linked path. -/
def LChain (m : LMem α) : Nat → List Nat → Nat → Prop
  | a, [], b => LMem.next m a = .ok b ∧ LMem.prev m b = .ok a
  | a, p :: ps, b => LMem.next m a = .ok p ∧ LMem.prev m p = .ok a ∧ LChain m p ps b

theorem LChain.frame {m m' : LMem α} : ∀ {ps : List Nat} {a b : Nat}, LChain m a ps b →
    (∀ z ∈ a :: ps, LMem.next m' z = LMem.next m z) →
    (∀ z ∈ ps ++ [b], LMem.prev m' z = LMem.prev m z) → LChain m' a ps b := by
  intro ps
  induction ps with
  | nil =>
    intro a b h h1 h2
    exact ⟨by rw [h1 a (by simp)]; exact h.1, by rw [h2 b (by simp)]; exact h.2⟩
  | cons p ps ih =>
    intro a b h h1 h2
    refine ⟨by rw [h1 a (by simp)]; exact h.1, by rw [h2 p (by simp)]; exact h.2.1, ?_⟩
    exact ih h.2.2 (fun z hz => h1 z (List.mem_cons_of_mem _ hz))
      (fun z hz => h2 z (by simp at hz ⊢; tauto))

theorem LChain.next_head {m : LMem α} {ps : List Nat} {a b : Nat} (h : LChain m a ps b) :
    LMem.next m a = .ok (ps.head?.getD b) := by
  cases ps with
  | nil => exact h.1
  | cons p ps => exact h.1

theorem LChain.prev_last {m : LMem α} : ∀ {ps : List Nat} {a b : Nat}, LChain m a ps b →
    LMem.prev m b = .ok (ps.getLast?.getD a) := by
  intro ps
  induction ps with
  | nil => intro a b h; exact h.2
  | cons p ps ih =>
    intro a b h
    rw [ih h.2.2]
    cases ps with
    | nil => rfl
    | cons q ps => rw [List.getLast?_cons_cons]; simp [List.getLast?_eq_some_getLast]

theorem LChain.live {m : LMem α} : ∀ {ps : List Nat} {a b : Nat}, LChain m a ps b →
    ∀ z ∈ a :: ps, m.node z ≠ none := by
  intro ps
  induction ps with
  | nil => intro a b h z hz; simp at hz; subst hz; exact LMem.live_of_next h.1
  | cons p ps ih =>
    intro a b h z hz
    rcases List.mem_cons.1 hz with rfl | hz
    · exact LMem.live_of_next h.1
    · exact ih h.2.2 z hz

theorem getD_getLast?_mem (ps : List Nat) (a : Nat) : ps.getLast?.getD a ∈ a :: ps := by
  cases h : ps.getLast? with
  | none => simp
  | some x => simpa using Or.inr (List.mem_of_getLast? h)

/-- Inserting right after the start of a path. -/
theorem LChain.insertFront {m m' : LMem α} {ps : List Nat} {a b n y : Nat} (h : LChain m a ps b)
    (hn : (a :: ps).Nodup) (hb : b ∉ ps) (h1 : n ∉ a :: ps) (h2 : n ≠ b) (hy : ps.head?.getD b = y)
    (hx : ∀ z, LMem.next m' z = if z = a then .ok n else
      if z = n then .ok y else LMem.next m z)
    (hp : ∀ z, LMem.prev m' z = if z = y then .ok n else
      if z = n then .ok a else LMem.prev m z) :
    LChain m' a (n :: ps) b := by
  simp only [List.mem_cons, not_or] at h1
  cases ps with
  | nil =>
    simp only [List.head?_nil, Option.getD_none] at hy
    subst hy
    refine ⟨by rw [hx, if_pos rfl], ?_, ?_, ?_⟩
    · rw [hp, if_neg h2, if_pos rfl]
    · rw [hx, if_neg h1.1, if_pos rfl]
    · rw [hp, if_pos rfl]
  | cons p ps =>
    simp only [List.head?_cons, Option.getD_some] at hy
    subst hy
    simp only [List.mem_cons, not_or] at h1 hb
    refine ⟨by rw [hx, if_pos rfl], ?_, ?_, ?_, ?_⟩
    · rw [hp, if_neg h1.2.1, if_pos rfl]
    · rw [hx, if_neg h1.1, if_pos rfl]
    · rw [hp, if_pos rfl]
    · refine h.2.2.frame ?_ ?_
      · intro z hz
        have z1 : z ≠ a := fun e => (List.nodup_cons.1 hn).1 (e ▸ hz)
        have z2 : z ≠ n := fun e => by
          subst e; rcases List.mem_cons.1 hz with h | h
          · exact h1.2.1 h
          · exact h1.2.2 h
        rw [hx, if_neg z1, if_neg z2]
      · intro z hz
        have z1 : z ≠ p := fun e => by
          subst e
          rcases List.mem_append.1 hz with h | h
          · exact (List.nodup_cons.1 (List.nodup_cons.1 hn).2).1 h
          · exact hb.1 (List.mem_singleton.1 h).symm
        have z2 : z ≠ n := fun e => by
          subst e
          rcases List.mem_append.1 hz with h | h
          · exact h1.2.2 h
          · exact h2 (List.mem_singleton.1 h)
        rw [hp, if_neg z1, if_neg z2]

/-- Inserting right before the end of a path. -/
theorem LChain.insertBack {m m' : LMem α} {b n : Nat} : ∀ {ps : List Nat} {a : Nat},
    LChain m a ps b → (a :: ps).Nodup → b ∉ ps → n ∉ a :: ps → n ≠ b → ∀ {y : Nat}, ps.getLast?.getD a = y →
    (∀ z, LMem.next m' z = if z = y then .ok n else
      if z = n then .ok b else LMem.next m z) →
    (∀ z, LMem.prev m' z = if z = b then .ok n else
      if z = n then .ok y else LMem.prev m z) →
    LChain m' a (ps ++ [n]) b := by
  intro ps
  induction ps with
  | nil =>
    intro a h hn hb h1 h2 y hy hx hp
    simp only [List.mem_cons, not_or] at h1
    simp only [List.getLast?_nil, Option.getD_none] at hy
    subst hy
    refine ⟨by rw [hx, if_pos rfl], by rw [hp, if_neg h2, if_pos rfl],
      by rw [hx, if_neg h1.1, if_pos rfl], by rw [hp, if_pos rfl]⟩
  | cons p ps ih =>
    intro a h hn hb h1 h2 y hy hx hp
    have hl : (p :: ps).getLast?.getD a = ps.getLast?.getD p := by
      cases ps with
      | nil => rfl
      | cons q ps => rw [List.getLast?_cons_cons]; simp [List.getLast?_eq_some_getLast]
    rw [hl] at hy
    simp only [List.mem_cons, not_or] at h1 hb
    have hmem := getD_getLast?_mem ps p
    rw [hy] at hmem
    have ha : a ≠ y := fun e => (List.nodup_cons.1 hn).1 (e ▸ hmem)
    refine ⟨?_, ?_, ?_⟩
    · rw [hx, if_neg ha, if_neg (Ne.symm h1.1)]; exact h.1
    · rw [hp, if_neg (Ne.symm hb.1), if_neg (Ne.symm h1.2.1)]; exact h.2.1
    · exact ih h.2.2 (List.nodup_cons.1 hn).2 hb.2 (by simp [h1]) h2 hy hx hp

/-- Removing the first node of a path. -/
theorem LChain.removeFront {m m' : LMem α} {ps : List Nat} {a b p y : Nat}
    (h : LChain m a (p :: ps) b) (hn : (a :: p :: ps).Nodup) (hb : b ∉ p :: ps)
    (hy : ps.head?.getD b = y)
    (hx : ∀ z, z ≠ p → LMem.next m' z = if z = a then .ok y else LMem.next m z)
    (hp : ∀ z, z ≠ p → LMem.prev m' z = if z = y then .ok a else LMem.prev m z) :
    LChain m' a ps b := by
  have hap : a ≠ p := fun e => (List.nodup_cons.1 hn).1 (by simp [e])
  simp only [List.mem_cons, not_or] at hb
  cases ps with
  | nil =>
    simp only [List.head?_nil, Option.getD_none] at hy
    subst hy
    exact ⟨by rw [hx a hap, if_pos rfl], by rw [hp b hb.1, if_pos rfl]⟩
  | cons q ps =>
    simp only [List.head?_cons, Option.getD_some] at hy
    subst hy
    have hn1 := List.nodup_cons.1 hn
    have hn2 := List.nodup_cons.1 hn1.2
    have hn3 := List.nodup_cons.1 hn2.2
    have hqp : q ≠ p := fun e => hn2.1 (by simp [e])
    refine ⟨by rw [hx a hap, if_pos rfl], by rw [hp q hqp, if_pos rfl], ?_⟩
    refine h.2.2.2.2.frame ?_ ?_
    · intro z hz
      have z1 : z ≠ p := fun e => hn2.1 (e ▸ hz)
      have z2 : z ≠ a := fun e => hn1.1 (by rw [← e]; exact List.mem_cons_of_mem _ hz)
      rw [hx z z1, if_neg z2]
    · intro z hz
      have z1 : z ≠ p := fun e => by
        subst e
        rcases List.mem_append.1 hz with h | h
        · exact hn2.1 (List.mem_cons_of_mem _ h)
        · exact hb.1 (List.mem_singleton.1 h).symm
      have z2 : z ≠ q := fun e => by
        subst e
        rcases List.mem_append.1 hz with h | h
        · exact hn3.1 h
        · exact hb.2 (by simp [List.mem_singleton.1 h])
      rw [hp z z1, if_neg z2]

/-- Removing the last node of a path. -/
theorem LChain.removeBack {m m' : LMem α} {b p : Nat} : ∀ {ps : List Nat} {a : Nat},
    LChain m a (ps ++ [p]) b → (a :: (ps ++ [p])).Nodup → b ∉ ps ++ [p] → ∀ {y : Nat}, ps.getLast?.getD a = y →
    (∀ z, z ≠ p → LMem.next m' z = if z = y then .ok b else LMem.next m z) →
    (∀ z, z ≠ p → LMem.prev m' z = if z = b then .ok y else LMem.prev m z) →
    LChain m' a ps b := by
  intro ps
  induction ps with
  | nil =>
    intro a h hn hb y hy hx hp
    have hap : a ≠ p := fun e => (List.nodup_cons.1 hn).1 (by simp [e])
    have hbp : b ≠ p := fun e => hb (by simp [e])
    simp only [List.getLast?_nil, Option.getD_none] at hy
    subst hy
    exact ⟨by rw [hx a hap, if_pos rfl], by rw [hp b hbp, if_pos rfl]⟩
  | cons q ps ih =>
    intro a h hn hb y hy hx hp
    have hl : (q :: ps).getLast?.getD a = ps.getLast?.getD q := by
      cases ps with
      | nil => rfl
      | cons q ps => rw [List.getLast?_cons_cons]; simp [List.getLast?_eq_some_getLast]
    rw [hl] at hy
    have hn1 := List.nodup_cons.1 hn
    have hn2 := List.nodup_cons.1 hn1.2
    have hap : a ≠ p := fun e => hn1.1 (by simp [e])
    have hqp : q ≠ p := fun e => hn2.1 (by simp [e])
    have hqb : q ≠ b := fun e => hb (by simp [e])
    have hmem := getD_getLast?_mem ps q
    rw [hy] at hmem
    have ha : a ≠ y := fun e => hn1.1 (by
      rw [e]; simp only [List.cons_append, List.mem_cons, List.mem_append] at hmem ⊢; tauto)
    refine ⟨?_, ?_, ?_⟩
    · rw [hx a hap, if_neg ha]; exact h.1
    · rw [hp q hqp, if_neg hqb]; exact h.2.1
    · exact ih h.2.2 hn1.2 (fun e => hb (List.mem_cons_of_mem _ e)) hy hx hp

/-- What the list needs of its allocator: nodes are freed with the layout the list passes
(see `LList.clearLoop`). -/
abbrev LLaw (E : LEnv α σ) (Inv : σ → LMem α → List Nat → Prop) : Prop :=
  NLaw E.A LNode.uninit E.size E.align (E.size * baseSize) baseAlign Inv

/-- The list `l` in memory `m` holds the values `xs` in the nodes `ps`. -/
structure LRep (Inv : σ → LMem α → List Nat → Prop) (m : LMem α) (l : LList σ) (ps : List Nat)
    (xs : List α) : Prop where
  chain : LChain m l.head ps l.head
  nodup : (l.head :: ps).Nodup
  vals : ps.map (fun p => LMem.val m p) = xs.map Except.ok
  size : l.size = xs.length
  inv : Inv l.al m ps

variable {E : LEnv α σ} {Inv : σ → LMem α → List Nat → Prop} {m : LMem α} {l : LList σ}
  {ps : List Nat} {xs : List α}

theorem LRep.length (h : LRep Inv m l ps xs) : ps.length = xs.length := by
  simpa using congrArg List.length h.vals

theorem LRep.head_notin (h : LRep Inv m l ps xs) : l.head ∉ ps := (List.nodup_cons.1 h.nodup).1

theorem LRep.createNode (L : LLaw E Inv) (h : LRep Inv m l ps xs) (x : α) :
    ∃ p a' m', l.createNode E x m = .ok (p, { l with al := a' }, m') ∧ m.node p = none ∧
      m'.node p ≠ none ∧
      m'.dropped = m.dropped ∧ Inv a' m' (p :: ps) ∧ LMem.val m' p = .ok x ∧
      (∀ z, z ≠ p → LMem.next m' z = LMem.next m z ∧ LMem.prev m' z = LMem.prev m z ∧
        LMem.val m' z = LMem.val m z) ∧ (∀ z, z ≠ p → m'.node z = m.node z) ∧
      ∃ a1 m1, E.A.alloc E.size E.align l.al m = .ok (p, a1, m1) := by
  obtain ⟨p, a', m1, e1, e2, e3, e4, e5, e6⟩ := L.alloc h.inv
  obtain ⟨m2, f1, f2, f3, f4, f5⟩ := LMem.setVal_ok (m := m1) (p := p) x (by rw [e4]; simp)
  refine ⟨p, a', m2, ?_, e3, ?_, by rw [f2.dropped, e5], ?_, by rw [f5, if_pos rfl], ?_, ?_,
    a', m1, e1⟩
  · simp [LList.createNode, e1, e2, f1]
  · rw [Ne, f2.node, e4]; simp
  · exact L.frame e6 f2.node f2.link f2.reg
  · intro z hz
    rw [f3, f4, f5, if_neg hz]
    simp [LMem.next_def, LMem.prev_def, LMem.val_def, e4, Function.update_of_ne hz]
  · intro z hz
    rw [f2.keep z (by simpa using hz), e4, Function.update_of_ne hz]

theorem LRep.pushBack (L : LLaw E Inv) (h : LRep Inv m l ps xs) (x : α) :
    ∃ l' m' p, l.pushBack E x m = .ok (l', m') ∧ l'.head = l.head ∧
      (m.node p = none ∧ ∃ a1 m1, E.A.alloc E.size E.align l.al m = .ok (p, a1, m1)) ∧
      m'.dropped = m.dropped ∧ LRep Inv m' l' (ps ++ [p]) (xs ++ [x]) ∧ LKeep l.head ps m (ps ++ [p]) m' := by
  obtain ⟨p, a', m1, e1, e2, e3, e4, e5, e6, e7, e8, e9⟩ := h.createNode L x
  have hlive := h.chain.live
  have hp : p ∉ l.head :: ps := fun hm => hlive p hm e2
  have hps : l.head ≠ p := fun e => hp (by simp [e])
  have hpv := h.chain.prev_last
  have hpv1 : LMem.prev m1 l.head = .ok (ps.getLast?.getD l.head) := by rw [(e7 _ hps).2.1, hpv]
  have hmem := getD_getLast?_mem ps l.head
  have hpne : ps.getLast?.getD l.head ≠ p := fun e => hp (e ▸ hmem)
  have hlast1 : m1.node (ps.getLast?.getD l.head) ≠ none := by
    intro hnone
    obtain ⟨y, hy⟩ : ∃ y, LMem.next m (ps.getLast?.getD l.head) = .ok y := by
      have := h.chain
      clear * - this
      revert this
      generalize l.head = b
      suffices H : ∀ (ps : List Nat) (a : Nat), LChain m a ps b →
          ∃ y, LMem.next m (ps.getLast?.getD a) = .ok y from H ps b
      intro ps
      induction ps with
      | nil => intro a h; exact ⟨_, h.1⟩
      | cons q ps ih =>
        intro a h
        have hl : (q :: ps).getLast?.getD a = ps.getLast?.getD q := by
          cases ps with
          | nil => rfl
          | cons q ps => rw [List.getLast?_cons_cons]; simp [List.getLast?_eq_some_getLast]
        rw [hl]; exact ih q h.2.2
    rw [← (e7 _ hpne).1] at hy
    exact LMem.live_of_next hy hnone
  obtain ⟨m2, f1, f2, f3, f4, f5⟩ := nodeInsert_ok e3 hpv1 hlast1 (Ne.symm hps)
  refine ⟨⟨l.head, l.size + 1, a'⟩, m2, p, ?_, rfl, ⟨e2, e9⟩, by rw [f2.dropped, e4], ?_, ?_⟩
  · simp only [LList.pushBack, e1, Exec.ok_bind, f1]
  · have hmid : LChain m1 l.head ps l.head := by
      refine h.chain.frame (fun z hz => (e7 z ?_).1) (fun z hz => (e7 z ?_).2.1)
      · exact fun e => hp (e ▸ hz)
      · rintro rfl
        exact hp (by simp at hz ⊢; tauto)
    refine ⟨?_, ?_, ?_, by simp [h.size], ?_⟩
    · exact hmid.insertBack h.nodup h.head_notin hp (Ne.symm hps) rfl f3 f4
    · have h1 := h.nodup
      rw [List.nodup_cons] at h1 ⊢
      simp only [List.mem_cons, not_or] at hp
      refine ⟨?_, ?_⟩
      · simp only [List.mem_append, List.mem_singleton, not_or]; exact ⟨h1.1, hps⟩
      · rw [List.nodup_append]
        refine ⟨h1.2, by simp, ?_⟩
        intro a ha b hb
        rw [List.mem_singleton.1 hb]
        exact fun e => hp.2 (e ▸ ha)
    · rw [List.map_append, List.map_append]
      congr 1
      · rw [← h.vals]
        apply List.map_congr_left
        intro z hz
        rw [f5, (e7 z _).2.2]
        exact fun e => hp (by rw [← e]; exact List.mem_cons_of_mem _ hz)
      · simp [f5, e6]
    · exact L.perm (L.frame e5 f2.node f2.link f2.reg) (List.perm_append_singleton p ps).symm
  · intro z hz hs
    have hzp : z ≠ p := by rintro rfl; exact hz e2
    have hs' := hs
    simp only [List.mem_cons, not_or] at hs
    refine ⟨by simp [hs.2, hzp], ?_⟩
    rw [f2.keep z, e8 z hzp]
    simp only [List.mem_cons, List.not_mem_nil, or_false, not_or]
    exact ⟨hzp, hs.1, fun e => hs' (e ▸ hmem)⟩

theorem LRep.pushFront (L : LLaw E Inv) (h : LRep Inv m l ps xs) (x : α) :
    ∃ l' m' p, l.pushFront E x m = .ok (l', m') ∧ l'.head = l.head ∧
      (m.node p = none ∧ ∃ a1 m1, E.A.alloc E.size E.align l.al m = .ok (p, a1, m1)) ∧
      m'.dropped = m.dropped ∧ LRep Inv m' l' (p :: ps) (x :: xs) ∧ LKeep l.head ps m (p :: ps) m' := by
  obtain ⟨p, a', m1, e1, e2, e3, e4, e5, e6, e7, e8, e9⟩ := h.createNode L x
  have hlive := h.chain.live
  have hp : p ∉ l.head :: ps := fun hm => hlive p hm e2
  have hps : l.head ≠ p := fun e => hp (by simp [e])
  have hnx := h.chain.next_head
  have hnx1 : LMem.next m1 l.head = .ok (ps.head?.getD l.head) := by rw [(e7 _ hps).1, hnx]
  have hne : ps.head?.getD l.head ≠ p := by
    cases ps with
    | nil => exact hps
    | cons q ps => exact fun e => hp (by simp at e; simp [e])
  have hpv1 : LMem.prev m1 (ps.head?.getD l.head) = .ok l.head := by
    rw [(e7 _ hne).2.1]
    cases ps with
    | nil => exact h.chain.2
    | cons q ps => exact h.chain.2.1
  obtain ⟨m2, f1, f2, f3, f4, f5⟩ := nodeInsert_ok e3 hpv1 (LMem.live_of_next hnx1) (Ne.symm hne)
  refine ⟨⟨l.head, l.size + 1, a'⟩, m2, p, ?_, rfl, ⟨e2, e9⟩, by rw [f2.dropped, e4], ?_, ?_⟩
  · simp only [LList.pushFront, e1, Exec.ok_bind, hnx1, f1]
  · have hmid : LChain m1 l.head ps l.head := by
      refine h.chain.frame (fun z hz => (e7 z ?_).1) (fun z hz => (e7 z ?_).2.1)
      · exact fun e => hp (e ▸ hz)
      · rintro rfl
        exact hp (by simp at hz ⊢; tauto)
    refine ⟨?_, ?_, ?_, by simp [h.size], ?_⟩
    · exact hmid.insertFront h.nodup h.head_notin hp (Ne.symm hps) rfl f3 f4
    · have h1 := h.nodup
      rw [List.nodup_cons] at h1
      simp only [List.mem_cons, not_or] at hp
      simp only [List.nodup_cons, List.mem_cons, not_or]
      exact ⟨⟨hps, h1.1⟩, hp.2, h1.2⟩
    · simp only [List.map_cons, f5, e6]
      congr 1
      rw [← h.vals]
      apply List.map_congr_left
      intro z hz
      rw [(e7 z _).2.2]
      exact fun e => hp (by rw [← e]; exact List.mem_cons_of_mem _ hz)
    · exact L.frame e5 f2.node f2.link f2.reg
  · intro z hz hs
    have hzp : z ≠ p := by rintro rfl; exact hz e2
    simp only [List.mem_cons, not_or] at hs
    refine ⟨by simp [hs.2, hzp], ?_⟩
    rw [f2.keep z, e8 z hzp]
    simp only [List.mem_cons, List.not_mem_nil, or_false, not_or]
    refine ⟨hzp, ?_, hs.1⟩
    cases ps with
    | nil => exact hs.1
    | cons q ps => exact fun e => hs.2 (by simp at e; simp [e])

theorem LMem.erase_fields {m m' : LMem α} {p z : Nat}
    (h : m'.node = Function.update m.node p none) (hz : z ≠ p) :
    LMem.next m' z = LMem.next m z ∧ LMem.prev m' z = LMem.prev m z ∧
      LMem.val m' z = LMem.val m z := by
  simp [LMem.next_def, LMem.prev_def, LMem.val_def, h, Function.update_of_ne hz]

theorem LRep.popFront_nil (h : LRep Inv m l [] xs) : l.popFront E m = .ok (none, l, m) := by
  simp [LList.popFront, h.chain.1]

theorem LRep.popBack_nil (h : LRep Inv m l [] xs) : l.popBack E m = .ok (none, l, m) := by
  simp [LList.popBack, h.chain.2]

theorem LRep.popFront (L : LLaw E Inv) {p : Nat} {x : α}
    (h : LRep Inv m l (p :: ps) (x :: xs)) :
    ∃ l' m', l.popFront E m = .ok (some x, l', m') ∧ l'.head = l.head ∧
      m'.dropped = m.dropped ∧ LRep Inv m' l' ps xs ∧
      LKeep l.head (p :: ps) m ps m' := by
  have hn := h.nodup
  have hps : p ≠ l.head := fun e => h.head_notin (by simp [e])
  obtain ⟨c1, c2, c3⟩ := h.chain
  have hnx := c3.next_head
  have hx : LMem.val m p = .ok x := by have := h.vals; simp at this; exact this.1
  have hlive := h.chain.live
  have hnxne : p ≠ ps.head?.getD l.head := by
    cases ps with
    | nil => exact hps
    | cons q ps =>
      intro e; simp only [List.head?_cons, Option.getD_some] at e
      subst e; simp at hn
  have hnxlive : m.node (ps.head?.getD l.head) ≠ none := by
    cases ps with
    | nil => exact hlive _ (by simp)
    | cons q ps => exact hlive _ (by simp)
  obtain ⟨m1, f1, f2, f3, f4, f5⟩ := nodeRemove_ok hnx c2 hnxlive (hlive _ (by simp)) hnxne
  have hinv := L.frame h.inv f2.node f2.link f2.reg
  obtain ⟨a', m2, g1, g2, g3, g4⟩ := L.dealloc hinv (p := p) (by simp)
  have hsz : l.size ≠ 0 := by rw [h.size]; simp
  refine ⟨⟨l.head, l.size - 1, a'⟩, m2, ?_, rfl, by rw [g3, f2.dropped], ?_, ?_⟩
  · simp only [LList.popFront, c1, Exec.ok_bind, if_pos hps, LList.removeNode, f1, f5, hx, g1,
      if_neg hsz, ne_eq]
  · refine ⟨?_, ?_, ?_, by simp [h.size], by simpa using g4⟩
    · refine h.chain.removeFront hn h.head_notin rfl ?_ ?_
      · intro z hz; rw [(LMem.erase_fields g2 hz).1, f3]
      · intro z hz; rw [(LMem.erase_fields g2 hz).2.1, f4]
    · simp only [List.nodup_cons, List.mem_cons, not_or] at hn ⊢
      exact ⟨hn.1.2, hn.2.2⟩
    · have hv := h.vals
      simp only [List.map_cons, List.cons.injEq] at hv
      rw [← hv.2]
      apply List.map_congr_left
      intro z hz
      have : z ≠ p := by rintro rfl; simp [hz] at hn
      rw [(LMem.erase_fields g2 this).2.2, f5]
  · intro z hz hs
    simp only [List.mem_cons, not_or] at hs
    refine ⟨hs.2.2, ?_⟩
    rw [g2, Function.update_of_ne hs.2.1, f2.keep z]
    simp only [List.mem_cons, List.not_mem_nil, or_false, not_or]
    refine ⟨?_, hs.1⟩
    cases ps with
    | nil => exact hs.1
    | cons q ps => exact fun e => hs.2.2 (by simp at e; simp [e])

theorem LRep.popBack (L : LLaw E Inv) {p : Nat} {x : α}
    (h : LRep Inv m l (ps ++ [p]) (xs ++ [x])) :
    ∃ l' m', l.popBack E m = .ok (some x, l', m') ∧ l'.head = l.head ∧
      m'.dropped = m.dropped ∧ LRep Inv m' l' ps xs ∧
      LKeep l.head (ps ++ [p]) m ps m' := by
  have hn := h.nodup
  have hps : p ≠ l.head := fun e => h.head_notin (by simp [e])
  have c1 : LMem.prev m l.head = .ok p := by rw [h.chain.prev_last]; simp
  have hsplit : LMem.next m p = .ok l.head ∧ LMem.prev m p = .ok (ps.getLast?.getD l.head) := by
    have := h.chain
    clear * - this
    revert this
    generalize l.head = b
    suffices H : ∀ (ps : List Nat) (a : Nat), LChain m a (ps ++ [p]) b →
        LMem.next m p = .ok b ∧ LMem.prev m p = .ok (ps.getLast?.getD a) from H ps b
    intro ps
    induction ps with
    | nil => intro a h; exact ⟨h.2.2.1, h.2.1⟩
    | cons q ps ih =>
      intro a h
      have hl : (q :: ps).getLast?.getD a = ps.getLast?.getD q := by
        cases ps with
        | nil => rfl
        | cons q ps => rw [List.getLast?_cons_cons]; simp [List.getLast?_eq_some_getLast]
      rw [hl]; exact ih q h.2.2
  have hv := h.vals
  simp only [List.map_append, List.map_cons, List.map_nil] at hv
  have hlen : ps.length = xs.length := by have := h.length; simpa using this
  have hv := List.append_inj hv (by simpa using hlen)
  have hx : LMem.val m p = .ok x := by simpa using hv.2
  have hlive := h.chain.live
  have hmem := getD_getLast?_mem ps l.head
  obtain ⟨m1, f1, f2, f3, f4, f5⟩ := nodeRemove_ok hsplit.1 hsplit.2 (hlive _ (by simp))
    (hlive _ (by simp only [List.mem_cons, List.mem_append] at hmem ⊢; tauto)) hps
  have hinv := L.frame h.inv f2.node f2.link f2.reg
  obtain ⟨a', m2, g1, g2, g3, g4⟩ := L.dealloc hinv (p := p) (by simp)
  have hsz : l.size ≠ 0 := by rw [h.size]; simp
  have hpps : p ∉ ps := by
    intro hm
    have := (List.nodup_cons.1 hn).2
    rw [List.nodup_append] at this
    exact this.2.2 p hm p (by simp) rfl
  refine ⟨⟨l.head, l.size - 1, a'⟩, m2, ?_, rfl, by rw [g3, f2.dropped], ?_, ?_⟩
  · simp only [LList.popBack, c1, Exec.ok_bind, if_pos hps, LList.removeNode, f1, f5, hx, g1,
      if_neg hsz, ne_eq]
  · refine ⟨?_, ?_, ?_, by simp [h.size], ?_⟩
    · refine h.chain.removeBack hn h.head_notin rfl ?_ ?_
      · intro z hz; rw [(LMem.erase_fields g2 hz).1, f3]
      · intro z hz; rw [(LMem.erase_fields g2 hz).2.1, f4]
    · rw [List.nodup_cons, List.nodup_append] at hn
      rw [List.nodup_cons]
      exact ⟨fun e => hn.1 (by simp [e]), hn.2.1⟩
    · rw [← hv.1]
      apply List.map_congr_left
      intro z hz
      have : z ≠ p := by rintro rfl; exact hpps hz
      rw [(LMem.erase_fields g2 this).2.2, f5]
    · rw [List.erase_append_right _ hpps] at g4
      simpa using g4
  · intro z hz hs
    simp only [List.mem_cons, List.mem_append, List.not_mem_nil, or_false, not_or] at hs
    refine ⟨hs.2.1, ?_⟩
    rw [g2, Function.update_of_ne hs.2.2, f2.keep z]
    simp only [List.mem_cons, List.not_mem_nil, or_false, not_or]
    refine ⟨hs.1, fun e => ?_⟩
    rw [← e] at hmem
    simp only [List.mem_cons] at hmem
    tauto

end Verif
