import Verif.LinkedList.Counter
import Verif.LinkedList.Inv
import Verif.FixedVector.Proofs

/-! The list with a `u32` count against the list with an unbounded one: the same memory, the same
links; the counts differ by a multiple of 2^32. -/

set_option autoImplicit false

namespace Verif
open Spec

variable {α σ : Type} {E : LEnv α σ} {Inv : σ → LMem α → List Nat → Prop} {m m' : LMem α}
  {l l' : LList σ} {ps : List Nat} {xs : List α}

def LList.withSize (l : LList σ) (n : Nat) : LList σ := { l with size := n }

theorem wrapTo_add {B : Build} {M n : Nat} (hM : 0 < M) (h : B = .release ∨ n + 1 < M) :
    B.wrapTo M ((n % M : Nat) + 1 : Int) = .ok ((n + 1) % M) := by
  have hlt := Nat.mod_lt n hM
  unfold Build.wrapTo
  split_ifs with hc
  · congr 1
    have : n % M + 1 < M := by omega
    rw [show ((n % M : Nat) + 1 : Int).toNat = n % M + 1 by omega]
    rw [← Nat.mod_eq_of_lt this]; simp [Nat.add_mod]
  · have heq : n % M + 1 = M := by omega
    rcases h with rfl | h
    · have h1 : ((n % M : Nat) + 1 : Int) = (M : Int) := by omega
      simp only [h1, Int.emod_self, Int.toNat_zero]
      congr 1
      have : (n + 1) % M = (n % M + 1) % M := by simp [Nat.add_mod]
      rw [this, heq, Nat.mod_self]
    · rw [Nat.mod_eq_of_lt (by omega)] at heq; omega

theorem wrapTo_sub {B : Build} {M n : Nat} (hM : 0 < M) (h : B = .release ∨ n + 1 < M) :
    B.wrapTo M (((n + 1) % M : Nat) - 1 : Int) = .ok (n % M) := by
  have hlt := Nat.mod_lt n hM
  have hadd : (n + 1) % M = (n % M + 1) % M := by simp [Nat.add_mod]
  unfold Build.wrapTo
  split_ifs with hc
  · congr 1
    by_cases h1 : n % M + 1 < M
    · rw [hadd, Nat.mod_eq_of_lt h1] at *; omega
    · have h2 : n % M + 1 = M := by omega
      rw [hadd, h2, Nat.mod_self] at hc; omega
  · have h1 : ¬ n % M + 1 < M := by
      intro h1
      rw [hadd, Nat.mod_eq_of_lt h1] at hc; omega
    have h2 : n % M + 1 = M := by omega
    rcases h with rfl | h
    · rw [hadd, h2, Nat.mod_self]
      have h3 : ((0 : Nat) - 1 : Int) % M = (M : Int) - 1 := by
        rw [← Int.add_emod_right, Int.emod_eq_of_lt] <;> omega
      simp only [h3]
      congr 1
      omega
    · rw [Nat.mod_eq_of_lt (by omega)] at h2; omega

theorem createNode_withSize (l : LList σ) (n : Nat) (x : α) (m : LMem α) :
    (l.withSize n).createNode E x m =
      (l.createNode E x m).map fun r => (r.1, r.2.1.withSize n, r.2.2) := by
  unfold LList.createNode LList.withSize
  dsimp only
  cases E.A.alloc E.size E.align l.al m with
  | error e => rfl
  | ok r =>
    simp only [Exec.ok_bind]
    split_ifs
    · rfl
    · cases LMem.setVal r.2.2 r.1 x <;> rfl

theorem pushBackW_of {B : Build} {x : α} {n n' : Nat} (h : l.pushBack E x m = .ok (l', m'))
    (hn : B.wrapTo (2 ^ 32) (n + 1) = .ok n') :
    (l.withSize n).pushBackW B E x m = .ok (l'.withSize n', m') := by
  unfold LList.pushBack at h
  obtain ⟨⟨p, l1, m1⟩, h1, h⟩ := Exec.bind_ok h
  obtain ⟨m2, h2, h⟩ := Exec.bind_ok h
  simp only [Except.ok.injEq, Prod.mk.injEq] at h
  obtain ⟨rfl, rfl⟩ := h
  unfold LList.pushBackW
  rw [createNode_withSize, h1]
  simp only [Except.map, Exec.ok_bind]
  show (nodeInsert p l1.head m1 >>= _) = _
  rw [h2]
  simp only [Exec.ok_bind, LList.withSize, hn]

theorem pushBackW_panics {B : Build} {x : α} {n : Nat} (h : l.pushBack E x m = .ok (l', m'))
    (hn : B.wrapTo (2 ^ 32) (n + 1) = .error .panic) :
    (l.withSize n).pushBackW B E x m = .error .panic := by
  unfold LList.pushBack at h
  obtain ⟨⟨p, l1, m1⟩, h1, h⟩ := Exec.bind_ok h
  obtain ⟨m2, h2, h⟩ := Exec.bind_ok h
  unfold LList.pushBackW
  rw [createNode_withSize, h1]
  simp only [Except.map, Exec.ok_bind]
  show (nodeInsert p l1.head m1 >>= _) = _
  rw [h2]
  simp only [Exec.ok_bind, LList.withSize, hn, Exec.error_bind]

theorem pushFrontW_panics {B : Build} {x : α} {n : Nat} (h : l.pushFront E x m = .ok (l', m'))
    (hn : B.wrapTo (2 ^ 32) (n + 1) = .error .panic) :
    (l.withSize n).pushFrontW B E x m = .error .panic := by
  unfold LList.pushFront at h
  obtain ⟨⟨p, l1, m1⟩, h1, h⟩ := Exec.bind_ok h
  obtain ⟨q, h0, h⟩ := Exec.bind_ok h
  obtain ⟨m2, h2, h⟩ := Exec.bind_ok h
  unfold LList.pushFrontW
  rw [createNode_withSize, h1]
  simp only [Except.map, Exec.ok_bind]
  show (LMem.next m1 l1.head >>= _) = _
  rw [h0]
  simp only [Exec.ok_bind, h2, LList.withSize, hn, Exec.error_bind]

theorem pushFrontW_of {B : Build} {x : α} {n n' : Nat} (h : l.pushFront E x m = .ok (l', m'))
    (hn : B.wrapTo (2 ^ 32) (n + 1) = .ok n') :
    (l.withSize n).pushFrontW B E x m = .ok (l'.withSize n', m') := by
  unfold LList.pushFront at h
  obtain ⟨⟨p, l1, m1⟩, h1, h⟩ := Exec.bind_ok h
  obtain ⟨q, h0, h⟩ := Exec.bind_ok h
  obtain ⟨m2, h2, h⟩ := Exec.bind_ok h
  simp only [Except.ok.injEq, Prod.mk.injEq] at h
  obtain ⟨rfl, rfl⟩ := h
  unfold LList.pushFrontW
  rw [createNode_withSize, h1]
  simp only [Except.map, Exec.ok_bind]
  show (LMem.next m1 l1.head >>= _) = _
  rw [h0]
  simp only [Exec.ok_bind, h2, LList.withSize, hn]

theorem removeNodeW_of {B : Build} {p : Nat} {x : α} {n n' : Nat}
    (h : l.removeNode E p m = .ok (x, l', m')) (hn : B.wrapTo (2 ^ 32) (n - 1) = .ok n') :
    (l.withSize n).removeNodeW B E p m = .ok (x, l'.withSize n', m') := by
  unfold LList.removeNode at h
  obtain ⟨m1, h1, h⟩ := Exec.bind_ok h
  obtain ⟨y, h2, h⟩ := Exec.bind_ok h
  obtain ⟨⟨al, m2⟩, h3, h⟩ := Exec.bind_ok h
  dsimp only at h
  split_ifs at h
  simp only [Except.ok.injEq, Prod.mk.injEq] at h
  obtain ⟨rfl, rfl, rfl⟩ := h
  unfold LList.removeNodeW
  simp only [h1, h2, Exec.ok_bind, LList.withSize, h3, hn]

theorem popBackW_of {B : Build} {o : Option α} {n n' : Nat} (h : l.popBack E m = .ok (o, l', m'))
    (hn : o = none ∧ n' = n ∨ B.wrapTo (2 ^ 32) (n - 1) = .ok n') (ho : o = none → n' = n) :
    (l.withSize n).popBackW B E m = .ok (o, l'.withSize n', m') := by
  unfold LList.popBack at h
  obtain ⟨p, h1, h⟩ := Exec.bind_ok h
  unfold LList.popBackW
  show (LMem.prev m l.head >>= _) = _
  rw [h1]
  simp only [Exec.ok_bind]
  show (if p ≠ l.head then _ else _) = _
  split_ifs at h ⊢ with hp
  · obtain ⟨⟨x, l1, m1⟩, h2, h⟩ := Exec.bind_ok h
    simp only [Except.ok.injEq, Prod.mk.injEq] at h
    obtain ⟨rfl, rfl, rfl⟩ := h
    rw [removeNodeW_of h2 (by simpa using hn)]
    rfl
  · simp only [Except.ok.injEq, Prod.mk.injEq] at h
    obtain ⟨rfl, rfl, rfl⟩ := h
    rw [ho rfl]

theorem popFrontW_of {B : Build} {o : Option α} {n n' : Nat} (h : l.popFront E m = .ok (o, l', m'))
    (hn : o = none ∧ n' = n ∨ B.wrapTo (2 ^ 32) (n - 1) = .ok n') (ho : o = none → n' = n) :
    (l.withSize n).popFrontW B E m = .ok (o, l'.withSize n', m') := by
  unfold LList.popFront at h
  obtain ⟨p, h1, h⟩ := Exec.bind_ok h
  unfold LList.popFrontW
  show (LMem.next m l.head >>= _) = _
  rw [h1]
  simp only [Exec.ok_bind]
  show (if p ≠ l.head then _ else _) = _
  split_ifs at h ⊢ with hp
  · obtain ⟨⟨x, l1, m1⟩, h2, h⟩ := Exec.bind_ok h
    simp only [Except.ok.injEq, Prod.mk.injEq] at h
    obtain ⟨rfl, rfl, rfl⟩ := h
    rw [removeNodeW_of h2 (by simpa using hn)]
    rfl
  · simp only [Except.ok.injEq, Prod.mk.injEq] at h
    obtain ⟨rfl, rfl, rfl⟩ := h
    rw [ho rfl]

theorem clearLoop_withSize : ∀ {f f' next : Nat} {l l' : LList σ} {m m' : LMem α} (n : Nat),
    LList.clearLoop E f next l m = .ok (l', m') → f ≤ f' →
    LList.clearLoop E f' next (l.withSize n) m = .ok (l'.withSize n, m')
  | 0, _, _, _, _, _, _, _, h, _ => by cases h
  | f + 1, f', next, l, l', m, m', n, h, hf => by
    obtain ⟨f', rfl⟩ : ∃ g, f' = g + 1 := ⟨f' - 1, by omega⟩
    unfold LList.clearLoop at h ⊢
    show (if next = l.head then _ else _) = _
    split_ifs at h ⊢ with hc
    · simp only [Except.ok.injEq, Prod.mk.injEq] at h ⊢
      exact ⟨by rw [h.1], h.2⟩
    · obtain ⟨nx, h1, h⟩ := Exec.bind_ok h
      obtain ⟨x, h2, h⟩ := Exec.bind_ok h
      obtain ⟨⟨al, m1⟩, h3, h⟩ := Exec.bind_ok h
      have := clearLoop_withSize (f' := f') n h (by omega)
      simp only [h1, h2, Exec.ok_bind]
      show (E.A.dealloc next (E.size * baseSize) baseAlign l.al _ >>= _) = _
      rw [h3]
      exact this

theorem clearW_of {n fuel : Nat} (h : l.clear E m = .ok (l', m')) (hf : l.size + 1 ≤ fuel) :
    (l.withSize n).clearW E fuel m = .ok (l', m') := by
  unfold LList.clear at h
  obtain ⟨nx, h1, h⟩ := Exec.bind_ok h
  obtain ⟨⟨l1, m1⟩, h2, h⟩ := Exec.bind_ok h
  obtain ⟨m2, h3, h⟩ := Exec.bind_ok h
  simp only [Except.ok.injEq, Prod.mk.injEq] at h
  obtain ⟨rfl, rfl⟩ := h
  unfold LList.clearW
  show (LMem.next m l.head >>= _) = _
  rw [h1]
  simp only [Exec.ok_bind, clearLoop_withSize n h2 hf]
  show (l1.initSentinel m1 >>= _) = _
  rw [h3]
  rfl

theorem extendW_of (L : LLaw E Inv) {B : Build} : ∀ (ys : List α) {xs : List α} {ps : List Nat}
    {m m' : LMem α} {l l' : LList σ}, LRep Inv m l ps xs → l.extend E ys m = .ok (l', m') →
    B = .release ∨ xs.length + ys.length < 2 ^ 32 →
    (l.withSize (xs.length % 2 ^ 32)).extendW B E ys m =
      .ok (l'.withSize ((xs ++ ys).length % 2 ^ 32), m') := by
  intro ys
  induction ys with
  | nil =>
    intro xs ps m m' l l' _ h _
    simp only [LList.extend, Except.ok.injEq, Prod.mk.injEq] at h
    simp [LList.extendW, h.1, h.2]
  | cons y ys ih =>
    intro xs ps m m' l l' hr h hB
    obtain ⟨l1, m1, p, e1, _, _, _, e4, _⟩ := hr.pushBack L y
    simp only [LList.extend, e1, Exec.ok_bind] at h
    simp only [List.length_cons] at hB
    have h1 := pushBackW_of (B := B) e1 (wrapTo_add (n := xs.length) (by omega) (hB.imp id fun _ => by omega))
    have h2 := ih e4 h (hB.imp id fun _ => by
      simp only [List.length_append, List.length_singleton]; omega)
    simp only [List.length_append, List.length_singleton] at h2
    simp only [LList.extendW, h1, Exec.ok_bind, h2]
    simp [Nat.add_assoc, Nat.add_comm 1]

/-- One call: the links, the memory and the results are those of the list with an unbounded count,
but for what is read from the count. -/
theorem LRep.stepW (L : LLaw E Inv) {B : Build} {fuel : Nat} (h : LRep Inv m l ps xs)
    (op : ListOp α) (hf : xs.length < fuel)
    (hB : B = .release ∨ xs.length < 2 ^ 32 ∧ (op.step xs).2.length < 2 ^ 32) :
    ∃ l' m' ps', (l.withSize (xs.length % 2 ^ 32)).stepW B E fuel op m =
        .ok (op.outU32 xs, l'.withSize ((op.step xs).2.length % 2 ^ 32), m') ∧
      l'.head = l.head ∧
      m'.dropped = m.dropped ++ (if E.nd then op.discarded xs else []) ∧
      LRep Inv m' l' ps' (op.step xs).2 ∧ LKeep l.head ps m ps' m' := by
  obtain ⟨l', m', ps', e1, e2, e3, e4, e5, _⟩ := h.step L op
  refine ⟨l', m', ps', ?_, e2, e3, e4, e5⟩
  cases op with
  | pushBack x =>
    simp only [LList.step] at e1
    obtain ⟨⟨l1, m1⟩, h1, e1⟩ := Exec.bind_ok e1
    simp only [Except.ok.injEq, Prod.mk.injEq] at e1
    obtain ⟨_, rfl, rfl⟩ := e1
    simp only [ListOp.step, List.length_append, List.length_singleton] at hB ⊢
    simp only [LList.stepW, pushBackW_of (B := B) h1 (wrapTo_add (n := xs.length) (by omega) (hB.imp id fun _ => by omega)),
      Exec.ok_bind]
    rfl
  | pushFront x =>
    simp only [LList.step] at e1
    obtain ⟨⟨l1, m1⟩, h1, e1⟩ := Exec.bind_ok e1
    simp only [Except.ok.injEq, Prod.mk.injEq] at e1
    obtain ⟨_, rfl, rfl⟩ := e1
    simp only [ListOp.step, List.length_cons] at hB ⊢
    simp only [LList.stepW, pushFrontW_of (B := B) h1 (wrapTo_add (n := xs.length) (by omega) (hB.imp id fun _ => by omega)),
      Exec.ok_bind]
    rfl
  | popBack =>
    simp only [LList.step] at e1
    obtain ⟨⟨o, l1, m1⟩, h1, e1⟩ := Exec.bind_ok e1
    simp only [Except.ok.injEq, Prod.mk.injEq, ListOp.step, Out.elem.injEq] at e1
    obtain ⟨rfl, rfl, rfl⟩ := e1
    simp only [ListOp.step, List.length_dropLast] at hB ⊢
    have hn : xs.getLast? = none → xs = [] := List.getLast?_eq_none_iff.1
    rw [LList.stepW, popBackW_of (B := B) (n' := (xs.length - 1) % 2 ^ 32) h1 ?_ ?_]
    · rfl
    · cases xs with
      | nil => exact .inl ⟨rfl, rfl⟩
      | cons x xs => 
        have := wrapTo_sub (B := B) (M := 2 ^ 32) (n := xs.length) (by omega) (hB.imp id
          fun hB => by simp only [List.length_cons] at hB; omega)
        exact .inr this
    · intro ho
      rw [hn ho]; rfl
  | popFront =>
    simp only [LList.step] at e1
    obtain ⟨⟨o, l1, m1⟩, h1, e1⟩ := Exec.bind_ok e1
    simp only [Except.ok.injEq, Prod.mk.injEq, ListOp.step, Out.elem.injEq] at e1
    obtain ⟨rfl, rfl, rfl⟩ := e1
    simp only [ListOp.step, List.length_tail] at hB ⊢
    have hn : xs.head? = none → xs = [] := List.head?_eq_none_iff.1
    rw [LList.stepW, popFrontW_of (B := B) (n' := (xs.length - 1) % 2 ^ 32) h1 ?_ ?_]
    · rfl
    · cases xs with
      | nil => exact .inl ⟨rfl, rfl⟩
      | cons x xs => 
        have := wrapTo_sub (B := B) (M := 2 ^ 32) (n := xs.length) (by omega) (hB.imp id
          fun hB => by simp only [List.length_cons] at hB; omega)
        exact .inr this
    · intro ho
      rw [hn ho]; rfl
  | front =>
    simp only [LList.step] at e1
    obtain ⟨o, h1, e1⟩ := Exec.bind_ok e1
    simp only [Except.ok.injEq, Prod.mk.injEq] at e1
    obtain ⟨h2, rfl, rfl⟩ := e1
    show ((l.withSize _).front m >>= _) = _
    rw [show (l.withSize (xs.length % 2 ^ 32)).front m = l.front m from rfl, h1,
      show ListOp.front.outU32 xs = (ListOp.front.step xs).1 from rfl, ← h2]
    rfl
  | back =>
    simp only [LList.step] at e1
    obtain ⟨o, h1, e1⟩ := Exec.bind_ok e1
    simp only [Except.ok.injEq, Prod.mk.injEq] at e1
    obtain ⟨h2, rfl, rfl⟩ := e1
    show ((l.withSize _).back m >>= _) = _
    rw [show (l.withSize (xs.length % 2 ^ 32)).back m = l.back m from rfl, h1,
      show ListOp.back.outU32 xs = (ListOp.back.step xs).1 from rfl, ← h2]
    rfl
  | setFront x =>
    simp only [LList.step] at e1
    obtain ⟨⟨o, m1⟩, h1, e1⟩ := Exec.bind_ok e1
    simp only [Except.ok.injEq, Prod.mk.injEq] at e1
    obtain ⟨h2, rfl, rfl⟩ := e1
    have hlen : ((ListOp.setFront x).step xs).2.length = xs.length := by
      rw [← e4.size, h.size]
    rw [hlen, show (ListOp.setFront x).outU32 xs = ((ListOp.setFront x).step xs).1 from rfl, ← h2]
    show ((l.withSize _).setFront E x m >>= _) = _
    rw [show (l.withSize (xs.length % 2 ^ 32)).setFront E x m = l.setFront E x m from rfl, h1]
    rfl
  | setBack x =>
    simp only [LList.step] at e1
    obtain ⟨⟨o, m1⟩, h1, e1⟩ := Exec.bind_ok e1
    simp only [Except.ok.injEq, Prod.mk.injEq] at e1
    obtain ⟨h2, rfl, rfl⟩ := e1
    have hlen : ((ListOp.setBack x).step xs).2.length = xs.length := by
      rw [← e4.size, h.size]
    rw [hlen, show (ListOp.setBack x).outU32 xs = ((ListOp.setBack x).step xs).1 from rfl, ← h2]
    show ((l.withSize _).setBack E x m >>= _) = _
    rw [show (l.withSize (xs.length % 2 ^ 32)).setBack E x m = l.setBack E x m from rfl, h1]
    rfl
  | len =>
    simp only [LList.step, Except.ok.injEq, Prod.mk.injEq] at e1
    obtain ⟨_, rfl, rfl⟩ := e1
    rfl
  | isEmpty =>
    simp only [LList.step, Except.ok.injEq, Prod.mk.injEq] at e1
    obtain ⟨_, rfl, rfl⟩ := e1
    rfl
  | clear =>
    simp only [LList.step] at e1
    obtain ⟨⟨l1, m1⟩, h1, e1⟩ := Exec.bind_ok e1
    simp only [Except.ok.injEq, Prod.mk.injEq] at e1
    obtain ⟨_, rfl, rfl⟩ := e1
    have := clearW_of (n := xs.length % 2 ^ 32) (fuel := fuel) h1 (by rw [h.size]; omega)
    simp only [LList.stepW, this, Exec.ok_bind]
    have hs := e4.size
    simp only [ListOp.step, List.length_nil] at hs
    obtain ⟨a, b, c⟩ := l1
    simp only at hs
    subst hs
    rfl
  | extend ys =>
    simp only [LList.step] at e1
    obtain ⟨⟨l1, m1⟩, h1, e1⟩ := Exec.bind_ok e1
    simp only [Except.ok.injEq, Prod.mk.injEq] at e1
    obtain ⟨_, rfl, rfl⟩ := e1
    have := extendW_of L (B := B) ys h h1 (hB.imp id fun hB => by
      simp only [ListOp.step, List.length_append] at hB; omega)
    simp only [LList.stepW, this, Exec.ok_bind]
    rfl

theorem le_listPeak (ops : List (ListOp α)) (xs : List α) : xs.length ≤ ListOp.peak ops xs := by
  cases ops with
  | nil => exact Nat.le_refl _
  | cons op ops => exact Nat.le_max_left _ _

/-- Below the wrap, and only modulo it above, results agree with those of the sequence. -/
theorem outsU32_small : ∀ (ops : List (ListOp α)) (xs : List α), ListOp.peak ops xs < 2 ^ 32 →
    ListOp.outsU32 ops xs = (ListOp.run ops xs).1
  | [], _, _ => rfl
  | op :: ops, xs, h => by
    simp only [ListOp.peak] at h
    have hx : xs.length < 2 ^ 32 := by omega
    have h1 : op.outU32 xs = (op.step xs).1 := by
      cases op <;> simp [ListOp.outU32, ListOp.step, Nat.mod_eq_of_lt hx]
    simp only [ListOp.outsU32, ListOp.run, h1,
      outsU32_small ops (op.step xs).2 (by omega)]

/-- A history. -/
theorem LRep.runW (L : LLaw E Inv) {B : Build} {fuel : Nat} : ∀ (ops : List (ListOp α))
    {m : LMem α} {l : LList σ} {ps : List Nat} {xs : List α}, LRep Inv m l ps xs →
    ListOp.peak ops xs < fuel → B = .release ∨ ListOp.peak ops xs < 2 ^ 32 →
    ∃ l' m' ps', (l.withSize (xs.length % 2 ^ 32)).runW B E fuel ops m =
        .ok (ListOp.outsU32 ops xs, l'.withSize ((ListOp.run ops xs).2.length % 2 ^ 32), m') ∧
      l'.head = l.head ∧
      m'.dropped = m.dropped ++ (if E.nd then ListOp.allDropped ops xs else []) ∧
      LRep Inv m' l' ps' (ListOp.run ops xs).2 ∧ LKeep l.head ps m ps' m' := by
  intro ops
  induction ops with
  | nil =>
    intro m l ps xs h _ _
    exact ⟨l, m, ps, rfl, rfl, by simp [ListOp.allDropped], h, LKeep.refl _ _ _⟩
  | cons op ops ih =>
    intro m l ps xs h hf hB
    simp only [ListOp.peak] at hf hB
    have hle := le_listPeak ops (op.step xs).2
    obtain ⟨l1, m1, ps1, e1, e2, e3, e4, e5⟩ := h.stepW L (B := B) (fuel := fuel) op (by omega)
      (hB.imp id fun _ => by omega)
    obtain ⟨l2, m2, ps2, f1, f2, f3, f4, f5⟩ := ih e4 (by omega) (hB.imp id fun _ => by omega)
    rw [e2] at f5
    refine ⟨l2, m2, ps2, ?_, f2.trans e2, ?_, f4, e5.trans f5⟩
    · simp only [LList.runW, e1, Exec.ok_bind, f1]
      rfl
    · rw [f3, e3]
      cases E.nd <;> simp [ListOp.allDropped]

/-- Iterating in a release build: the count in the iterator does not matter. -/
theorem LRep.iterRunW (h : LRep Inv m l ps xs) : ∀ (n k c : Nat), k ≤ ps.length →
    ∃ it', LIter.runW .release n { literAt l ps k with len := c } m =
      .ok ((List.range n).map (fun j => xs[k + j]?), it') := by
  intro n
  induction n with
  | zero => intro k c hk; exact ⟨_, rfl⟩
  | succ n ih =>
    intro k c hk
    have hn := h.chain.next_at k hk
    have hnx : ∃ c', LIter.nextW .release { literAt l ps k with len := c } m = .ok (ps[k]?,
        { (if k < ps.length then literAt l ps (k + 1) else literAt l ps k) with len := c' }) := by
      have hw : ∃ c', Build.release.wrapTo (2 ^ 64) (c - 1 : Int) = .ok c' := by
        unfold Build.wrapTo
        split_ifs
        · exact ⟨_, rfl⟩
        · exact ⟨_, rfl⟩
      obtain ⟨c', hw⟩ := hw
      by_cases hlt : k < ps.length
      · have hne : ps[k] ≠ l.head := fun e => h.head_notin (by rw [← e]; exact List.getElem_mem _)
        refine ⟨c', ?_⟩
        unfold LIter.nextW
        simp only [literAt] at hn ⊢
        simp only [hn, Exec.ok_bind]
        simp [hlt, hne, hw]
      · refine ⟨c, ?_⟩
        unfold LIter.nextW
        simp only [literAt] at hn ⊢
        simp only [hn, Exec.ok_bind]
        simp [hlt]
    obtain ⟨c', hnx⟩ := hnx
    simp only [LIter.runW, hnx, Exec.ok_bind, List.range_succ_eq_map, List.map_cons, List.map_map]
    by_cases hlt : k < ps.length
    · have hv := h.val_at hlt
      have hx : k < xs.length := by rw [← h.length]; exact hlt
      obtain ⟨it', e⟩ := ih (k + 1) c' hlt
      simp only [List.getElem?_eq_getElem hlt, hv, Exec.ok_bind, if_pos hlt, e,
        Nat.add_zero, List.getElem?_eq_getElem hx]
      refine ⟨it', ?_⟩
      congr 3
      apply List.map_congr_left; intro j _; simp; congr 1; omega
    · have hge : ps.length ≤ k := by omega
      have hx : xs.length ≤ k := by rw [← h.length]; exact hge
      obtain ⟨it', e⟩ := ih k c' hk
      simp only [List.getElem?_eq_none hge, Exec.ok_bind, if_neg hlt, e, Nat.add_zero,
        List.getElem?_eq_none hx]
      refine ⟨it', ?_⟩
      congr 3
      apply List.map_congr_left; intro j _
      simp [List.getElem?_eq_none (show xs.length ≤ k + j by omega),
        List.getElem?_eq_none (show xs.length ≤ k + (j + 1) by omega)]

end Verif
