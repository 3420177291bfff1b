import Verif.Unwind.Model
import Verif.LinkedList.Inv

/-! `List::clear` with panicking destructors. -/

set_option autoImplicit false

namespace Verif

variable {α σ : Type}

/-- The loop of `clear` (src/list/mod.rs:77-85) for an element type whose destructor panics if `bad`:
the panic leaves the loop before the node is freed. -/
def LList.clearLoopP (E : LEnv α σ) (bad : α → Bool) :
    Nat → Nat → LList σ → LMem α → Exec (Ends (LList σ × LMem α))
  | 0, _, _, _ => .error .ub
  | fuel + 1, next, l, m =>
    if next = l.head then .ok (.returns (l, m))
    else do
      let toDrop := next
      let next ← m.next next
      let x ← m.val toDrop
      let m := m.logDrop true x
      if bad x then .ok (.unwinds (l, m))
      else do
        let (al, m) ← E.A.dealloc toDrop (E.size * baseSize) baseAlign l.al m
        clearLoopP E bad fuel next { l with al := al } m

/-- `clear` (src/list/mod.rs:74-89), also `drop` (216-220), for an element type whose destructor
panics if `bad`: then the sentinel is not reset. -/
def LList.clearP (E : LEnv α σ) (bad : α → Bool) (l : LList σ) (m : LMem α) :
    Exec (Ends (LList σ × LMem α)) := do
  let next ← m.next l.head
  match ← LList.clearLoopP E bad (l.size + 1) next l m with
  | .returns (l, m) => do
    let m ← l.initSentinel m
    .ok (.returns ({ l with size := 0 }, m))
  | .unwinds s => .ok (.unwinds s)
  | .aborts => .ok .aborts

variable {E : LEnv α σ} {Inv : σ → LMem α → List Nat → Prop}

theorem clearLoopP_boom (L : LLaw E Inv) {bad : α → Bool} {q : Nat} {rs : List Nat} {x : α}
    {post : List α} (hx : bad x = true) : ∀ {qs : List Nat} {pre : List α} {m : LMem α} {l : LList σ}
    {p fuel : Nat}, (∀ y ∈ pre, bad y = false) → qs.length = pre.length →
    (qs ++ q :: rs).length < fuel → (qs ++ q :: rs).head?.getD l.head = p →
    FChain m (qs ++ q :: rs) l.head → (l.head :: (qs ++ q :: rs)).Nodup →
    (qs ++ q :: rs).map (fun p => LMem.val m p) = (pre ++ x :: post).map Except.ok →
    Inv l.al m (qs ++ q :: rs) →
    ∃ a' m', LList.clearLoopP E bad fuel p l m = .ok (.unwinds ({ l with al := a' }, m')) ∧
      Inv a' m' (q :: rs) ∧ m'.dropped = m.dropped ++ (pre ++ [x]) ∧
      (∀ z ∈ qs, m'.node z = none) ∧ ∀ z, z ∉ qs → m'.node z = m.node z := by
  intro qs
  induction qs with
  | nil =>
    intro pre m l p fuel _ hlen hf hp hc hn hv hi
    obtain ⟨f, rfl⟩ : ∃ f, fuel = f + 1 := ⟨fuel - 1, by omega⟩
    have : pre = [] := List.length_eq_zero_iff.1 hlen.symm
    subst this
    simp only [List.nil_append, List.head?_cons, Option.getD_some] at hp
    subst hp
    simp only [List.nil_append, List.map_cons, List.cons.injEq] at hv
    have hqs : q ≠ l.head := fun e => by simp [e] at hn
    have hnx : LMem.next m q = .ok (rs.head?.getD l.head) := hc.1
    refine ⟨l.al, { m with dropped := m.dropped ++ [x] }, ?_, ?_, rfl, by simp, fun _ _ => rfl⟩
    · simp only [LList.clearLoopP, if_neg hqs, hnx, Exec.ok_bind, hv.1, hx, if_true, NMem.logDrop]
    · exact L.frame hi (fun _ => Iff.rfl) rfl rfl
  | cons q0 qs ih =>
    intro pre m l p fuel hpre hlen hf hp hc hn hv hi
    obtain ⟨f, rfl⟩ : ∃ f, fuel = f + 1 := ⟨fuel - 1, by omega⟩
    cases pre with
    | nil => simp at hlen
    | cons y pre =>
      simp only [List.cons_append, List.head?_cons, Option.getD_some] at hp
      subst hp
      simp only [List.cons_append, List.map_cons, List.cons.injEq] at hv
      have hqs : q0 ≠ l.head := fun e => by simp [e] at hn
      have hnx : LMem.next m q0 = .ok ((qs ++ q :: rs).head?.getD l.head) := hc.1
      have hi1 : Inv l.al { m with dropped := m.dropped ++ [y] } (q0 :: (qs ++ q :: rs)) :=
        L.frame hi (fun _ => Iff.rfl) rfl rfl
      obtain ⟨a1, m1, e1, e2, e3, e4⟩ := L.dealloc hi1 (p := q0) (by simp)
      have hnd : q0 ∉ qs ++ q :: rs := by
        simp only [List.cons_append, List.nodup_cons] at hn
        exact hn.2.1
      rw [List.erase_cons_head] at e4
      have hkeep : ∀ z, z ≠ q0 → m1.node z = m.node z := by
        intro z hz; rw [e2]; simp [Function.update_of_ne hz]
      have hnext : ∀ z ∈ qs ++ q :: rs, LMem.next m1 z = LMem.next m z := by
        intro z hz
        have : z ≠ q0 := fun e => hnd (e ▸ hz)
        simp only [LMem.next_def, hkeep z this]
      have hval : ∀ z ∈ qs ++ q :: rs, LMem.val m1 z = LMem.val m z := by
        intro z hz
        have : z ≠ q0 := fun e => hnd (e ▸ hz)
        simp only [LMem.val_def, hkeep z this]
      obtain ⟨a2, m2, f1, f2, f3, f4, f5⟩ := ih (pre := pre) (m := m1) (l := { l with al := a1 })
        (p := (qs ++ q :: rs).head?.getD l.head) (fuel := f)
        (fun z hz => hpre z (by simp [hz])) (by simpa using hlen) (by simp at hf ⊢; omega) rfl
        (FChain.frame hc.2 hnext)
        (by simp only [List.cons_append, List.nodup_cons, List.mem_cons, not_or] at hn ⊢
            exact ⟨hn.1.2, hn.2.2⟩)
        (by rw [← hv.2]; exact List.map_congr_left hval) e4
      refine ⟨a2, m2, ?_, f2, ?_, ?_, ?_⟩
      · simp only [LList.clearLoopP, if_neg hqs, hnx, Exec.ok_bind, hv.1, hpre y (by simp),
          Bool.false_eq_true, if_false, NMem.logDrop, if_true, e1, f1]
      · rw [f3, e3]; simp
      · intro z hz
        rcases List.mem_cons.1 hz with rfl | hz
        · have : z ∉ qs := fun h => hnd (by simp [h])
          rw [f5 z this, e2]; simp
        · exact f4 z hz
      · intro z hz
        simp only [List.mem_cons, not_or] at hz
        rw [f5 z hz.2, hkeep z hz.1]

theorem clearLoopP_returns (L : LLaw E Inv) (hnd : E.nd = true) {bad : α → Bool} :
    ∀ {ps : List Nat} {xs : List α} {m : LMem α} {l : LList σ} {p fuel : Nat},
    (∀ y ∈ xs, bad y = false) → ps.length < fuel → ps.head?.getD l.head = p →
    FChain m ps l.head → (l.head :: ps).Nodup →
    ps.map (fun p => LMem.val m p) = xs.map Except.ok → Inv l.al m ps →
    LList.clearLoopP E bad fuel p l m = (LList.clearLoop E fuel p l m).map .returns := by
  intro ps
  induction ps with
  | nil =>
    intro xs m l p fuel _ hf hp _ _ _ _
    obtain ⟨f, rfl⟩ : ∃ f, fuel = f + 1 := ⟨fuel - 1, by omega⟩
    simp only [List.head?_nil, Option.getD_none] at hp
    subst hp
    simp only [LList.clearLoopP, LList.clearLoop, if_true]
    rfl
  | cons q ps ih =>
    intro xs m l p fuel hb hf hp hc hn hv hi
    obtain ⟨f, rfl⟩ : ∃ f, fuel = f + 1 := ⟨fuel - 1, by omega⟩
    simp only [List.head?_cons, Option.getD_some] at hp
    subst hp
    cases xs with
    | nil => simp at hv
    | cons x xs =>
      simp only [List.map_cons, List.cons.injEq] at hv
      have hn1 := List.nodup_cons.1 hn
      have hn2 := List.nodup_cons.1 hn1.2
      have hqs : q ≠ l.head := fun e => hn1.1 (by simp [e])
      have hi' : Inv l.al (NMem.logDrop m true x) (q :: ps) :=
        L.frame hi (fun z => Iff.rfl) rfl rfl
      obtain ⟨a1, m1, e1, e2, e3, e4⟩ := L.dealloc hi' (p := q) (by simp)
      have e2 : m1.node = Function.update m.node q none := e2
      have := ih (xs := xs) (m := m1) (l := { l with al := a1 })
        (fuel := f) (fun y hy => hb y (by simp [hy])) (by simp at hf; omega) rfl
        (hc.2.frame fun z hz => (LMem.erase_fields e2 (fun e => hn2.1 (e ▸ hz))).1)
        (by
          simp only [List.nodup_cons, List.mem_cons, not_or] at hn ⊢
          exact ⟨hn.1.2, hn.2.2⟩)
        (by
          rw [← hv.2]
          apply List.map_congr_left
          intro z hz
          exact (LMem.erase_fields e2 (fun e => hn2.1 (e ▸ hz))).2.2)
        (by simpa using e4)
      simp only [LList.clearLoopP, LList.clearLoop, if_neg hqs, hc.1, Exec.ok_bind, hv.1, hnd, e1,
        hb x (by simp), Bool.false_eq_true, if_false]
      exact this

variable {m : LMem α} {l : LList σ} {ps : List Nat} {xs : List α}

theorem LRep.clearP_boom (L : LLaw E Inv) {bad : α → Bool} {pre : List α} {x : α} {post : List α}
    (h : LRep Inv m l ps (pre ++ x :: post)) (hpre : ∀ y ∈ pre, bad y = false) (hx : bad x = true) :
    ∃ a' m' qs q rs, ps = qs ++ q :: rs ∧ qs.length = pre.length ∧
      l.clearP E bad m = .ok (.unwinds ({ l with al := a' }, m')) ∧
      Inv a' m' (q :: rs) ∧ m'.dropped = m.dropped ++ (pre ++ [x]) ∧
      (∀ z ∈ qs, m'.node z = none) ∧ ∀ z, z ∉ qs → m'.node z = m.node z := by
  have hlen := h.length
  obtain ⟨qs, q, rs, rfl, hq⟩ : ∃ qs q rs, ps = qs ++ q :: rs ∧ qs.length = pre.length := by
    have hlt : pre.length < ps.length := by rw [hlen]; simp
    exact ⟨ps.take pre.length, ps[pre.length], ps.drop (pre.length + 1), by simp,
      by simp; omega⟩
  obtain ⟨a', m', e1, e2, e3, e4, e5⟩ := clearLoopP_boom L (bad := bad) hx hpre hq
    (fuel := l.size + 1) (by rw [h.size, hlen]; omega) rfl h.chain.forward h.nodup h.vals h.inv
  refine ⟨a', m', qs, q, rs, rfl, hq, ?_, e2, e3, e4, e5⟩
  simp only [LList.clearP, h.chain.next_head, Exec.ok_bind, e1]

theorem LRep.clearP_returns (L : LLaw E Inv) (hnd : E.nd = true) {bad : α → Bool}
    (h : LRep Inv m l ps xs) (hb : ∀ y ∈ xs, bad y = false) :
    l.clearP E bad m = (l.clear E m).map .returns := by
  have e := clearLoopP_returns L hnd (bad := bad) (fuel := l.size + 1) hb
    (by rw [h.size, h.length]; omega) rfl h.chain.forward h.nodup h.vals h.inv
  obtain ⟨a1, m1, e1, _, e3, _⟩ := clearLoop_ok L (fuel := l.size + 1)
    (by rw [h.size, h.length]; omega) rfl h.chain.forward h.nodup h.vals h.inv
    (h.chain.live _ (by simp))
  rw [e1] at e
  obtain ⟨m2, f1, _⟩ := initSentinel_ok { l with al := a1 } (m := m1) e3
  simp only [LList.clearP, LList.clear, h.chain.next_head, Exec.ok_bind, e, e1, f1, Except.map]

/-- A panic in the first destructor leaves the list as it was. -/
theorem LRep.clearP_first (L : LLaw E Inv) {bad : α → Bool} {x : α} {post : List α}
    (h : LRep Inv m l ps (x :: post)) (hx : bad x = true) :
    ∃ m', l.clearP E bad m = .ok (.unwinds (l, m')) ∧ m'.dropped = m.dropped ++ [x] ∧
      LRep Inv m' l ps (x :: post) := by
  have hlen := h.length
  cases ps with
  | nil => simp at hlen
  | cons q ps =>
    have hv := h.vals
    simp only [List.map_cons, List.cons.injEq] at hv
    have hqs : q ≠ l.head := fun e => by have := h.nodup; simp [e] at this
    refine ⟨{ m with dropped := m.dropped ++ [x] }, ?_, rfl, ?_, h.nodup, h.vals, h.size,
      L.frame h.inv (fun _ => Iff.rfl) rfl rfl⟩
    · have hnx : LMem.next m l.head = .ok q := h.chain.next_head
      simp only [LList.clearP, hnx, Exec.ok_bind, LList.clearLoopP, if_neg hqs,
        h.chain.forward.1, hv.1, hx, if_true, NMem.logDrop]
    · exact h.chain.frame (fun _ _ => rfl) (fun _ _ => rfl)

/-- A panic in a later destructor leaves the sentinel pointing at a freed node. -/
theorem LRep.clearP_dangling (L : LLaw E Inv) {bad : α → Bool} {pre : List α} {x : α}
    {post : List α} (h : LRep Inv m l ps (pre ++ x :: post)) (hne : pre ≠ [])
    (hpre : ∀ y ∈ pre, bad y = false) (hx : bad x = true) :
    ∃ l' m', l.clearP E bad m = .ok (.unwinds (l', m')) ∧
      m'.dropped = m.dropped ++ (pre ++ [x]) ∧ l'.size = l.size ∧
      l'.front m' = .error .ub ∧ l'.clearP E bad m' = .error .ub := by
  obtain ⟨a', m', qs, q, rs, rfl, hq, e1, e2, e3, e4, e5⟩ := h.clearP_boom L hpre hx
  have hhd : l.head ∉ qs := fun hm => by
    have := h.nodup
    simp [hm] at this
  cases qs with
  | nil => exact absurd (List.length_eq_zero_iff.1 hq.symm) hne
  | cons q0 qs =>
    have hne0 : q0 ≠ l.head := fun e => hhd (by simp [e])
    have hnx : LMem.next m' l.head = .ok q0 := by
      have := h.chain.next_head
      rw [LMem.next_def] at this ⊢
      rw [e5 _ hhd, this]; rfl
    have hdead : m'.node q0 = none := e4 q0 (by simp)
    refine ⟨_, m', e1, e3, rfl, ?_, ?_⟩
    · simp [LList.front, hnx, hne0, LMem.val_def, hdead]
    · simp only [LList.clearP, hnx, Exec.ok_bind, LList.clearLoopP, if_neg hne0, LMem.next_def,
        hdead, Exec.error_bind]

end Verif
