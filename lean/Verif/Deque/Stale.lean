import Verif.Deque.Inv

/-! Iterators used after the deque has changed. -/

set_option autoImplicit false

namespace Verif
open Spec

variable {α : Type}

/-- Calls that neither add nor remove elements. -/
def Spec.DeqOp.inPlace : DeqOp α → Bool
  | .front | .back | .setFront _ | .setBack _ | .len | .isEmpty => true
  | _ => false

section
variable {E : DEnv α} {wt : World α} {wp : World Ptr} {m : DMem α} {d : Deque}
  {pb lo bo : Nat} {bl : List Nat} {xs : List α}

theorem Exec.of_bind_ok {β γ : Type} {e : Exec β} {f : β → Exec γ} {c : γ}
    (h : (e >>= f) = .ok c) : ∃ b, e = .ok b ∧ f b = .ok c := by
  cases e with
  | error x => cases h
  | ok b => exact ⟨b, rfl, h⟩

theorem Mem.read_dead {β : Type} {m : Mem β} {b o : Nat} (h : m.live b = none) :
    m.read (.loc b o) = .error .ub := by
  simp [Mem.read, Mem.cell, h]

/-- An iterator of a dropped deque. -/
theorem DRep.stale_drop (h : DRep E wt wp m d pb lo bo bl xs) (hx : xs ≠ []) :
    ∃ it m', d.iter = .ok it ∧ d.drop E m = .ok m' ∧
      it.step .next m' = .error .ub ∧ it.step .nextBack m' = .error .ub := by
  obtain ⟨m', B, h1, _, h3, _⟩ := h.drop
  have hpos : 0 < xs.length := List.length_pos_iff.2 hx
  have hne : ¬ cellPtr E.S bl bo = cellPtr E.S bl (bo + xs.length) := by
    rw [cellPtr_inj h.t.nodup (by simpa using h.idx_lt (k := 0) (Nat.zero_le _))
      (h.idx_lt (Nat.le_refl _))]
    omega
  have hd : m'.p.live pb = none := by rw [h3]; exact h.p.fresh
  refine ⟨_, m', h.iter, h1, ?_, ?_⟩
  · simp only [DIter.step, DIter.next]
    rw [if_neg (by simpa [iterAt] using hne)]
    simp only [Mem.read_dead hd]
    rfl
  · simp only [DIter.step, DIter.nextBack]
    rw [if_neg (by simpa [iterAt] using fun e => hne (Eq.symm e))]
    simp only [Mem.read_dead hd]
    rfl

/-- An iterator after the first element was popped. -/
theorem DRep.stale_pop (h : DRep E wt wp m d pb lo bo bl xs) {y : α} (hx : xs.head? = some y) :
    ∃ it d' m', d.iter = .ok it ∧ d.popFront E m = .ok (some y, d', m') ∧
      (it.step .next m' = .error .ub ∨ ∃ it', it.step .next m' = .ok (some y, it')) := by
  cases xs with
  | nil => simp at hx
  | cons z ys =>
    simp only [List.head?_cons, Option.some.injEq] at hx
    subst hx
    obtain ⟨d', m', lo', bo', bl', p1, p2, _, _⟩ := h.popFront
    refine ⟨_, d', m', h.iter, p1, ?_⟩
    have hS := h.S_pos
    have h0 := h.bl_pos
    have hlt := h.b_lt
    have hn := h.next (Nat.zero_le (z :: ys).length) (Nat.le_refl _)
    rw [if_neg (by simp)] at hn
    simp only [Nat.add_zero] at hn
    have hread : m.t.read (cellPtr E.S bl bo) = .ok z := h.vals 0 z (by simp)
    have hcur : d.b.current = cellPtr E.S bl bo := by rw [h.b]; rfl
    have hlast : m.t.ptrSub d.b.last 1 = .ok (.loc (bl.getD 0 0) (E.S - 1)) := by
      rw [h.b]; simp only [itAt, h.bo_div]
      exact h.t.ptrSub h0 (by omega)
    unfold Deque.popFront at p1
    rw [h.isEmpty, if_neg (by simp)] at p1
    simp only [hlast, Exec.ok_bind] at p1
    by_cases hb : bo + 1 < E.S
    · right
      have hne : d.b.current ≠ .loc (bl.getD 0 0) (E.S - 1) := by
        rw [hcur]; simp only [cellPtr, h.bo_div, h.bo_mod]
        intro e; simp only [Ptr.loc.injEq, true_and] at e; omega
      have hadd : m.t.ptrAdd (cellPtr E.S bl bo) 1 = .ok (cellPtr E.S bl (bo + 1)) := by
        simp only [cellPtr, h.bo_div, h.bo_mod, Nat.div_eq_of_lt hb, Nat.mod_eq_of_lt hb]
        exact h.t.ptrAdd h0 (by omega)
      rw [if_pos hne] at p1
      simp only [hcur, hread, Exec.ok_bind, hadd] at p1
      injection p1 with p1
      simp only [Prod.mk.injEq] at p1
      obtain ⟨_, _, rfl⟩ := p1
      exact ⟨iterAt E.S pb lo bl (bo + 1) (bo + (z :: ys).length),
        by simp only [DIter.step, hn, Exec.ok_bind, hread]⟩
    · left
      have hne : ¬ d.b.current ≠ .loc (bl.getD 0 0) (E.S - 1) := by
        rw [hcur]; simp only [cellPtr, h.bo_div, h.bo_mod, not_not]
        rw [show E.S - 1 = bo by omega]
      rw [if_neg hne] at p1
      obtain ⟨B, bl2, rfl⟩ := List.exists_cons_of_length_pos h0
      have hfirst : d.b.first = .loc B 0 := by
        rw [h.b]; simp only [itAt, h.bo_div]; simp
      obtain ⟨blk, hb1, hs1, hr1⟩ := h.t.ins B (by simp)
      have hfree : (defaultAllocator E.Rt).dealloc (.loc B 0) E.S m.t =
          .ok (m.t.setBlock B none) := by
        simp [defaultAllocator, rawDealloc, hb1, hs1, hr1]
      simp only [hcur, hread, Exec.ok_bind, DMem.freeSub, hfirst, hfree] at p1
      have hm' : m'.t.live B = none ∧ m'.p = m.p := by
        obtain ⟨a, ha, p1⟩ := Exec.of_bind_ok p1
        obtain ⟨b, hb, p1⟩ := Exec.of_bind_ok p1
        injection p1 with p1
        simp only [Prod.mk.injEq] at p1
        obtain ⟨_, _, rfl⟩ := p1
        simp
      have hcells := h.p.cells 0 h0
      simp only [Nat.add_zero, List.getD_cons_zero] at hcells
      have hnn : ¬ cellPtr E.S (B :: bl2) bo =
          cellPtr E.S (B :: bl2) (bo + (z :: ys).length) := by
        rw [cellPtr_inj h.t.nodup (by simpa using h.idx_lt (k := 0) (Nat.zero_le _))
          (h.idx_lt (Nat.le_refl _))]
        simp
      simp only [DIter.step, DIter.next]
      rw [if_neg (by simpa [iterAt] using hnn)]
      simp only [h.bo_div, Nat.add_zero, hm'.2, hcells, Exec.ok_bind]
      simp only [Mem.ptrAdd, hm'.1]
      rfl

/-- Calls that neither add nor remove elements leave the deque where it is. -/
theorem DRep.inPlace_run : ∀ (ops : List (DeqOp α)) {m : DMem α} {xs : List α},
    DRep E wt wp m d pb lo bo bl xs → (∀ op ∈ ops, op.inPlace = true) →
    ∃ m', Deque.run E ops d m = .ok ((DeqOp.run ops xs).1, d, m') ∧
      DRep E wt wp m' d pb lo bo bl (DeqOp.run ops xs).2 := by
  intro ops
  induction ops with
  | nil => intro m xs h _; exact ⟨m, rfl, h⟩
  | cons op ops ih =>
    intro m xs h hin
    have h1 : ∃ m', d.step E op m = .ok ((op.step xs).1, d, m') ∧
        DRep E wt wp m' d pb lo bo bl (op.step xs).2 := by
      have := hin op (by simp)
      cases op with
      | front => exact ⟨m, by simp [Deque.step, h.front, DeqOp.step], h⟩
      | back => exact ⟨m, by simp [Deque.step, h.back, DeqOp.step], h⟩
      | setFront x =>
        obtain ⟨m', h1, h2, _⟩ := h.setFront x
        exact ⟨m', by simp [Deque.step, h1, DeqOp.step], h2⟩
      | setBack x =>
        obtain ⟨m', h1, h2, _⟩ := h.setBack x
        exact ⟨m', by simp [Deque.step, h1, DeqOp.step], h2⟩
      | len => exact ⟨m, by simp [Deque.step, h.length, DeqOp.step], h⟩
      | isEmpty => exact ⟨m, by simp [Deque.step, h.isEmpty, DeqOp.step], h⟩
      | _ => simp [DeqOp.inPlace] at this
    obtain ⟨m1, e1, r1⟩ := h1
    obtain ⟨m2, e2, r2⟩ := ih r1 (fun o ho => hin o (by simp [ho]))
    exact ⟨m2, by simp [Deque.run, e1, e2, DeqOp.run], by simpa [DeqOp.run] using r2⟩

/-- The addresses any interleaving of `next` and `next_back` hands out. -/
def DIter.handed : List IterOp → DMem α → DIter → Exec (List Ptr)
  | [], _, _ => .ok []
  | op :: ops, m, it => do
    let (p, it) ← (match op with
      | .next => it.next m
      | .nextBack => it.nextBack m)
    let ps ← DIter.handed ops m it
    .ok (p.toList ++ ps)

/-- They are those of different positions. -/
theorem DRep.handed (h : DRep E wt wp m d pb lo bo bl xs) : ∀ (ops : List IterOp) (i j : Nat),
    i ≤ j → j ≤ xs.length →
    ∃ ks : List Nat, DIter.handed ops m (iterAt E.S pb lo bl (bo + i) (bo + j)) =
        .ok (ks.map (fun k => cellPtr E.S bl (bo + k))) ∧ ks.Nodup ∧ ∀ k ∈ ks, i ≤ k ∧ k < j := by
  intro ops
  induction ops with
  | nil => intro i j _ _; exact ⟨[], rfl, List.nodup_nil, by simp⟩
  | cons op ops ih =>
    intro i j hij hj
    by_cases he : i = j
    · subst he
      obtain ⟨ks, h1, h2, h3⟩ := ih i i (Nat.le_refl _) hj
      refine ⟨ks, ?_, h2, h3⟩
      cases op <;>
        simp [DIter.handed, h.next (Nat.le_refl i) hj, h.nextBack (Nat.le_refl i) hj, h1]
    · cases op with
      | next =>
        obtain ⟨ks, h1, h2, h3⟩ := ih (i + 1) j (by omega) hj
        refine ⟨i :: ks, ?_, List.nodup_cons.2 ⟨fun hk => ?_, h2⟩, ?_⟩
        · rw [← Nat.add_assoc] at h1
          simp [DIter.handed, h.next hij hj, he, h1]
        · have := h3 i hk; omega
        · intro k hk
          rcases List.mem_cons.1 hk with rfl | hk
          · omega
          · have := h3 k hk; omega
      | nextBack =>
        obtain ⟨ks, h1, h2, h3⟩ := ih i (j - 1) (by omega) (by omega)
        refine ⟨(j - 1) :: ks, ?_, List.nodup_cons.2 ⟨fun hk => ?_, h2⟩, ?_⟩
        · simp [DIter.handed, h.nextBack hij hj, he, h1]
        · have := h3 _ hk; omega
        · intro k hk
          rcases List.mem_cons.1 hk with rfl | hk
          · omega
          · have := h3 k hk; omega

end

end Verif
