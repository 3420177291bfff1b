import Verif.Deque.Iter
import Verif.Unwind.Model

/-! A deque whose elements' destructors panic. -/

set_option autoImplicit false

namespace Verif

variable {α : Type}

/-- The `for elem in self.iter_mut()` loop of `drop` (src/deque/mod.rs:439-441) for an element type
whose destructor panics if `bad`.  It is a loop of the crate and no drop glue: the panic leaves it
at once, and nothing catches it. -/
def dropElemsP (bad : α → Bool) : Nat → DIter → DMem α → Exec (Ends (DMem α))
  | 0, _, _ => .error .ub
  | fuel + 1, it, m => do
    let (p, it) ← it.next m
    match p with
    | none => .ok (.returns m)
    | some p => do
      let x ← m.t.read p
      let m : DMem α := { m with t := { m.t with dropped := m.t.dropped ++ [x] } }
      if bad x then .ok (.unwinds m) else dropElemsP bad fuel it m

/-- `Drop` (src/deque/mod.rs:436-457) for such a type.  After a panic only the fields are dropped:
raw pointers, and the allocator, which has no destructor in this crate. -/
def Deque.dropP (E : DEnv α) (bad : α → Bool) (d : Deque) (m : DMem α) :
    Exec (Ends (DMem α)) := do
  let it ← d.iter
  match ← dropElemsP bad (d.size * E.S + 1) it m with
  | .returns m => do
    let n ← d.e.arr.offsetFrom d.b.arr
    let m ← (if d.b.arr = .null then .ok m else freeSubs E n d.b.arr m)
    let m ← d.freePtrs E m
    .ok (.returns m)
  | .unwinds m => .ok (.unwinds m)
  | .aborts => .ok .aborts

section
variable {E : DEnv α} {wt : World α} {wp : World Ptr} {d : Deque} {pb lo bo : Nat}
  {bl : List Nat} {xs : List α}

/-- The loop without a bad element: that of the model without panics. -/
theorem dropElemsP_returns (hnd : E.nd = true) (bad : α → Bool) :
    ∀ (n i fuel : Nat) (m : DMem α), DRep E wt wp m d pb lo bo bl xs →
    i + n = xs.length → n < fuel → (∀ x ∈ xs, bad x = false) →
    ∃ t, dropElemsP bad fuel (iterAt E.S pb lo bl (bo + i) (bo + xs.length)) m =
        .ok (.returns { m with t := t }) ∧
      dropElems E fuel (iterAt E.S pb lo bl (bo + i) (bo + xs.length)) m =
        .ok { m with t := t } := by
  intro n
  induction n with
  | zero =>
    intro i fuel m h hi hf _
    obtain ⟨fuel, rfl⟩ : ∃ f, fuel = f + 1 := ⟨fuel - 1, by omega⟩
    have hn := h.next (show i ≤ xs.length by omega) (Nat.le_refl _)
    rw [if_pos (by omega)] at hn
    exact ⟨m.t, by simp only [dropElemsP, hn, Exec.ok_bind],
      by simp only [dropElems, hn, Exec.ok_bind]⟩
  | succ n ih =>
    intro i fuel m h hi hf hb
    obtain ⟨fuel, rfl⟩ : ∃ f, fuel = f + 1 := ⟨fuel - 1, by omega⟩
    have hil : i < xs.length := by omega
    have hr := h.head? hil
    have hn := h.next (show i ≤ xs.length by omega) (Nat.le_refl _)
    rw [if_neg (by omega), Nat.add_assoc] at hn
    have h' : DRep E wt wp { m with t := { m.t with dropped := m.t.dropped ++ [xs[i]] } } d pb lo
        bo bl xs := h.congr rfl rfl
    obtain ⟨t, h1, h2⟩ := ih (i + 1) fuel _ h' (by omega) (by omega) hb
    refine ⟨t, ?_, ?_⟩
    · simp only [dropElemsP, hn, Exec.ok_bind, hr, hb _ (List.getElem_mem hil), Bool.false_eq_true,
        if_false]
      exact h1
    · simp only [dropElems, hn, Exec.ok_bind, hnd, Mem.dropCell, hr, if_true]
      exact h2

/-- The loop with a first bad element at `j`. -/
theorem dropElemsP_unwinds (bad : α → Bool) {j : Nat} (hj : j < xs.length) (hbj : bad xs[j] = true)
    (hpre : ∀ (k : Nat) (hk : k < xs.length), k < j → bad xs[k] = false) :
    ∀ (n i fuel : Nat) (m : DMem α), DRep E wt wp m d pb lo bo bl xs → i + n = j → n < fuel →
    dropElemsP bad fuel (iterAt E.S pb lo bl (bo + i) (bo + xs.length)) m =
      .ok (.unwinds { m with t := { m.t with
        dropped := m.t.dropped ++ (xs.drop i).take (n + 1) } }) := by
  intro n
  induction n with
  | zero =>
    intro i fuel m h hi hf
    obtain rfl : i = j := by omega
    obtain ⟨fuel, rfl⟩ : ∃ f, fuel = f + 1 := ⟨fuel - 1, by omega⟩
    have hr := h.head? hj
    have hn := h.next (show i ≤ xs.length by omega) (Nat.le_refl _)
    rw [if_neg (by omega)] at hn
    have hc : (xs.drop i).take 1 = [xs[i]] := by
      rw [List.drop_eq_getElem_cons hj, List.take_succ_cons, List.take_zero]
    simp only [dropElemsP, hn, Exec.ok_bind, hr, hbj, if_true, hc, Nat.zero_add]
  | succ n ih =>
    intro i fuel m h hi hf
    obtain ⟨fuel, rfl⟩ : ∃ f, fuel = f + 1 := ⟨fuel - 1, by omega⟩
    have hil : i < xs.length := by omega
    have hr := h.head? hil
    have hn := h.next (show i ≤ xs.length by omega) (Nat.le_refl _)
    rw [if_neg (by omega), Nat.add_assoc] at hn
    have h' : DRep E wt wp { m with t := { m.t with dropped := m.t.dropped ++ [xs[i]] } } d pb lo
        bo bl xs := h.congr rfl rfl
    have h1 := ih (i + 1) fuel _ h' (by omega) (by omega)
    have hc : (xs.drop i).take (n + 1 + 1) = xs[i] :: (xs.drop (i + 1)).take (n + 1) := by
      rw [List.drop_eq_getElem_cons hil, List.take_succ_cons]
    simp only [dropElemsP, hn, Exec.ok_bind, hr, hpre i hil (by omega), Bool.false_eq_true, if_false]
    rw [h1, hc]
    simp

theorem DRep.dropFuel {m : DMem α} (h : DRep E wt wp m d pb lo bo bl xs) :
    xs.length < d.size * E.S + 1 := by
  have hS := h.S_pos
  have h1 := Nat.div_add_mod (bo + xs.length) E.S
  have h2 := Nat.mod_lt (bo + xs.length) hS
  have h3 : bl.length * E.S ≤ d.size * E.S :=
    Nat.mul_le_mul_right _ (by have := h.p.fits; omega)
  rw [h.len, Nat.add_mul, Nat.one_mul, Nat.mul_comm] at h3
  omega

/-- Dropping a deque none of whose elements is bad. -/
theorem DRep.dropP_returns {m m' : DMem α} (h : DRep E wt wp m d pb lo bo bl xs)
    (hnd : E.nd = true) (bad : α → Bool) (hb : ∀ x ∈ xs, bad x = false)
    (hd : d.drop E m = .ok m') : d.dropP E bad m = .ok (.returns m') := by
  obtain ⟨t, e1, e2⟩ := dropElemsP_returns hnd bad xs.length 0 _ m h (by omega) h.dropFuel hb
  unfold Deque.drop at hd
  unfold Deque.dropP
  simp only [Nat.add_zero] at e1 e2
  simp only [h.iter, Exec.ok_bind, e1, e2] at hd ⊢
  cases hn : d.e.arr.offsetFrom d.b.arr with
  | error e => rw [hn] at hd; cases hd
  | ok n =>
    simp only [hn, Exec.ok_bind] at hd ⊢
    split_ifs at hd ⊢
    · simp only [Exec.ok_bind] at hd ⊢; rw [hd]; rfl
    · cases hf : freeSubs E n d.b.arr { m with t := t } with
      | error e => rw [hf] at hd; cases hd
      | ok m1 => simp only [hf, Exec.ok_bind] at hd ⊢; rw [hd]; rfl

/-- Dropping a deque with a bad element. -/
theorem DRep.dropP_unwinds {m : DMem α} {pre post : List α} {x : α}
    (h : DRep E wt wp m d pb lo bo bl (pre ++ x :: post)) (bad : α → Bool) (hx : bad x = true)
    (hpre : ∀ y ∈ pre, bad y = false) :
    d.dropP E bad m = .ok (.unwinds { m with t := { m.t with
      dropped := m.t.dropped ++ (pre ++ [x]) } }) := by
  have hl : pre.length < (pre ++ x :: post).length := by simp
  have hf := h.dropFuel
  have e1 := dropElemsP_unwinds bad hl (by simpa using hx) (fun k hk hkj => by
    rw [List.getElem_append_left hkj]; exact hpre _ (List.getElem_mem hkj)) pre.length 0
    (d.size * E.S + 1) m h (by omega) (by omega)
  have ht : (pre ++ x :: post).take (pre.length + 1) = pre ++ [x] := by
    rw [List.take_length_add_append]; simp
  unfold Deque.dropP
  simp only [Nat.add_zero, List.drop_zero] at e1
  simp only [h.iter, Exec.ok_bind, e1, ht]

end
end Verif
