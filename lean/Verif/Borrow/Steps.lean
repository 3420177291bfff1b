import Verif.Borrow.Sizes

/-! Every function of the vector with provenance against the one without. -/

set_option autoImplicit false

namespace Verif
open Spec

variable {α P : Type} {K : Rules P} {fine : Nat → Bool} {L : K.Law fine}

/-- The pointers of the vector may do everything with its block. -/
def Owned (L : K.Law fine) (S : P) (m : Mem α) (v : Vec) (t : Nat) : Prop :=
  L.Good S ∧ ((v.beginPtr = .null ∧ v.endPtr = .null) ∨ ∃ b n e, v.beginPtr = .loc b 0 ∧
    v.endPtr = .loc b e ∧ sz m b = some n ∧ 0 < n ∧ e ≤ n ∧ L.Has t b n S)

theorem _root_.Verif.Spec.Rules.Law.pos (L : K.Law fine) {n : Nat} (h : fine n = false) : 0 < n := by
  rcases Nat.eq_zero_or_pos n with rfl | hp
  · rw [L.none] at h
    cases h
  · exact hp

variable {R : RawAlloc α} {S : P} {m m' : Mem α} {v v' : Vec} {t : Nat}

theorem len_loc {b e n : Nat} {w : Vec} (h1 : w.beginPtr = .loc b 0) (h2 : w.endPtr = .loc b e)
    (h : w.len = .ok n) : n = e := by
  rw [Vec.len, h1, h2] at h
  simp [Ptr.offsetFrom] at h
  exact h.symm

theorem Owned.reserve {k : Nat} (H : Owned L S m v t)
    (h : v.reserve (defaultAllocator R) k m = .ok (v', m')) :
    ∃ (t' : Nat) (S' : P),
      TVec.reserve K (defaultAllocator R) k ⟨v, t⟩ ⟨m, S⟩ = .ok (⟨v', t'⟩, ⟨m', S'⟩) ∧
      Owned L S' m' v' t' := by
  unfold Vec.reserve at h
  by_cases hk : k = 0
  · rw [if_pos hk] at h
    cases h
    exact ⟨t, S, by simp [TVec.reserve, hk], H⟩
  rw [if_neg hk] at h
  obtain ⟨size, h1, h⟩ := bind_inv h
  obtain ⟨cap, h2, h⟩ := bind_inv h
  obtain ⟨⟨nb, m1⟩, h3, h⟩ := bind_inv h
  obtain ⟨m2, h4, h⟩ := bind_inv h
  obtain ⟨e, h5, h⟩ := bind_inv h
  obtain ⟨c, h6, h⟩ := bind_inv h
  cases h
  obtain ⟨hpos, b2, rfl, hn, hs1⟩ := alloc_sz h3
  obtain ⟨hA, hAi⟩ := L.allocate H.1 b2 (cap + k)
  cases hall : K.allocate S (.loc b2 0) (cap + k) with
  | mk t1 S1 =>
  rw [hall] at hA hAi
  simp only at hA hAi
  unfold TVec.reserve
  rw [if_neg hk]
  simp only [h1, h2, h3, Exec.ok_bind, hall]
  by_cases hb : v.beginPtr = .null
  · rw [if_pos hb] at h4
    cases h4
    rw [if_pos hb]
    simp only [Exec.ok_bind, h5, h6]
    refine ⟨t1, S1, rfl, L.good hA, .inr ⟨b2, cap + k, size, rfl, ?_, ?_, hpos, ?_, hA⟩⟩
    · rw [(ptrAdd_sz h5).1]; simp
    · rw [hs1]; simp
    · obtain ⟨_, n', z1, z2⟩ := ptrAdd_sz h5
      rw [hs1, Function.update_self] at z1
      cases z1
      omega
  · rw [if_neg hb] at h4 ⊢
    obtain ⟨m3, e3, h4⟩ := bind_inv h4
    obtain ⟨c', e4, h4⟩ := bind_inv h4
    rw [h2] at e4
    obtain rfl := Except.ok.inj e4
    rcases H.2 with ⟨hc, _⟩ | ⟨b, n, en, hbeg, hend, hsz, hnp, hen, HH⟩
    · exact absurd hc hb
    have hbb : b ≠ b2 := by
      intro hc
      rw [hc, hn] at hsz
      cases hsz
    have HB : L.Has t b n S1 := L.frame HH (L.good hA) hAi hbb
    rw [hbeg] at e3 h4 ⊢
    obtain ⟨⟨p1, p2, p3, p4, p5, p6, q1, q2, q3, q4, q5, q6⟩, q7⟩ := copy_sz e3
    cases q1
    cases q2
    obtain ⟨r1, r2⟩ := dealloc_sz h4
    rw [hs1, Function.update_of_ne hbb, hsz] at q3
    cases q3
    rw [hs1, Function.update_self] at q4
    cases q4
    rw [q7, hs1, Function.update_of_ne hbb, hsz] at r1
    obtain rfl := Option.some.inj r1
    obtain ⟨S2, a1, a2, a3⟩ := L.access HB .read (o := 0) (k := size) q5
    have hA2 : L.Has t1 b2 (n + k) S2 := L.frame hA (L.good a2) a3 hbb.symm
    obtain ⟨S3, a4, a5, a6⟩ := L.access hA2 .write (o := 0) (k := size) q6
    have HB3 : L.Has t b n S3 := L.frame a2 (L.good a5) a6 hbb
    obtain ⟨S4, a7, a8, a9⟩ := L.free HB3
    have hA4 : L.Has t1 b2 (n + k) S4 := L.frame a5 a8 a9 hbb.symm
    simp only [a1, a4, e3, a7, h4, Exec.ok_bind, h5, h6]
    refine ⟨t1, S4, rfl, L.good hA4, .inr ⟨b2, n + k, size, rfl, ?_, ?_, hpos, by omega, hA4⟩⟩
    · rw [(ptrAdd_sz h5).1]; simp
    · rw [r2, q7, hs1]; simp [hbb.symm]

theorem Owned.grow (H : Owned L S m v t) (h : v.grow (defaultAllocator R) m = .ok (v', m')) :
    ∃ (t' : Nat) (S' : P),
      TVec.grow K (defaultAllocator R) ⟨v, t⟩ ⟨m, S⟩ = .ok (⟨v', t'⟩, ⟨m', S'⟩) ∧
      Owned L S' m' v' t' := by
  unfold Vec.grow at h
  obtain ⟨c, h1, h⟩ := bind_inv h
  obtain ⟨c', h2, h⟩ := bind_inv h
  rw [h1] at h2
  obtain rfl := Except.ok.inj h2
  obtain ⟨t', S', e, H'⟩ := H.reserve h
  exact ⟨t', S', by simp only [TVec.grow, h1, Exec.ok_bind, e], H'⟩

theorem Owned.growIf {f : Bool} (H : Owned L S m v t)
    (h : (if f = true then v.grow (defaultAllocator R) m else .ok (v, m)) = .ok (v', m')) :
    ∃ (t' : Nat) (S' : P),
      (if f = true then TVec.grow K (defaultAllocator R) ⟨v, t⟩ ⟨m, S⟩ else .ok (⟨v, t⟩, ⟨m, S⟩)) =
        .ok (⟨v', t'⟩, ⟨m', S'⟩) ∧ Owned L S' m' v' t' := by
  cases f with
  | false =>
    cases h
    exact ⟨t, S, rfl, H⟩
  | true => exact H.grow h

theorem Owned.reserveIf {p : Prop} [Decidable p] {k : Nat} (H : Owned L S m v t)
    (h : (if p then v.reserve (defaultAllocator R) k m else .ok (v, m)) = .ok (v', m')) :
    ∃ (t' : Nat) (S' : P),
      (if p then TVec.reserve K (defaultAllocator R) k ⟨v, t⟩ ⟨m, S⟩ else .ok (⟨v, t⟩, ⟨m, S⟩)) =
        .ok (⟨v', t'⟩, ⟨m', S'⟩) ∧ Owned L S' m' v' t' := by
  by_cases hp : p
  · rw [if_pos hp] at h ⊢
    exact H.reserve h
  · rw [if_neg hp] at h ⊢
    cases h
    exact ⟨t, S, rfl, H⟩

/-- A write through the vector's pointer to its block. -/
theorem Owned.block {b e : Nat} (H : Owned L S m v t) (h : v.beginPtr = .loc b 0 ∨ v.endPtr = .loc b e) :
    ∃ n e', v.beginPtr = .loc b 0 ∧ v.endPtr = .loc b e' ∧ sz m b = some n ∧ 0 < n ∧ e' ≤ n ∧ L.Has t b n S := by
  rcases H.2 with ⟨h1, h2⟩ | ⟨b', n, e', h1, h2, h3, h4, h6, h5⟩
  · rw [h1, h2] at h
    rcases h with h | h <;> cases h
  · rw [h1, h2] at h
    rcases h with h | h <;> cases h <;> exact ⟨n, _, h1, h2, h3, h4, h6, h5⟩

theorem Owned.push {x : α} (H : Owned L S m v t)
    (h : v.push (defaultAllocator R) x m = .ok (v', m')) :
    ∃ (t' : Nat) (S' : P),
      TVec.push K (defaultAllocator R) x ⟨v, t⟩ ⟨m, S⟩ = .ok (⟨v', t'⟩, ⟨m', S'⟩) ∧
      Owned L S' m' v' t' := by
  unfold Vec.push at h
  obtain ⟨f, h1, h⟩ := bind_inv h
  obtain ⟨⟨v1, m1⟩, h2, h⟩ := bind_inv h
  obtain ⟨m2, h3, h⟩ := bind_inv h
  obtain ⟨v2, h4, h⟩ := bind_inv h
  cases h
  obtain ⟨t1, S1, e1, H1⟩ := H.growIf h2
  obtain ⟨⟨b, o, n, p1, p2, p3⟩, p4⟩ := write_sz h3
  obtain ⟨n', o', b1, b2, b3, b4, be, b5⟩ := H1.block (.inr p1)
  rw [p2] at b3
  obtain rfl := Option.some.inj b3
  rw [p1] at b2
  cases b2
  obtain ⟨S2, a1, a2, _⟩ := L.access b5 .write (o := o) (k := 1) (by omega)
  unfold Vec.incrementSize at h4
  obtain ⟨q, h5, h4⟩ := bind_inv h4
  cases h4
  refine ⟨t1, S2, ?_, L.good a2, .inr ⟨b, n, o + 1, b1, ?_, by rw [p4]; exact p2, b4, by omega, a2⟩⟩
  · simp only [TVec.push, h1, Exec.ok_bind, e1, p1, a1]
    rw [p1] at h3 h5
    simp only [h3, Exec.ok_bind, Vec.incrementSize, p1, h5]
  · rw [p1] at h5
    exact (ptrAdd_sz h5).1

theorem Owned.pop {o : Option α} (H : Owned L S m v t) (h : v.pop m = .ok (o, v')) :
    ∃ S' : P, TVec.pop K ⟨v, t⟩ ⟨m, S⟩ = .ok (o, ⟨v', t⟩, ⟨m, S'⟩) ∧ Owned L S' m v' t := by
  unfold Vec.pop at h
  obtain ⟨e, h1, h⟩ := bind_inv h
  cases e with
  | true =>
    cases h
    exact ⟨S, by simp [TVec.pop, h1], H⟩
  | false =>
    simp only [Bool.false_eq_true, if_false] at h
    obtain ⟨w, h2, h⟩ := bind_inv h
    obtain ⟨x, h3, h⟩ := bind_inv h
    cases h
    have h2' := h2
    unfold Vec.decrementSize at h2
    obtain ⟨q, h4, h2⟩ := bind_inv h2
    cases h2
    rcases H.2 with ⟨c1, c2⟩ | ⟨b, n, en, c1, c2, c3, c4, ce, c5⟩
    · rw [c2] at h4
      cases h4
    · rw [c2] at h4
      have hq := ptrSub_sz h4
      subst hq
      obtain ⟨b', o', n', p1, p2, p3⟩ := read_sz h3
      cases p1
      rw [c3] at p2
      obtain rfl := Option.some.inj p2
      obtain ⟨S2, a1, a2, _⟩ := L.access c5 .read (o := en - 1) (k := 1) (by omega)
      refine ⟨S2, ?_, L.good a2, .inr ⟨b, n, en - 1, c1, rfl, c3, c4, by omega, a2⟩⟩
      simp only [TVec.pop, h1, Exec.ok_bind, Bool.false_eq_true, if_false, h2', a1, h3]

theorem Owned.insert {i : Nat} {x : α} (H : Owned L S m v t)
    (h : v.insert (defaultAllocator R) i x m = .ok (v', m')) :
    ∃ (t' : Nat) (S' : P),
      TVec.insert K (defaultAllocator R) i x ⟨v, t⟩ ⟨m, S⟩ = .ok (⟨v', t'⟩, ⟨m', S'⟩) ∧
      Owned L S' m' v' t' := by
  unfold Vec.insert at h
  obtain ⟨n, h1, h⟩ := bind_inv h
  by_cases hi : i ≤ n
  swap
  · rw [if_neg hi] at h; cases h
  rw [if_pos hi] at h
  obtain ⟨f, h2, h⟩ := bind_inv h
  obtain ⟨⟨v1, m1⟩, h3, h⟩ := bind_inv h
  obtain ⟨src, h4, h⟩ := bind_inv h
  obtain ⟨dst, h5, h⟩ := bind_inv h
  obtain ⟨l, h6, h⟩ := bind_inv h
  obtain ⟨m2, h7, h⟩ := bind_inv h
  obtain ⟨p, h8, h⟩ := bind_inv h
  obtain ⟨m3, h9, h⟩ := bind_inv h
  obtain ⟨v2, h10, h⟩ := bind_inv h
  cases h
  obtain ⟨t1, S1, e1, H1⟩ := H.growIf h3
  rcases H1.2 with ⟨c1, c2⟩ | ⟨b, n1, en, c1, c2, c3, c4, ce, c5⟩
  · rw [c1] at h5
    cases h5
  have h4' := h4
  have h5' := h5
  have h8' := h8
  rw [c1] at h4' h5' h8'
  obtain ⟨rfl, _⟩ := ptrAdd_sz h4'
  obtain ⟨rfl, _⟩ := ptrAdd_sz h5'
  obtain ⟨rfl, _⟩ := ptrAdd_sz h8'
  obtain ⟨⟨p1, p2, p3, p4, p5, p6, q1, q2, q3, q4, q5, q6⟩, q7⟩ := copy_sz h7
  cases q1
  cases q2
  rw [c3] at q3 q4
  cases q3
  cases q4
  obtain ⟨⟨p1, p2, p3, r1, r2, r3⟩, r4⟩ := write_sz h9
  cases r1
  rw [q7, c3] at r2
  cases r2
  obtain ⟨S2, a1, a2, _⟩ := L.access c5 .read q5
  obtain ⟨S3, a3, a4, _⟩ := L.access a2 .write q6
  obtain ⟨S4, a5, a6, _⟩ := L.access a4 .write (o := 0 + i) (k := 1) (by omega)
  have h10' := h10
  unfold Vec.incrementSize at h10'
  obtain ⟨q, h11, h10'⟩ := bind_inv h10'
  cases h10'
  refine ⟨t1, S4, ?_, L.good a6, .inr ⟨b, _, en + 1, c1, ?_, by rw [r4, q7]; exact c3, c4, ?_, a6⟩⟩
  · simp only [TVec.insert, h1, Exec.ok_bind, if_pos hi, h2, e1, h4, h5, h6, a1, a3, h7, h8, a5, h9, h10]
  · rw [c2] at h11
    exact (ptrAdd_sz h11).1
  · rw [c2] at h11
    obtain ⟨_, n', z1, z2⟩ := ptrAdd_sz h11
    rw [r4, q7, c3] at z1
    cases z1
    exact z2

theorem Owned.remove {i : Nat} {o : Option α} (H : Owned L S m v t)
    (h : v.remove i m = .ok (o, v', m')) :
    ∃ S' : P, TVec.remove K i ⟨v, t⟩ ⟨m, S⟩ = .ok (o, ⟨v', t⟩, ⟨m', S'⟩) ∧ Owned L S' m' v' t := by
  unfold Vec.remove at h
  obtain ⟨n, h1, h⟩ := bind_inv h
  by_cases hi : n ≤ i
  · rw [if_pos hi] at h
    cases h
    exact ⟨S, by simp [TVec.remove, h1, hi], H⟩
  rw [if_neg hi] at h
  obtain ⟨p, h2, h⟩ := bind_inv h
  obtain ⟨res, h3, h⟩ := bind_inv h
  obtain ⟨w, h4, h⟩ := bind_inv h
  obtain ⟨dst, h5, h⟩ := bind_inv h
  obtain ⟨src, h6, h⟩ := bind_inv h
  obtain ⟨l, h7, h⟩ := bind_inv h
  obtain ⟨m2, h8, h⟩ := bind_inv h
  cases h
  have h4' := h4
  unfold Vec.decrementSize at h4'
  obtain ⟨q, h9, h4'⟩ := bind_inv h4'
  cases h4'
  rcases H.2 with ⟨c1, c2⟩ | ⟨b, n1, en, c1, c2, c3, c4, ce, c5⟩
  · have := h6
    rw [c1] at this
    cases this
  have h2' := h2
  have h5' := h5
  have h6' := h6
  rw [c1] at h2' h5' h6'
  obtain ⟨rfl, _⟩ := ptrAdd_sz h2'
  obtain ⟨rfl, _⟩ := ptrAdd_sz h5'
  obtain ⟨rfl, _⟩ := ptrAdd_sz h6'
  obtain ⟨p1, p2, p3, r1, r2, r3⟩ := read_sz h3
  cases r1
  rw [c3] at r2
  cases r2
  obtain ⟨⟨p1, p2, p3, p4, p5, p6, q1, q2, q3, q4, q5, q6⟩, q7⟩ := copy_sz h8
  cases q1
  cases q2
  rw [c3] at q3 q4
  cases q3
  cases q4
  obtain ⟨S2, a1, a2, _⟩ := L.access c5 .read (o := 0 + i) (k := 1) (by omega)
  obtain ⟨S3, a3, a4, _⟩ := L.access a2 .read q5
  obtain ⟨S4, a5, a6, _⟩ := L.access a4 .write q6
  refine ⟨S4, ?_, L.good a6, .inr ⟨b, _, en - 1, c1, ?_, by rw [q7]; exact c3, c4, by omega, a6⟩⟩
  · simp only [TVec.remove, h1, Exec.ok_bind, if_neg hi, h2, a1, h3, h4, h6, h7, a3, a5, h8]
  · rw [c2] at h9
    exact ptrSub_sz h9

/-! ## Calls that form a slice -/

theorem Owned.asSlice {xs : List α} {n : Nat} (H : Owned L S m v t) (hl : v.len = .ok n) (hn : fine n = true)
    (h : v.asSlice m = .ok xs) :
    ∃ S' : P, TVec.asSlice K ⟨v, t⟩ ⟨m, S⟩ = .ok (xs, ⟨m, S'⟩) ∧ Owned L S' m v t := by
  unfold Vec.asSlice at h
  unfold TVec.asSlice
  rcases H.2 with ⟨c1, c2⟩ | ⟨b, k, en, c1, c2, c3, c4, ce, c5⟩
  · rw [if_pos c1] at h ⊢
    cases h
    exact ⟨S, rfl, H⟩
  · have hb : v.beginPtr ≠ .null := by rw [c1]; simp
    rw [if_neg hb] at h ⊢
    simp only [hl, Exec.ok_bind] at h ⊢
    obtain ⟨s, S1, e1, H1, ht⟩ := L.slice c5 c4 hn (by have := len_loc c1 c2 hl; omega)
    obtain ⟨S2, e2, H2⟩ := ht (0) (n) (by omega) (by omega)
    simp only [c1] at h ⊢
    simp only [e1, Exec.ok_bind, e2, h]
    exact ⟨S2, rfl, L.good H2, .inr ⟨b, k, en, c1, c2, c3, c4, ce, H2⟩⟩

theorem Owned.asSlice_wide {n : Nat} (H : Owned L S m v t) (hl : v.len = .ok n) (hn : fine n = false) :
    TVec.asSlice K ⟨v, t⟩ ⟨m, S⟩ = .error .ub := by
  unfold TVec.asSlice
  have hb : v.beginPtr ≠ .null := by
    intro hc
    rcases H.2 with ⟨c1, c2⟩ | ⟨b, k, en, c1, _⟩
    · rw [Vec.len, c1, c2] at hl
      cases hl
      have := L.pos hn
      omega
    · rw [hc] at c1
      cases c1
  rw [if_neg hb]
  simp only [hl, Exec.ok_bind, L.slice_wide H.1 t v.beginPtr hn, Exec.error_bind]

theorem Owned.begin_ne {n : Nat} (H : Owned L S m v t) (hl : v.len = .ok n) (hn : 0 < n) :
    v.beginPtr ≠ .null := by
  intro hc
  rcases H.2 with ⟨c1, c2⟩ | ⟨b, k, en, c1, _⟩
  · rw [Vec.len, c1, c2] at hl
    cases hl
    omega
  · rw [hc] at c1
    cases c1

theorem Owned.clear {nd : Bool} {n : Nat} (H : Owned L S m v t) (hl : v.len = .ok n) (hn : fine n = true)
    (h : v.clear (defaultAllocator R) nd m = .ok (v', m')) :
    ∃ (t' : Nat) (S' : P),
      TVec.clear K (defaultAllocator R) nd ⟨v, t⟩ ⟨m, S⟩ = .ok (⟨v', t'⟩, ⟨m', S'⟩) ∧ Owned L S' m' v' t' := by
  unfold Vec.clear at h
  unfold TVec.clear
  rcases H.2 with ⟨c1, c2⟩ | ⟨b, k, en, c1, c2, c3, c4, ce, c5⟩
  · simp only [c1, if_true, Exec.ok_bind] at h ⊢
    cases h
    exact ⟨0, S, rfl, H.1, .inl ⟨rfl, rfl⟩⟩
  · have hb : v.beginPtr ≠ .null := by rw [c1]; simp
    simp only [hb, if_false, hl, Exec.ok_bind] at h ⊢
    obtain ⟨m1, h1, h⟩ := bind_inv h
    obtain ⟨m2, h2, h1⟩ := bind_inv h1
    obtain ⟨c, h3, h1⟩ := bind_inv h1
    cases h
    obtain ⟨s, S1, e1, H1, ht⟩ := L.sliceMut c5 c4 hn (by have := len_loc c1 c2 hl; omega)
    obtain ⟨S2, e2, H2⟩ : ∃ S2 : P,
        (if nd = true then K.access S1 s .write (.loc b 0) n else .ok S1) = .ok S2 ∧ L.Has t b k S2 := by
      cases nd with
      | false => exact ⟨S1, rfl, H1⟩
      | true => exact ht (0) (n) (by omega) (by omega)
    have hd := h1
    rw [c1] at hd
    obtain ⟨r1, r2⟩ := dealloc_sz hd
    rw [dropRange_sz h2, c3] at r1
    obtain rfl := Option.some.inj r1
    obtain ⟨S3, e3, f3, _⟩ := L.free H2
    simp only [c1] at h1 h2 ⊢
    simp only [e1, Exec.ok_bind, e2, h2, h3, e3, h1]
    exact ⟨0, S3, rfl, f3, .inl ⟨rfl, rfl⟩⟩

theorem Owned.clear_wide {nd : Bool} {n : Nat} (H : Owned L S m v t) (hl : v.len = .ok n) (hn : fine n = false) :
    TVec.clear K (defaultAllocator R) nd ⟨v, t⟩ ⟨m, S⟩ = .error .ub := by
  unfold TVec.clear
  simp only [H.begin_ne hl (L.pos hn), if_false, hl, Exec.ok_bind, L.sliceMut_wide H.1 t v.beginPtr hn,
    Exec.error_bind]

theorem Owned.setAt {nd : Bool} {i n : Nat} {x : α} (H : Owned L S m v t) (hl : v.len = .ok n) (hn : fine n = true)
    (h : v.setAt nd i x m = .ok m') :
    ∃ S' : P, TVec.setAt K nd i x ⟨v, t⟩ ⟨m, S⟩ = .ok ⟨m', S'⟩ ∧ Owned L S' m' v t := by
  unfold Vec.setAt at h
  unfold TVec.setAt
  rcases H.2 with ⟨c1, c2⟩ | ⟨b, k, en, c1, c2, c3, c4, ce, c5⟩
  · simp [c1] at h
  · have hb : v.beginPtr ≠ .null := by rw [c1]; simp
    simp only [hb, if_false, hl, Exec.ok_bind] at h ⊢
    obtain ⟨s, S1, e1, H1, ht⟩ := L.sliceMut c5 c4 hn (by have := len_loc c1 c2 hl; omega)
    by_cases hi : i < n
    swap
    · rw [if_neg hi] at h; cases h
    rw [if_pos hi] at h
    obtain ⟨p, h1, h⟩ := bind_inv h
    obtain ⟨m1, h2, h⟩ := bind_inv h
    have hp := h1
    rw [c1] at hp
    obtain ⟨rfl, _⟩ := ptrAdd_sz hp
    obtain ⟨S2, e2, H2⟩ := ht (0 + i) (1) (by omega) (by omega)
    simp only [c1] at h1 ⊢
    simp only [e1, Exec.ok_bind, if_pos hi, h1, e2, h2, h]
    exact ⟨S2, rfl, L.good H2, .inr ⟨b, k, en, c1, c2, by rw [(write_sz h).2, dropCell_sz h2]; exact c3, c4, ce, H2⟩⟩

theorem Owned.setAt_panic {nd : Bool} {i n : Nat} {x : α} (H : Owned L S m v t) (hl : v.len = .ok n)
    (hn : fine n = true) (hi : ¬ i < n) : TVec.setAt K nd i x ⟨v, t⟩ ⟨m, S⟩ = .error .panic := by
  unfold TVec.setAt
  rcases H.2 with ⟨c1, c2⟩ | ⟨b, k, en, c1, c2, c3, c4, ce, c5⟩
  · simp [c1]
  · have hb : v.beginPtr ≠ .null := by rw [c1]; simp
    obtain ⟨s, S1, e1, H1, ht⟩ := L.sliceMut c5 c4 hn (by have := len_loc c1 c2 hl; omega)
    simp only [hb, if_false, hl, Exec.ok_bind]
    simp only [c1, e1, Exec.ok_bind, if_neg hi]

theorem Owned.setAt_wide {nd : Bool} {i n : Nat} {x : α} (H : Owned L S m v t) (hl : v.len = .ok n)
    (hn : fine n = false) : TVec.setAt K nd i x ⟨v, t⟩ ⟨m, S⟩ = .error .ub := by
  unfold TVec.setAt
  simp only [H.begin_ne hl (L.pos hn), if_false, hl, Exec.ok_bind, L.sliceMut_wide H.1 t v.beginPtr hn,
    Exec.error_bind]

/-- `append` and `assign` end alike: the end pointer is moved, a slice of everything is made, and a
part of it is written. -/
theorem Owned.fill {nd : Bool} {buf : List α} {q e : Ptr} {o k : Nat} (H : Owned L S m v t)
    (hq : q = v.beginPtr ∨ q = v.endPtr)
    (he : m.ptrAdd q buf.length = .ok e)
    (hlen : ∀ n, ({ v with endPtr := e } : Vec).len = .ok n → n = k)
    (hb : v.beginPtr ≠ .null)
    (hk : fine k = true) (hok : o + buf.length = k)
    {p : Ptr} (hp : m.ptrAdd v.beginPtr o = .ok p) (h : m.cloneFrom nd p buf = .ok m') :
    ∃ (s : Nat) (S1 S' : P), ({ v with endPtr := e } : Vec).len = .ok k ∧
      K.sliceMut S t v.beginPtr k = .ok (s, S1) ∧ K.access S1 s .write p buf.length = .ok S' ∧
      Owned L S' m' { v with endPtr := e } t := by
  rcases H.2 with ⟨c1, c2⟩ | ⟨b, n, en, c1, c2, c3, c4, ce, c5⟩
  · exact absurd c1 hb
  obtain ⟨e', he', hle⟩ : ∃ e', e = .loc b e' ∧ e' ≤ n := by
    rcases hq with rfl | rfl
    · rw [c1] at he
      obtain ⟨z0, n', z1, z2⟩ := ptrAdd_sz he
      rw [c3] at z1
      cases z1
      exact ⟨_, z0, z2⟩
    · rw [c2] at he
      obtain ⟨z0, n', z1, z2⟩ := ptrAdd_sz he
      rw [c3] at z1
      cases z1
      exact ⟨_, z0, z2⟩
  have hl : ({ v with endPtr := e } : Vec).len = .ok e' := by
    simp [Vec.len, c1, he', Ptr.offsetFrom]
  have := hlen _ hl
  subst this
  obtain ⟨s, S1, e1, H1, ht⟩ := L.sliceMut c5 c4 hk (by omega)
  have hp' := hp
  rw [c1] at hp'
  obtain ⟨rfl, _⟩ := ptrAdd_sz hp'
  obtain ⟨S2, e2, H2⟩ := ht (0 + o) (buf.length) (by omega) (by omega)
  exact ⟨s, S1, S2, hl, by rw [c1]; exact e1, e2, L.good H2,
    .inr ⟨b, n, e', c1, he', by rw [cloneFrom_sz h]; exact c3, c4, hle, H2⟩⟩

theorem Owned.append {nd : Bool} {buf : List α} {n : Nat} (H : Owned L S m v t)
    (h : v.append (defaultAllocator R) nd buf m = .ok (v', m')) (hl : v.len = .ok n)
    (hl' : v'.len = .ok (n + buf.length)) :
    if fine (n + buf.length) = false then
      TVec.append K (defaultAllocator R) nd buf ⟨v, t⟩ ⟨m, S⟩ = .error .ub
    else ∃ (t' : Nat) (S' : P),
      TVec.append K (defaultAllocator R) nd buf ⟨v, t⟩ ⟨m, S⟩ = .ok (⟨v', t'⟩, ⟨m', S'⟩) ∧
      Owned L S' m' v' t' := by
  unfold Vec.append at h
  simp only [hl, Exec.ok_bind] at h
  obtain ⟨cap, h1, h⟩ := bind_inv h
  obtain ⟨⟨v1, m1⟩, h2, h⟩ := bind_inv h
  obtain ⟨e, h3, h⟩ := bind_inv h
  obtain ⟨t1, S1, e1, H1⟩ := H.reserveIf h2
  unfold TVec.append
  simp only [hl, Exec.ok_bind, h1, e1, h3]
  by_cases hb : v1.beginPtr = .null
  · rw [if_pos hb] at h ⊢
    cases h
    rcases H1.2 with ⟨c1, c2⟩ | ⟨b, k, en, c1, _⟩
    · have he : e = .null := by
        rw [c2] at h3
        simp only [Mem.ptrAdd] at h3
        split_ifs at h3
        cases h3
        rfl
      subst he
      have h0 : n + buf.length = 0 := by
        rw [Vec.len] at hl'
        simp only [c1] at hl'
        exact (Except.ok.inj hl').symm
      rw [h0, if_neg (by simp [L.none])]
      exact ⟨t1, S1, rfl, H1.1, .inl ⟨c1, rfl⟩⟩
    · rw [hb] at c1
      cases c1
  · rw [if_neg hb] at h ⊢
    obtain ⟨p, h4, h⟩ := bind_inv h
    obtain ⟨m2, h5, h⟩ := bind_inv h
    cases h
    simp only [hl', Exec.ok_bind]
    by_cases hk : fine (n + buf.length) = false
    · rw [if_pos hk]
      simp only [L.sliceMut_wide H1.1 t1 v1.beginPtr hk, Exec.error_bind]
    · rw [if_neg hk]
      obtain ⟨s, S2, S3, f1, f2, f3, f4⟩ := H1.fill (.inr rfl) h3
        (fun k hk => by rw [hl'] at hk; exact (Except.ok.inj hk).symm) hb (by simpa using hk) rfl h4 h5
      simp only [f2, Exec.ok_bind, h4, f3, h5]
      exact ⟨t1, S3, rfl, f4⟩

theorem Owned.assign {nd : Bool} {buf : List α} (H : Owned L S m v t)
    (h : v.assign (defaultAllocator R) nd buf m = .ok (v', m'))
    (hl' : v'.len = .ok buf.length) :
    if fine buf.length = false then
      TVec.assign K (defaultAllocator R) nd buf ⟨v, t⟩ ⟨m, S⟩ = .error .ub
    else ∃ (t' : Nat) (S' : P),
      TVec.assign K (defaultAllocator R) nd buf ⟨v, t⟩ ⟨m, S⟩ = .ok (⟨v', t'⟩, ⟨m', S'⟩) ∧
      Owned L S' m' v' t' := by
  unfold Vec.assign at h
  obtain ⟨cap, h1, h⟩ := bind_inv h
  obtain ⟨⟨v1, m1⟩, h2, h⟩ := bind_inv h
  obtain ⟨e, h3, h⟩ := bind_inv h
  obtain ⟨t1, S1, e1, H1⟩ := H.reserveIf h2
  unfold TVec.assign
  simp only [Exec.ok_bind, h1, e1, h3]
  by_cases hb : v1.beginPtr = .null
  · rw [if_pos hb] at h ⊢
    cases h
    rcases H1.2 with ⟨c1, c2⟩ | ⟨b, k, en, c1, _⟩
    · have he : e = .null := by
        rw [c1] at h3
        simp only [Mem.ptrAdd] at h3
        split_ifs at h3
        cases h3
        rfl
      subst he
      have h0 : buf.length = 0 := by
        rw [Vec.len] at hl'
        simp only [c1] at hl'
        exact (Except.ok.inj hl').symm
      rw [h0, if_neg (by simp [L.none])]
      exact ⟨t1, S1, rfl, H1.1, .inl ⟨c1, rfl⟩⟩
    · rw [hb] at c1
      cases c1
  · rw [if_neg hb] at h ⊢
    obtain ⟨m2, h5, h⟩ := bind_inv h
    cases h
    simp only [hl', Exec.ok_bind]
    by_cases hk : fine buf.length = false
    · rw [if_pos hk]
      simp only [L.sliceMut_wide H1.1 t1 v1.beginPtr hk, Exec.error_bind]
    · rw [if_neg hk]
      have h4 : m1.ptrAdd v1.beginPtr 0 = .ok v1.beginPtr := by
        rcases H1.2 with ⟨c1, c2⟩ | ⟨b, k, en, c1, c2, c3, c4, ce, c5⟩
        · exact absurd c1 hb
        · rw [c1, Mem.ptrAdd]
          unfold sz at c3
          cases hm : m1.live b with
          | none => rw [hm] at c3; cases c3
          | some blk => simp
      obtain ⟨s, S2, S3, f1, f2, f3, f4⟩ := H1.fill (.inl rfl) h3
        (fun k hk => by rw [hl'] at hk; exact (Except.ok.inj hk).symm) hb (by simpa using hk) (by omega) h4 h5
      simp only [f2, Exec.ok_bind, f3, h5]
      exact ⟨t1, S3, rfl, f4⟩

end Verif
