import Verif.FixedVector.Proofs

/-! Invariant of a `FixedVector` through calls, moves and destruction. -/

set_option autoImplicit false

namespace Verif
open Spec

variable {α : Type}

/-- The object's own buffer is the allocator's pool.  `w0` is the memory of everybody else. -/
structure FInvA (w0 : World α) (f : FVec) (m : Mem α) (xs : List α) (cap : Nat) : Prop where
  pool : f.pool = .loc f.buf 0
  pos : 0 < f.count
  out : w0 f.buf = none
  inv : VInv (fun b => b = f.buf) (fixedFits f.buf) w0 m f.vec xs cap
  inl : f.vec.beginPtr = .loc f.buf 0 → cap = f.count

/-- The pool pointer is that of a former buffer `s`, from before a move. -/
structure FInvB (R : RawAlloc α) (w0 : World α) (f : FVec) (m : Mem α) (xs : List α) (cap s : Nat)
    (w : World α) : Prop where
  pool : f.pool = .loc s 0
  pos : 0 < f.count
  out : w0 f.buf = none
  never : ∀ m n, R.pick m n ≠ s
  off : ∀ p, p ≠ f.buf → w p = w0 p
  buf : w f.buf ≠ none
  inv : VInv (fun _ => False) (staleFits s) w m f.vec xs cap

def FInv (R : RawAlloc α) (w0 : World α) (f : FVec) (m : Mem α) (xs : List α) (cap : Nat) : Prop :=
  FInvA w0 f m xs cap ∨ ∃ s w, FInvB R w0 f m xs cap s w

variable {R : RawAlloc α} {w0 : World α} {f : FVec} {m : Mem α} {xs : List α} {cap : Nat}

theorem FInv.exists_inv (h : FInv R w0 f m xs cap) :
    ∃ keeps fits w, VInv keeps fits w m f.vec xs cap := by
  rcases h with h | ⟨s, w, h⟩
  · exact ⟨_, _, _, h.inv⟩
  · exact ⟨_, _, _, h.inv⟩

theorem FInv.slice (h : FInv R w0 f m xs cap) : f.vec.asSlice m = .ok xs := by
  obtain ⟨_, _, _, h⟩ := h.exists_inv; exact h.slice
theorem FInv.len (h : FInv R w0 f m xs cap) : f.vec.len = .ok xs.length := by
  obtain ⟨_, _, _, h⟩ := h.exists_inv; exact h.len
theorem FInv.capacity (h : FInv R w0 f m xs cap) : f.vec.capacity = .ok cap := by
  obtain ⟨_, _, _, h⟩ := h.exists_inv; exact h.capacity

theorem FInvA.new {n d : Nat} (hn : 0 < n) (m0 : Mem α) (hd : m0.live d = none) :
    ∃ f m, FVec.newIn n d m0 = .ok (f, m) ∧ FInvA m0.live f m [] n ∧ f.buf = d ∧ f.count = n ∧
      f.hasOverflowed = false ∧ m.dropped = m0.dropped ∧ m.allocs = m0.allocs := by
  have hn' : n ≠ 0 := by omega
  refine ⟨⟨⟨.loc d 0, .loc d 0, .loc d n⟩, .loc d 0, d, n⟩, FVec.storage n d m0, ?_,
    ⟨rfl, hn, hd, ?_, fun _ => rfl⟩, rfl, rfl, ?_, rfl, rfl⟩
  · simp [FVec.newIn, FVec.initBaseVec, hn']
  · refine ⟨?_, m0.live, fun _ _ => rfl, .inr ⟨d, ⟨n, .inline, fun _ => none⟩, ?_⟩⟩
    · rintro p rfl; simp [FVec.storage]
    · exact ⟨hd, rfl, ⟨rfl, .inl ⟨rfl, rfl⟩⟩, Nat.le_refl _, Nat.zero_le _, by simp, rfl⟩
  · simp [FVec.hasOverflowed]

theorem FInvA.step (R : RawAlloc α) (nd : Bool) (op : SeqOp α)
    (hop : nd = true → op.isSlice = false) (h : FInvA w0 f m xs cap) :
    match op.step xs with
    | .error e => f.step R nd op m = .error e
    | .ok (o, ys) => ∃ f' m' ds, f.step R nd op m = .ok (o, f', m') ∧
        f'.buf = f.buf ∧ f'.count = f.count ∧
        FInvA w0 f' m' ys (op.capAfter xs.length cap) ∧ m'.dropped = m.dropped ++ ds ∧
        (nd = true → Accounts op o ds xs ys) := by
  have hA := fixedAllocator_lawful R f.buf
  rw [← h.pool] at hA
  have hs := h.inv.step hA nd op hop
  cases hso : op.step xs with
  | error e => rw [hso] at hs; simp only at hs; simp [FVec.step, hs]
  | ok r =>
    obtain ⟨o, ys⟩ := r
    rw [hso] at hs
    obtain ⟨v', m', ds, na, nc, he, hi, hef, hac⟩ := hs
    refine ⟨{ f with vec := v' }, m', ds, by simp [FVec.step, he], rfl, rfl,
      ⟨h.pool, h.pos, h.out, hi, ?_⟩, hef.dropped, hac⟩
    intro hb
    obtain ⟨h1, _, h2⟩ := h.inv.step_inline hA nd op hop he rfl hb
    rw [h2]; exact h.inl h1

theorem FInvA.run (R : RawAlloc α) (nd : Bool) (ops : List (SeqOp α)) :
    ∀ {f : FVec} {m : Mem α} {xs : List α} {cap : Nat},
    (nd = true → ∀ op ∈ ops, op.isSlice = false) → FInvA w0 f m xs cap →
    match SeqOp.run ops xs with
    | .error e => f.run R nd ops m = .error e
    | .ok (os, ys) => ∃ f' m' ds cap', f.run R nd ops m = .ok (os, f', m') ∧
        f'.buf = f.buf ∧ f'.count = f.count ∧
        FInvA w0 f' m' ys cap' ∧ m'.dropped = m.dropped ++ ds ∧
        (nd = true → (ops.flatMap SeqOp.movedIn ++ xs).Perm
          (os.flatMap Out.movedOut ++ ds ++ ys)) := by
  induction ops with
  | nil =>
    intro f m xs cap _ h
    exact ⟨f, m, [], cap, rfl, rfl, rfl, h, by simp, by simp⟩
  | cons op ops ih =>
    intro f m xs cap hops h
    have h1 := h.step R nd op (fun hn => hops hn op (by simp))
    cases hs : op.step xs with
    | error e =>
      rw [hs] at h1; simp only at h1
      simp [SeqOp.run, hs, FVec.run, h1]
    | ok r =>
      obtain ⟨o, ys⟩ := r
      rw [hs] at h1
      obtain ⟨f1, m1, d1, he1, hb1, hc1, hi1, hd1, hac1⟩ := h1
      have h2 := ih (fun hn op' hop' => hops hn op' (by simp [hop'])) hi1
      cases hr : SeqOp.run ops ys with
      | error e =>
        rw [hr] at h2; simp only at h2
        simp [SeqOp.run, hs, hr, FVec.run, he1, h2]
      | ok r =>
        obtain ⟨os, zs⟩ := r
        rw [hr] at h2
        obtain ⟨f2, m2, d2, cap2, he2, hb2, hc2, hi2, hd2, hac2⟩ := h2
        simp only [SeqOp.run, hs, hr]
        refine ⟨f2, m2, d1 ++ d2, cap2, by simp [FVec.run, he1, he2], by rw [hb2, hb1],
          by rw [hc2, hc1], hi2, ?_, ?_⟩
        · rw [hd2, hd1, List.append_assoc]
        · intro hn
          exact accounts_trans (hac1 hn) (hac2 hn)

theorem FInv.step (nd : Bool) (op : SeqOp α) (hop : nd = true → op.isSlice = false)
    (h : FInv R w0 f m xs cap) :
    match op.step xs with
    | .error e => f.step R nd op m = .error e
    | .ok (o, ys) => ∃ f' m' ds, f.step R nd op m = .ok (o, f', m') ∧
        f'.buf = f.buf ∧ f'.count = f.count ∧
        FInv R w0 f' m' ys (op.capAfter xs.length cap) ∧ m'.dropped = m.dropped ++ ds ∧
        (nd = true → Accounts op o ds xs ys) := by
  rcases h with h | ⟨s, w, h⟩
  · have hs := h.step R nd op hop
    cases hso : op.step xs with
    | error e => rw [hso] at hs; exact hs
    | ok r =>
      obtain ⟨o, ys⟩ := r
      rw [hso] at hs
      obtain ⟨f', m', ds, he, h1, h2, h3, h4⟩ := hs
      exact ⟨f', m', ds, he, h1, h2, .inl h3, h4⟩
  · have hA := staleAllocator_lawful R s h.never
    rw [← h.pool] at hA
    have hs := h.inv.step hA nd op hop
    cases hso : op.step xs with
    | error e => rw [hso] at hs; simp only at hs; simp [FVec.step, hs]
    | ok r =>
      obtain ⟨o, ys⟩ := r
      rw [hso] at hs
      obtain ⟨v', m', ds, na, nc, he, hi, hef, hac⟩ := hs
      exact ⟨{ f with vec := v' }, m', ds, by simp [FVec.step, he], rfl, rfl,
        .inr ⟨s, w, ⟨h.pool, h.pos, h.out, h.never, h.off, h.buf, hi⟩⟩, hef.dropped, hac⟩

/-- The end of the object: its values are dropped and everything it owned is gone. -/
theorem FInv.destroy (nd : Bool) (h : FInv R w0 f m xs cap) :
    ∃ m', f.destroy R nd m = .ok m' ∧ m'.live = w0 ∧
      m'.dropped = m.dropped ++ (if nd then xs else []) := by
  rcases h with h | ⟨s, w, h⟩
  · have hA := fixedAllocator_lawful R f.buf
    rw [← h.pool] at hA
    obtain ⟨m', he, _, hw, _, _, hef⟩ := h.inv.clear hA nd
    refine ⟨m'.setBlock f.buf none, by simp [FVec.destroy, he], ?_, hef.dropped⟩
    funext p
    by_cases hp : p = f.buf
    · subst hp; simp [h.out]
    · simpa [hp] using hw p hp
  · have hA := staleAllocator_lawful R s h.never
    rw [← h.pool] at hA
    obtain ⟨m', he, _, hw, _, _, hef⟩ := h.inv.clear hA nd
    refine ⟨m'.setBlock f.buf none, by simp [FVec.destroy, he], ?_, hef.dropped⟩
    funext p
    by_cases hp : p = f.buf
    · subst hp; simp [h.out]
    · simpa [hp, h.off p hp] using hw p not_false

/-- Moving out of the source leaves nothing for its destructor to do. -/
theorem destroy_moved (R : RawAlloc α) (nd : Bool) (f : FVec) (m : Mem α)
    (h : f.vec.beginPtr = .null) : f.destroy R nd m = .ok (m.setBlock f.buf none) := by
  simp [FVec.destroy, Vec.clear, h]

/-- Moving an object that still uses its buffer. -/
theorem FInvA.move_inline (R : RawAlloc α) (nd : Bool) (g : Ptr) {d : Nat} (hd : m.live d = none)
    (h : FInvA w0 f m xs cap) (hin : f.hasOverflowed = false) :
    ∃ f' m', f.moveTo R nd g d m = .ok (f', m') ∧ FInvA w0 f' m' xs cap ∧ f'.buf = d ∧
      f'.count = f.count ∧ f'.hasOverflowed = false ∧ m'.dropped = m.dropped := by
  have hb : f.vec.beginPtr = .loc f.buf 0 := by simpa [FVec.hasOverflowed] using hin
  have hc := h.inl hb
  obtain ⟨blk, hB⟩ := h.inv.ownAt hb
  have hpt := hB.ptrs
  obtain ⟨hk, w', hw, ho⟩ := hB
  have hne : d ≠ f.buf := fun e => hk f.buf rfl (e ▸ hd)
  have hw' : w' = w0 := by
    funext p
    by_cases hp : p = f.buf
    · subst hp; rw [ho.fresh, h.out]
    · exact hw p hp
  subst hw'
  have hlive := ho.live
  have hcnt : f.count ≠ 0 := by have := h.pos; omega
  have hfit := ho.fit
  have hw0d : w' d = none := by rw [hlive] at hd; simpa [hne] using hd
  refine ⟨⟨⟨.loc d 0, .loc d xs.length, .loc d f.count⟩, .loc d 0, d, f.count⟩,
    ((((FVec.storage f.count d m).setBlock d (some blk)).setBlock f.buf
      (some ⟨f.count, .inline, fun _ => none⟩)).setBlock f.buf none), ?_, ?_, rfl, rfl, ?_, rfl⟩
  · unfold FVec.moveTo FVec.moveNew
    rw [hin]
    have h1 : (FVec.storage f.count d m).live d =
        some ⟨f.count, .inline, fun _ => none⟩ := by simp [FVec.storage]
    have h2 : (FVec.storage f.count d m).live f.buf = some blk := by
      simp [FVec.storage, hne.symm, hlive]
    simp only [h1, h2]
    simp [FVec.initBaseVec, hcnt, hpt, Ptr.offsetFrom, destroy_moved]
  · have hl : ((((FVec.storage f.count d m).setBlock d (some blk)).setBlock f.buf
      (some ⟨f.count, .inline, fun _ => none⟩)).setBlock f.buf none).live =
        Function.update w' d (some blk) := by
      simp only [FVec.storage, Mem.setBlock_live, hlive, Function.update_idem]
      rw [Function.update_comm hne, Function.update_idem]
      funext p
      by_cases hp : p = f.buf
      · subst hp; simp [hne.symm, h.out]
      · by_cases hpd : p = d
        · subst hpd; simp
        · simp [hp, hpd]
    obtain ⟨hs, ⟨_, hr⟩ | ⟨hx, _⟩⟩ := hfit
    · refine ⟨rfl, h.pos, hw0d, ⟨?_, w', fun _ _ => rfl, .inr ⟨d, blk, hw0d, hl,
        ⟨hs, .inl ⟨rfl, hr⟩⟩, ho.cap_le, ho.len_le, ho.cells, by rw [hc]⟩⟩, fun _ => hc⟩
      intro p hp
      subst hp
      rw [hl]; simp
    · exact absurd rfl hx
  · simp [FVec.hasOverflowed]

/-- The memory after moving an object that left its buffer. -/
theorem moveTo_overflowed (R : RawAlloc α) (nd : Bool) (g : Ptr) (d : Nat) (f : FVec) (m : Mem α)
    (hov : f.hasOverflowed = true) :
    f.moveTo R nd g d m = .ok (⟨f.vec, f.pool, d, f.count⟩,
      (FVec.storage f.count d m).setBlock f.buf none) := by
  simp [FVec.moveTo, FVec.moveNew, hov, destroy_moved]

theorem overflowed_update {fits : Nat → Nat → Region → Nat → Prop}
    {w' : World α} {v : Vec} {n d e s : Nat} {m : Mem α} {xs : List α} {cap : Nat}
    (hr : VRep fits w' m v xs cap) (hd : m.live d = none) (he : w' e ≠ none)
    (hf : ∀ b size region n, fits b size region n → v.beginPtr = .loc b 0 →
      staleFits s b size region n) :
    VInv (fun _ => False) (staleFits s)
      (Function.update (Function.update w' d (some ⟨n, .inline, fun _ => none⟩)) e none)
      ((FVec.storage n d m).setBlock e none) v xs cap := by
  have hlv : ((FVec.storage n d m).setBlock e none).live = Function.update (Function.update m.live d
      (some ⟨n, .inline, fun _ => none⟩)) e none := rfl
  refine ⟨fun _ h => h.elim, _, fun _ _ => rfl, ?_⟩
  rcases hr with hr | ⟨b, blk, hr⟩
  · exact .inl ⟨by rw [hlv, hr.live], hr.ptrs, hr.nil, hr.cap0⟩
  · have hbe : b ≠ e := fun x => he (x ▸ hr.fresh)
    have hbd : b ≠ d := by
      rintro rfl
      rw [hr.live] at hd; simp at hd
    refine .inr ⟨b, blk, by simp [hbe, hbd, hr.fresh], ?_, hf _ _ _ _ hr.fit (by rw [hr.ptrs]),
      hr.cap_le, hr.len_le, hr.cells, hr.ptrs⟩
    rw [hlv, hr.live, Function.update_comm hbd, Function.update_comm hbe]

/-- Moving an object that left its buffer, provided the overflow allocator never hands out the
address of a former buffer. -/
theorem FInv.move_overflowed (nd : Bool) (g : Ptr) {d : Nat} (hd : m.live d = none)
    (hR : ∀ m n, R.pick m n ≠ f.buf)
    (h : FInv R w0 f m xs cap) (hov : f.hasOverflowed = true) :
    ∃ f' m', f.moveTo R nd g d m = .ok (f', m') ∧ FInv R w0 f' m' xs cap ∧ f'.buf = d ∧
      f'.count = f.count ∧ m'.dropped = m.dropped := by
  have hb : f.vec.beginPtr ≠ .loc f.buf 0 := by simpa [FVec.hasOverflowed] using hov
  refine ⟨_, _, moveTo_overflowed R nd g d f m hov, ?_, rfl, rfl, rfl⟩
  right
  rcases h with h | ⟨s, w, h⟩
  · obtain ⟨hk, w', hw, hr⟩ := h.inv
    have hne : d ≠ f.buf := fun e => hk f.buf rfl (e ▸ hd)
    have hbuf : w' f.buf ≠ none := by
      rcases hr with hr | ⟨b, blk, hr⟩
      · rw [← hr.live]; exact hk _ rfl
      · have hbb : f.buf ≠ b := by
          intro e
          exact hb (by rw [hr.ptrs, e])
        have := hk f.buf rfl
        rw [hr.live] at this
        simpa [hbb] using this
    have hw'd : w' d = none := by
      rcases hr with hr | ⟨b, blk, hr⟩
      · rw [← hr.live]; exact hd
      · rw [hr.live] at hd
        by_cases hdb : d = b
        · rw [hdb]; exact hr.fresh
        · simpa [hdb] using hd
    refine ⟨f.buf, _, ⟨h.pool, h.pos, ?_, hR, ?_, ?_,
      overflowed_update (n := f.count) (e := f.buf) (s := f.buf) hr hd hbuf ?_⟩⟩
    · rw [← hw d hne]; exact hw'd
    · intro p hp
      have hp : p ≠ d := hp
      by_cases hpb : p = f.buf
      · subst hpb; simp [h.out]
      · simp [hpb, hp, hw p hpb]
    · simp [hne]
    · rintro b size region n ⟨hs, ⟨rfl, hrg⟩ | ⟨hx, hrg⟩⟩ hv
      · exact absurd hv hb
      · exact ⟨hs, hx, hrg⟩
  · obtain ⟨hk, w', hw, hr⟩ := h.inv
    have hw' : w' = w := funext fun p => hw p not_false
    subst hw'
    have hw'd : w' d = none := by
      rcases hr with hr | ⟨b, blk, hr⟩
      · rw [← hr.live]; exact hd
      · rw [hr.live] at hd
        by_cases hdb : d = b
        · rw [hdb]; exact hr.fresh
        · simpa [hdb] using hd
    have hne : d ≠ f.buf := fun e => h.buf (e ▸ hw'd)
    refine ⟨s, _, ⟨h.pool, h.pos, ?_, h.never, ?_, ?_,
      overflowed_update (n := f.count) (e := f.buf) (s := s) hr hd h.buf ?_⟩⟩
    · rw [← h.off d hne]; exact hw'd
    · intro p hp
      have hp : p ≠ d := hp
      by_cases hpb : p = f.buf
      · subst hpb; simp [h.out]
      · simp [hpb, hp, h.off p hpb]
    · simp [hne]
    · intro b size region n hx _
      exact hx

/-- A stale pool pointer means that the object has left its buffer. -/
theorem FInvB.overflowed {s : Nat} {w : World α} (h : FInvB R w0 f m xs cap s w) :
    f.hasOverflowed = true := by
  obtain ⟨_, w', hw, hr⟩ := h.inv
  have hw' : w' = w := funext fun p => hw p not_false
  subst hw'
  rcases hr with hr | ⟨b, blk, hr⟩
  · simp [FVec.hasOverflowed, hr.ptrs]
  · have : b ≠ f.buf := fun e => h.buf (e ▸ hr.fresh)
    simp [FVec.hasOverflowed, hr.ptrs, this]

theorem FInv.move (nd : Bool) (g : Ptr) {d : Nat} (hd : m.live d = none)
    (hR : ∀ m n, R.pick m n ≠ f.buf) (h : FInv R w0 f m xs cap) :
    ∃ f' m', f.moveTo R nd g d m = .ok (f', m') ∧ FInv R w0 f' m' xs cap ∧ f'.buf = d ∧
      f'.count = f.count ∧ m'.dropped = m.dropped := by
  by_cases hov : f.hasOverflowed = true
  · exact h.move_overflowed nd g hd hR hov
  · rcases h with h | ⟨s, w, h⟩
    · obtain ⟨f', m', he, hi, h1, h2, _, h3⟩ := h.move_inline R nd g hd (by simpa using hov)
      exact ⟨f', m', he, .inl hi, h1, h2, h3⟩
    · exact absurd h.overflowed hov

/-- A whole life: calls and moves. -/
theorem FInv.life (P : RawAlloc α) (nd : Bool) (g : Ptr)
    (hRP : ∀ m n m' n', R.pick m n ≠ P.pick m' n') (evs : List (FVec.Ev α)) :
    ∀ {f : FVec} {m : Mem α} {xs : List α} {cap : Nat},
    (nd = true → ∀ op ∈ FVec.Ev.calls evs, op.isSlice = false) →
    (∀ m n, R.pick m n ≠ f.buf) → FInv R w0 f m xs cap →
    match SeqOp.run (FVec.Ev.calls evs) xs with
    | .error e => FVec.live R P nd g evs f m = .error e
    | .ok (os, ys) => ∃ f' m' ds cap', FVec.live R P nd g evs f m = .ok (os, f', m') ∧
        FInv R w0 f' m' ys cap' ∧ m'.dropped = m.dropped ++ ds ∧
        (nd = true → ((FVec.Ev.calls evs).flatMap SeqOp.movedIn ++ xs).Perm
          (os.flatMap Out.movedOut ++ ds ++ ys)) := by
  induction evs with
  | nil =>
    intro f m xs cap _ _ h
    exact ⟨f, m, [], cap, rfl, h, by simp, by simp [FVec.Ev.calls]⟩
  | cons ev evs ih =>
    intro f m xs cap hops hR h
    cases ev with
    | move =>
      obtain ⟨f1, m1, he, h1, hb, _, hdr⟩ := h.move nd g (P.fresh m f.count) hR
      have h2 := ih (f := f1) hops (by rw [hb]; exact fun m' n' => hRP m' n' _ _) h1
      cases hr : SeqOp.run (FVec.Ev.calls evs) xs with
      | error e =>
        rw [hr] at h2; simp only at h2
        simp [FVec.Ev.calls, hr, FVec.live, he, h2]
      | ok r =>
        obtain ⟨os, ys⟩ := r
        rw [hr] at h2
        obtain ⟨f2, m2, ds, cap2, he2, hi2, hd2, hp2⟩ := h2
        simp only [FVec.Ev.calls, hr]
        exact ⟨f2, m2, ds, cap2, by simp [FVec.live, he, he2], hi2, by rw [hd2, hdr], hp2⟩
    | call op =>
      have h1 := h.step nd op (fun hn => hops hn op (by simp [FVec.Ev.calls]))
      cases hs : op.step xs with
      | error e =>
        rw [hs] at h1; simp only at h1
        simp [FVec.Ev.calls, SeqOp.run, hs, FVec.live, h1]
      | ok r =>
        obtain ⟨o, ys⟩ := r
        rw [hs] at h1
        obtain ⟨f1, m1, d1, he1, hb1, _, hi1, hd1, hac1⟩ := h1
        have h2 := ih (f := f1) (fun hn op' hop' => hops hn op' (by simp [FVec.Ev.calls, hop']))
          (by rw [hb1]; exact hR) hi1
        cases hr : SeqOp.run (FVec.Ev.calls evs) ys with
        | error e =>
          rw [hr] at h2; simp only at h2
          simp [FVec.Ev.calls, SeqOp.run, hs, hr, FVec.live, he1, h2]
        | ok r =>
          obtain ⟨os, zs⟩ := r
          rw [hr] at h2
          obtain ⟨f2, m2, d2, cap2, he2, hi2, hd2, hac2⟩ := h2
          simp only [FVec.Ev.calls, SeqOp.run, hs, hr]
          refine ⟨f2, m2, d1 ++ d2, cap2, by simp [FVec.live, he1, he2], hi2, ?_, ?_⟩
          · rw [hd2, hd1, List.append_assoc]
          · intro hn
            exact accounts_trans (hac1 hn) (hac2 hn)

end Verif
