import Verif.Props.FixedVector

/-! C11: what `max_size` says. -/

set_option autoImplicit false

namespace Verif
open Spec

variable {α : Type}

theorem FVec.live_count (R P : RawAlloc α) (nd : Bool) (g : Ptr) : ∀ (evs : List (FVec.Ev α))
    {f f' : FVec} {m m' : Mem α} {outs : List (Out α)},
    FVec.live R P nd g evs f m = .ok (outs, f', m') → f'.count = f.count := by
  intro evs
  induction evs with
  | nil => intro f f' m m' outs h; cases h; rfl
  | cons e evs ih =>
    intro f f' m m' outs h
    cases e with
    | call op =>
      unfold FVec.live at h
      cases hs : f.step R nd op m with
      | error e => rw [hs] at h; simp at h
      | ok r =>
        obtain ⟨o, f1, m1⟩ := r
        rw [hs] at h
        simp only [Exec.ok_bind] at h
        have h1 : f1.count = f.count := by
          unfold FVec.step at hs
          cases hv : f.vec.step (fixedAllocator R f.pool) nd op m with
          | error e => rw [hv] at hs; simp at hs
          | ok r => rw [hv] at hs; cases hs; rfl
        cases hl : FVec.live R P nd g evs f1 m1 with
        | error e => rw [hl] at h; simp at h
        | ok r =>
          rw [hl] at h
          cases h
          rw [ih hl, h1]
    | move =>
      unfold FVec.live at h
      cases hs : f.moveTo R nd g (P.pick m f.count) m with
      | error e => rw [hs] at h; simp at h
      | ok r =>
        obtain ⟨f1, m1⟩ := r
        rw [hs] at h
        simp only [Exec.ok_bind] at h
        have h1 : f1.count = f.count := by
          unfold FVec.moveTo at hs
          cases hn : FVec.moveNew g f (P.pick m f.count) (FVec.storage f.count (P.pick m f.count) m) with
          | error e => rw [hn] at hs; simp at hs
          | ok q =>
            obtain ⟨f2, src, m2⟩ := q
            rw [hn] at hs
            simp only [Exec.ok_bind] at hs
            have h2 : f2.count = f.count := by
              unfold FVec.moveNew at hn
              simp only at hn
              split at hn
              · cases hn; rfl
              · split at hn
                · unfold FVec.initBaseVec at hn
                  simp only at hn
                  split at hn
                  · simp at hn
                  · simp only [Exec.ok_bind] at hn
                    cases ho : f.vec.endPtr.offsetFrom f.vec.beginPtr with
                    | error e => rw [ho] at hn; simp at hn
                    | ok u => rw [ho] at hn; cases hn; rfl
                · simp at hn
            cases hd : src.destroy R nd m2 with
            | error e => rw [hd] at hs; simp at hs
            | ok m3 => rw [hd] at hs; cases hs; exact h2
        rw [ih h, h1]

/-- C11.  `max_size` is the number of elements the vector has room for in itself, whatever calls and
moves there were, also when it has overflowed. -/
theorem C11_max_size (R P : RawAlloc α) (nd : Bool) (n d : Nat) (m0 : Mem α) (g : Ptr)
    (evs : List (FVec.Ev α)) {f1 f : FVec} {m1 m : Mem α} {outs : List (Out α)}
    (hnew : FVec.newIn n d m0 = .ok (f1, m1))
    (h : FVec.live R P nd g evs f1 m1 = .ok (outs, f, m)) : f.maxSize = n := by
  have h1 : f1.count = n := by
    unfold FVec.newIn FVec.initBaseVec at hnew
    simp only at hnew
    split at hnew
    · simp at hnew
    · cases hnew; rfl
  exact (FVec.live_count R P nd g evs h).trans h1

/-- A vector with room for two, overflowed and moved. -/
example : (do
    let (f1, m1) ← FVec.newIn 2 0 (Mem.empty : Mem Nat)
    let (_, f, _) ← FVec.live RawAlloc.bump RawAlloc.bump false .null
      [.call (.push 1), .call (.push 2), .call (.push 3), .move] f1 m1
    .ok (f.maxSize, f.hasOverflowed)) = (.ok (2, true) : Exec (Nat × Bool)) := by
  decide +kernel

end Verif
