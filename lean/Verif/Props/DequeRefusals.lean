import Verif.Deque.Grants
import Verif.Props.Deque

/-!
# Deques whose allocator panics (C123)

Each call comes with the number of requests for memory the allocator grants it; a call makes at most
two.  The request after that panics, and the program catches the panic and goes on using the deque.
-/

set_option autoImplicit false

namespace Verif
open Spec

variable {α : Type}

/-- A deque created with a working allocator and put through calls that may be refused memory. -/
def Deque.historyG (E : DEnv α) (calls : List (Nat × DeqOp α)) (m0 : DMem α) :
    Exec (List (Option (Out α)) × Deque × DMem α) := do
  let (d, m) ← Deque.newIn E m0
  Deque.runG E calls d m

/-- C123, the part that holds of deques.  Any call may be refused memory: only pushes panic, and only
for want of memory; what the other calls return, and what the deque contains, is what it would be
without the pushes that panicked; nothing it should not touch is touched.  When the deque is dropped,
every value was handed out or dropped exactly once, except some that were passed to a `push_back` that
panicked.  Missing: these, see `C123_deque_push_back_forgets`, and the constructor, see
`C123_deque_new_refused`. -/
theorem C123_deque_refusals_partial (E : DEnv α) (hS : 0 < E.S) (calls : List (Nat × DeqOp α))
    (m0 : DMem α) :
    ∃ (outs : List (Option (Out α))) (d : Deque) (m m' : DMem α) (drops lost : List α) (sub : Nat),
      Deque.historyG E calls m0 = .ok (outs, d, m) ∧ outs.length = calls.length ∧
      (∀ p ∈ calls.zip outs, p.2 = none → p.1.1 < 2 ∧ p.1.2.isPush = true) ∧
      outs.filterMap id = (DeqOp.run (answered (calls.map Prod.snd) outs) []).1 ∧
      d.len E = .ok (DeqOp.run (answered (calls.map Prod.snd) outs) []).2.length ∧
      d.drop E m = .ok m' ∧ m'.p.live = m0.p.live ∧
      (∀ b, b ≠ sub → m'.t.live b = m0.t.live b) ∧
      m'.t.dropped = m0.t.dropped ++ (if E.nd then drops else []) ∧
      (DeqOp.allIn (answered (calls.map Prod.snd) outs) [] ++
        DeqOp.refused (calls.map Prod.snd) outs).Perm
        (DeqOp.allOut (answered (calls.map Prod.snd) outs) [] ++ drops ++ lost) ∧
      lost.Sublist (DeqOp.backs (panicked (calls.map Prod.snd) outs)) := by
  obtain ⟨d0, m1, pb, lo, bo, bl, h1, h2, h3, _⟩ := DRep.newIn E hS m0
  obtain ⟨outs, d, m, drops, lost, f1, f2, f0, f3, ⟨_, _, _, _, f4⟩, f5, f6, f7⟩ :=
    DRepr.runG calls ⟨pb, lo, bo, bl, h2⟩
  obtain ⟨m', sub, e1, e2, e3, e4⟩ := f4.drop
  refine ⟨outs, d, m, m', drops ++ (DeqOp.run (answered (calls.map Prod.snd) outs) []).2, lost, sub,
    by simp only [Deque.historyG, h1, Exec.ok_bind, f1], f2, f0, f3, f4.length, e1, e3,
    fun b hb => e2.out b (by simpa using hb), ?_, by simpa using f6, f7⟩
  rw [e4, f5, h3]; cases E.nd <;> simp

theorem DRep.pads {E : DEnv α} {wt : World α} {wp : World Ptr} {bo : Nat} :
    ∀ (pad : List α) {m : DMem α} {d : Deque} {pb lo : Nat} {bl : List Nat} {xs : List α},
    DRep E wt wp m d pb lo bo bl xs →
    ∃ outs d' m' pb' lo' bl', Deque.runG E (pad.map fun y => (2, .pushBack y)) d m =
        .ok (outs, d', m') ∧ DRep E wt wp m' d' pb' lo' bo bl' (xs ++ pad)
  | [], m, d, pb, lo, bl, xs, h => ⟨[], d, m, pb, lo, bl, rfl, by simpa using h⟩
  | y :: pad, m, d, pb, lo, bl, xs, h => by
    obtain ⟨d', m', pb', lo', bl', h1, h2, _⟩ := h.pushBack y
    rcases h.pushBackG 2 y h1 with e | ⟨hg, _⟩
    · obtain ⟨outs, d2, m2, pb2, lo2, bl2, e1, e2⟩ := DRep.pads pad h2
      refine ⟨some .unit :: outs, d2, m2, pb2, lo2, bl2, ?_, by simpa using e2⟩
      simp only [List.map_cons, Deque.runG, Deque.stepG, e, Exec.ok_bind, if_true, e1]
    · omega

/-- C123 is false of deques: an element is forgotten.  Whatever was done to a deque, after so many
more pushes, fewer than fit in a subarray, the allocator can refuse memory to the `push_back` of any
element `x` in such a way that the call panics, the deque is as it was, and `x` is never dropped: when
the deque is dropped the same values have been dropped as without the call. -/
theorem C123_deque_push_back_forgets (E : DEnv α) (hS : 0 < E.S) (calls : List (Nat × DeqOp α))
    (m0 : DMem α) :
    ∃ n < E.S, ∀ pad : List α, pad.length = n → ∀ x : α,
      ∃ outs outs' d1 m1 d m d' m' md md', ∃ g < 2,
        Deque.historyG E calls m0 = .ok (outs, d1, m1) ∧
        Deque.runG E (pad.map fun y => (2, .pushBack y)) d1 m1 = .ok (outs', d, m) ∧
        d.stepG E g (.pushBack x) m = .ok (none, d', m') ∧ d'.len E = d.len E ∧
        d.drop E m = .ok md ∧ d'.drop E m' = .ok md' ∧ md'.t.dropped = md.t.dropped := by
  obtain ⟨d0, m1, pb, lo, bo, bl, h1, h2, h3, _⟩ := DRep.newIn E hS m0
  obtain ⟨outs, d1, m2, drops, lost, f1, _, _, _, ⟨pb1, lo1, bo1, bl1, f4⟩, _⟩ :=
    DRepr.runG calls ⟨pb, lo, bo, bl, h2⟩
  generalize (DeqOp.run (answered (calls.map Prod.snd) outs) []).2 = xs at f4
  refine ⟨E.S - 1 - (bo1 + xs.length) % E.S, by omega, fun pad hpad x => ?_⟩
  obtain ⟨outs', d, m, pb2, lo2, bl2, e1, e2⟩ := DRep.pads pad f4
  have hfull : (bo1 + (xs ++ pad).length) % E.S + 1 = E.S := by
    rw [List.length_append, hpad, ← Nat.add_assoc]
    have hlt := Nat.mod_lt (bo1 + xs.length) hS
    have hdm := Nat.div_add_mod (bo1 + xs.length) E.S
    generalize (bo1 + xs.length) % E.S = r at hlt hdm ⊢
    generalize (bo1 + xs.length) / E.S = q at hdm
    rw [← hdm, show E.S * q + r + (E.S - 1 - r) = E.S - 1 + E.S * q by omega, Nat.add_mul_mod_self_left,
      Nat.mod_eq_of_lt (by omega)]
    omega
  obtain ⟨g, d', m', pb3, lo3, hg, g1, g2, g3⟩ := e2.pushBackG_forgets x hfull
  obtain ⟨md, _, k1, _, _, k4⟩ := e2.drop
  obtain ⟨md', _, l1, _, _, l4⟩ := g2.drop
  refine ⟨outs, outs', d1, m2, d, m, d', m', md, md', g, hg,
    by simp only [Deque.historyG, h1, Exec.ok_bind, f1], e1,
    by simp [Deque.stepG, g1], by rw [e2.length, g2.length], k1, l1, ?_⟩
  rw [l4, k4, g3]

theorem drop_half {E : DEnv α} {size : Nat} (hs : size ≠ 0) (m : DMem α) :
    (⟨.null, 8, .null, .null⟩ : Deque).dropHalf E size m = .error .ub := by
  simp only [Deque.dropHalf, if_neg hs, Deque.drop, Deque.iter, DIter.fromCompat, DIt.null,
    Ptr.offsetFrom, Exec.ok_bind, dropElems, DIter.next, if_true, Deque.freePtrs, defaultAllocator,
    rawDealloc, Exec.error_bind]

/-- Two requests are enough for a deque of elements that have a size. -/
theorem C123_deque_new_granted_partial (E : DEnv α) (hS : 0 < E.S) {size g : Nat} (hs : size ≠ 0)
    (hg : 2 ≤ g) (m : DMem α) :
    ∃ d m', Deque.newIn E m = .ok (d, m') ∧ Deque.newInG E size g m = .ok (.returns (d, m')) := by
  obtain ⟨d, m', _, _, _, _, h, _⟩ := DRep.newIn E hS m
  refine ⟨d, m', h, ?_⟩
  have hp : E.S * size ≠ 0 := Nat.mul_ne_zero (by omega) hs
  unfold Deque.newIn at h
  unfold Deque.newInG
  rw [if_neg (by omega)]
  obtain ⟨⟨a, m1⟩, e1, h⟩ := Exec.of_bind_ok h
  obtain ⟨p, e2, h⟩ := Exec.of_bind_ok h
  obtain ⟨⟨s, m2⟩, e3, h⟩ := Exec.of_bind_ok h
  obtain ⟨sl, e4, h⟩ := Exec.of_bind_ok h
  obtain ⟨p2, e5, h⟩ := Exec.of_bind_ok h
  obtain ⟨b, e6, h⟩ := Exec.of_bind_ok h
  obtain ⟨e, e7, h⟩ := Exec.of_bind_ok h
  simp only [Except.ok.injEq, Prod.mk.injEq] at h
  obtain ⟨rfl, rfl⟩ := h
  rw [e6] at e7
  simp only [Except.ok.injEq] at e7
  subst e7
  have hc : ¬ (g = 1 ∨ E.S * size = 0) := by omega
  simp only [e1, Exec.ok_bind, e2, if_neg hc, e3, e4, e5, e6]

/-- C123 is false of deques: the constructor.  If the allocator panics while a deque is created, the
half-built deque is dropped, and that frees a null pointer: undefined behaviour in safe code. -/
theorem C123_deque_new_refused (E : DEnv α) {size g : Nat} (hs : size ≠ 0) (hg : g < 2)
    (m : DMem α) : Deque.newInG E size g m = .error .ub := by
  unfold Deque.newInG
  by_cases h0 : g = 0
  · rw [if_pos h0, drop_half hs]
  · rw [if_neg h0]
    have hp0 : PtRep m.p.live (E.Rp.alloc 8 m.p).2 (E.Rp.pick m.p 8) 8 0 [] := by
      refine ⟨E.Rp.fresh m.p 8, ?_, ⟨⟨8, .heap, fun _ => none⟩, ?_, rfl, rfl⟩, by simp, by simp⟩
      · intro b hb
        simp [RawAlloc.alloc, hb]
      · simp [RawAlloc.alloc]
    obtain ⟨p1, hf1, _⟩ := fillNull_ok 8 0 _ hp0 (by omega)
    have hal : (defaultAllocator E.Rp).alloc 8 m.p =
        .ok (.loc (E.Rp.pick m.p 8) 0, (E.Rp.alloc 8 m.p).2) := by
      simp [defaultAllocator, RawAlloc.alloc]
    have hc : g = 1 ∨ E.S * size = 0 := by omega
    simp only [DMem.allocPtrs, hal, Exec.ok_bind, hf1, if_pos hc, drop_half hs]

/-- C123 is false of deques: elements of no size.  There is no memory to be had for them, so that
creating a deque of them always panics, with any amount of memory; and dropping the half-built deque
panics again, which ends the program. -/
theorem C123_deque_zero_sized_aborts (E : DEnv α) (g : Nat) (m : DMem α) :
    Deque.newInG E 0 g m = .ok .aborts := by
  unfold Deque.newInG
  by_cases h0 : g = 0
  · rw [if_pos h0]; rfl
  · rw [if_neg h0]
    have hp0 : PtRep m.p.live (E.Rp.alloc 8 m.p).2 (E.Rp.pick m.p 8) 8 0 [] := by
      refine ⟨E.Rp.fresh m.p 8, ?_, ⟨⟨8, .heap, fun _ => none⟩, ?_, rfl, rfl⟩, by simp, by simp⟩
      · intro b hb
        simp [RawAlloc.alloc, hb]
      · simp [RawAlloc.alloc]
    obtain ⟨p1, hf1, _⟩ := fillNull_ok 8 0 _ hp0 (by omega)
    have hal : (defaultAllocator E.Rp).alloc 8 m.p =
        .ok (.loc (E.Rp.pick m.p 8) 0, (E.Rp.alloc 8 m.p).2) := by
      simp [defaultAllocator, RawAlloc.alloc]
    have hc : g = 1 ∨ E.S * 0 = 0 := .inr rfl
    simp only [DMem.allocPtrs, hal, Exec.ok_bind, hf1, if_pos hc]
    rfl

/-- Subarrays of two elements: the second `push_back` fills one and is refused the next; the element
5 is never dropped, while 6, passed to a refused `push_front`, is.  The deque works on. -/
example : (do
      let (os, d, m) ← Deque.historyG exampleEnv [(0, .pushBack 4), (0, .pushBack 5),
        (0, .pushFront 6), (1, .pushBack 7), (0, .pushBack 8), (1, .pushFront 9), (0, .popFront),
        (0, .len)] ⟨Mem.empty, Mem.empty⟩
      let m ← d.drop exampleEnv m
      .ok (os.map Option.isSome, m.t.dropped)) =
    (.ok ([true, false, false, true, true, true, true, true], [6, 4, 7, 8]) :
      Exec (List Bool × List Nat)) := by
  decide +kernel

end Verif
