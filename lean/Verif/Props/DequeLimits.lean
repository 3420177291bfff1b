import Verif.Deque.LimitsProofs
import Verif.Props.Deque

/-!
# `Deque` with the 32-bit size of its pointer array (C111)

The theorems of `Verif.Props.Deque` are about a deque whose pointer array can grow without bound.
Here its size is the `u32` of the code, in debug and in release builds, and a push whose arithmetic
or slice index panics leaves the state the code leaves.  `10 * 2 ^ 28 - 2` is the largest size the
array can reach.
-/

set_option autoImplicit false

namespace Verif
open Spec

variable {α : Type}

/-- A deque created in `m0` and put through the calls `ops`; each panic is caught and reported as
`none`. -/
def Deque.historyW (B : Build) (E : DEnv α) (ops : List (DeqOp α)) (m0 : DMem α) :
    Exec (List (Option (Out α)) × Deque × DMem α) := do
  let (d, m) ← Deque.newIn E m0
  Deque.runW B E ops d m

theorem WInv.newIn (E : DEnv α) (hS : 0 < E.S) (m0 : DMem α) :
    ∃ d m, Deque.newIn E m0 = .ok (d, m) ∧ WInv E m0.t.live m0.p.live m d [] ∧
      m.t.dropped = m0.t.dropped := by
  obtain ⟨d, m, pb, lo, bo, bl, h1, h2, h3, h4, _⟩ := DRep.newIn E hS m0
  exact ⟨d, m, h1, ⟨pb, lo, bo, bl, h2, 0, by omega, by omega⟩, h3⟩

/-- C111, the part that holds in every build.  As long as the deque never has more than
`(10·2^28 − 3)·S` elements, `S` being the size of a subarray, every history returns what it returns
on a mathematical sequence, and no call panics. -/
theorem C111_below_limit_partial (B : Build) (E : DEnv α) (hS : 0 < E.S) (ops : List (DeqOp α))
    (m0 : DMem α) (hp : DeqOp.peak ops [] ≤ (10 * 2 ^ 28 - 3) * E.S) :
    ∃ d m, Deque.historyW B E ops m0 = .ok ((DeqOp.run ops []).1.map some, d, m) ∧
      Deque.history E ops m0 = .ok ((DeqOp.run ops []).1, d, m) := by
  obtain ⟨d0, m1, h1, h2, _⟩ := WInv.newIn E hS m0
  obtain ⟨outs, d, m, wp', drops, leaked, f1, f2, f3, _, _, _, _, _, _, _, f11⟩ :=
    WInv.run B ops h2
  obtain ⟨g1, g2, g3⟩ := f11 hp
  have ho : outs = (outs.filterMap id).map some := by
    have : ∀ os : List (Option (Out α)), os.countP Option.isNone = 0 →
        os = (os.filterMap id).map some := by
      intro os
      induction os with
      | nil => intro _; rfl
      | cons o os ih =>
        intro h
        cases o with
        | none => simp at h
        | some o =>
          have := ih (by simpa using h)
          show some o :: os = some o :: (os.filterMap id).map some
          rw [← this]
    exact this outs g1
  rw [f3, g2] at ho
  exact ⟨d, m, by simp only [Deque.historyW, h1, Exec.ok_bind, f1, ho],
    by simp only [Deque.history, h1, Exec.ok_bind, g3]⟩

theorem Deque.runW_pushes {B : Build} {E : DEnv α} : ∀ (ops : List (DeqOp α)) {d d' : Deque}
    {m m' : DMem α} {outs : List (Option (Out α))}, Deque.runW B E ops d m = .ok (outs, d', m') →
    ∀ p ∈ ops.zip outs, p.2 = none → ∃ x, p.1 = .pushBack x ∨ p.1 = .pushFront x
  | [], _, _, _, _, outs, h => by simp
  | op :: ops, d, d', m, m', outs, h => by
    obtain ⟨⟨o, d1, m1⟩, h1, h2⟩ := Exec.of_bind_ok h
    obtain ⟨⟨os, d2, m2⟩, h3, h4⟩ := Exec.of_bind_ok h2
    simp only [Except.ok.injEq, Prod.mk.injEq] at h4
    obtain ⟨rfl, rfl, rfl⟩ := h4
    intro p hp hn
    rw [List.zip_cons_cons, List.mem_cons] at hp
    rcases hp with rfl | hp
    · simp only at hn
      subst hn
      cases op <;>
        first
        | exact ⟨_, .inl rfl⟩
        | exact ⟨_, .inr rfl⟩
        | (obtain ⟨⟨o', d3, m3⟩, _, h6⟩ := Exec.of_bind_ok h1
           simp at h6)
    · exact Deque.runW_pushes ops h3 p hp hn

/-- C111, the part that holds of histories of any length.  No call touches memory it should not.
Only pushes panic; what the other calls return, and what the deque contains in the end, is what it
would be had the panicking pushes not been made.  Every value is handed out or dropped exactly once
when the deque is dropped, those of the panicking pushes included.  Every panic of a release build
leaks a pointer array; those of a debug build leak nothing. -/
theorem C111_panics_are_clean_partial (B : Build) (E : DEnv α) (hS : 0 < E.S) (ops : List (DeqOp α))
    (m0 : DMem α) :
    ∃ outs d m m' drops, ∃ leaked : List Nat, ∃ sub, Deque.historyW B E ops m0 = .ok (outs, d, m) ∧
      outs.length = ops.length ∧
      (∀ p ∈ ops.zip outs, p.2 = none → ∃ x, p.1 = .pushBack x ∨ p.1 = .pushFront x) ∧
      outs.filterMap id = (DeqOp.run (DeqOp.returned ops outs) []).1 ∧
      d.len E = .ok (DeqOp.run (DeqOp.returned ops outs) []).2.length ∧
      d.drop E m = .ok m' ∧
      m'.t.dropped = m0.t.dropped ++ (if E.nd then drops else []) ∧
      (DeqOp.allIn (DeqOp.returned ops outs) [] ++ DeqOp.refused ops outs).Perm
        (DeqOp.allOut (DeqOp.returned ops outs) [] ++ drops) ∧
      (∀ b, b ≠ sub → m'.t.live b = m0.t.live b) ∧
      (∀ b, b ∉ leaked → m'.p.live b = m0.p.live b) ∧
      leaked.Nodup ∧ (∀ b ∈ leaked, m0.p.live b = none ∧ m'.p.live b ≠ none) ∧
      leaked.length = (if B = .release then outs.countP Option.isNone else 0) := by
  obtain ⟨d0, m1, h1, h2, h3⟩ := WInv.newIn E hS m0
  obtain ⟨outs, d, m, wp', drops, leaked, f1, f2, f3, ⟨pb, lo, bo, bl, f4, _⟩, f5, f6, f7, f8, f9,
    f10, _⟩ := WInv.run B ops h2
  obtain ⟨m', sub, e1, e2, e3, e4⟩ := f4.drop
  refine ⟨outs, d, m, m', drops ++ (DeqOp.run (DeqOp.returned ops outs) []).2, leaked, sub,
    by simp only [Deque.historyW, h1, Exec.ok_bind, f1], f2, Deque.runW_pushes ops f1, f3,
    f4.length, e1, ?_, by simpa using f6,
    fun b hb => e2.out b (by simpa using hb), ?_, f7, ?_, f10⟩
  · rw [e4, f5, h3]; cases E.nd <;> simp
  · intro b hb; rw [e3]; exact f9 b hb
  · intro b hb; rw [e3]; exact f8 b hb

/-- C111 is false.  However a deque was filled, in either build, it never has more than
`(10·2^28 − 2)·S` elements. -/
theorem C111_never_larger (B : Build) (E : DEnv α) (hS : 0 < E.S) (ops : List (DeqOp α))
    (m0 : DMem α) {outs : List (Option (Out α))} {d : Deque} {m : DMem α}
    (h : Deque.historyW B E ops m0 = .ok (outs, d, m)) :
    ∃ n, d.len E = .ok n ∧ n ≤ (10 * 2 ^ 28 - 2) * E.S := by
  obtain ⟨d0, m1, h1, h2, h3⟩ := WInv.newIn E hS m0
  obtain ⟨outs', d', m', wp', drops, leaked, f1, f2, f3, f4, _⟩ := WInv.run B ops h2
  simp only [Deque.historyW, h1, Exec.ok_bind, f1, Except.ok.injEq, Prod.mk.injEq] at h
  obtain ⟨_, rfl, rfl⟩ := h
  have h6 := f4.size_le
  obtain ⟨pb, lo, bo, bl, f4, _⟩ := f4
  exact ⟨_, f4.length, h6⟩

theorem returned_all : ∀ (ops : List (DeqOp α)) (outs : List (Option (Out α))),
    outs.length = ops.length → none ∉ outs → DeqOp.returned ops outs = ops
  | [], [], _, _ => rfl
  | [], _ :: _, h, _ => by simp at h
  | _ :: _, [], h, _ => by simp at h
  | op :: ops, none :: outs, _, hn => by simp at hn
  | op :: ops, some o :: outs, h, hn => by
    have := returned_all ops outs (by simpa using h) (by simpa using hn)
    simp only [DeqOp.returned, this]

theorem run_pushBacks : ∀ (ys xs : List α),
    (DeqOp.run (ys.map .pushBack) xs).2 = xs ++ ys
  | [], xs => by simp [DeqOp.run]
  | y :: ys, xs => by simp [DeqOp.run, DeqOp.step, run_pushBacks ys]

/-- C111 is false: so some push of a long enough sequence of elements panics, although there is
memory for it. -/
theorem C111_long_push_panics (B : Build) (E : DEnv α) (hS : 0 < E.S) (ys : List α)
    (hl : (10 * 2 ^ 28 - 2) * E.S < ys.length) (m0 : DMem α) :
    ∃ outs d m, Deque.historyW B E (ys.map .pushBack) m0 = .ok (outs, d, m) ∧ none ∈ outs := by
  obtain ⟨d0, m1, h1, h2, h3⟩ := WInv.newIn E hS m0
  obtain ⟨outs, d, m, wp', drops, leaked, f1, f2, f3, f4, _⟩ := WInv.run B (ys.map .pushBack) h2
  refine ⟨outs, d, m, by simp only [Deque.historyW, h1, Exec.ok_bind, f1], ?_⟩
  by_contra hn
  rw [returned_all _ _ f2 hn, run_pushBacks] at f4
  have := f4.size_le
  simp only [List.nil_append] at this
  omega

/-- Sequences as long as the last theorem asks for exist; a history below the limit runs as before,
in both builds. -/
example : (10 * 2 ^ 28 - 2) * exampleEnv.S < (List.replicate ((10 * 2 ^ 28 - 2) * 2 + 1) 0).length ∧
    (∀ B ∈ [Build.debug, Build.release], (do
      let (os, d, _) ← Deque.historyW B exampleEnv
        ((List.range 20).map DeqOp.pushBack ++ [.pushFront 7, .popBack, .len])
        ⟨Mem.empty, Mem.empty⟩
      .ok (os.map Option.isSome, d.size)) =
      (.ok (List.replicate 23 true, 18) : Exec (List Bool × Nat))) := by
  refine ⟨?_, by decide +kernel⟩
  rw [List.length_replicate]
  show (10 * 2 ^ 28 - 2) * 2 < _
  omega

end Verif
