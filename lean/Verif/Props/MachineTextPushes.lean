import Verif.Machine.CollectExact
import Verif.Props.MachineModest
import Verif.Props.MachineText

/-! How long a string can become by pushing characters. -/

set_option autoImplicit false

namespace Verif
open Spec

theorem str_push_caps (cs : List Char) : ∀ (xs : List Char) (cap : Nat),
    StrOp.caps (cs.map .push) xs.length cap = SeqOp.caps (cs.map .push) xs cap := by
  induction cs with
  | nil => intros; rfl
  | cons c cs ih =>
    intro xs cap
    have h := ih (xs ++ [c]) (SeqOp.capAfter (.push c) xs.length cap)
    simp only [List.length_append, List.length_cons, List.length_nil, Nat.zero_add] at h
    simp only [List.map_cons, StrOp.caps, StrOp.panics, Bool.false_eq_true, if_false, SeqOp.caps,
      SeqOp.step, StrOp.lenAfter]
    rw [← h]
    rfl

theorem str_push_spec (cs : List Char) : ∀ xs : List Char,
    StrOp.run (cs.map .push) xs = .ok (cs.map fun _ => .unit, xs ++ cs) := by
  induction cs with
  | nil => intro xs; simp [StrOp.run]
  | cons c l ih => intro xs; simp [StrOp.run, StrOp.step, ih]

/-- C147 and C148 for pushes. Pushing ASCII characters one after the other into an empty string, in
either build, succeeds for up to 2^62 of them: the text is what was pushed, and the capacity the least
power of two that is at least its length. Pushing more panics. -/
theorem C148_pushes (B : Build) (R : RawAlloc UInt8) (m0 : Mem UInt8) (cs : List Char)
    (hne : cs ≠ []) (hascii : ∀ c ∈ cs, IsAscii c) :
    (cs.length ≤ 2 ^ 62 → ∃ outs v m,
      Str.runM B (strAllocM B R.total) (cs.map .push) Vec.new m0 = .ok (outs, v, m) ∧
        v.asSlice m = .ok (utf8 cs) ∧ v.capacity = .ok (2 ^ Nat.clog 2 cs.length)) ∧
    (2 ^ 62 < cs.length →
      Str.runM B (strAllocM B R.total) (cs.map .push) Vec.new m0 = .error .panic) := by
  have hpos := List.length_pos_of_ne_nil hne
  have hk : cs.length ≤ 2 ^ Nat.clog 2 cs.length := Nat.le_pow_clog (by decide) _
  have hj : ∀ j < Nat.clog 2 cs.length, 2 ^ j < cs.length := fun j h =>
    (Nat.lt_clog_iff_pow_lt (by decide)).1 h
  obtain ⟨h1, h2⟩ : (∀ c ∈ StrOp.caps (cs.map .push) 0 0, c ≤ 2 ^ Nat.clog 2 cs.length) ∧
      (StrOp.caps (cs.map .push) 0 0).getLastD 0 = 2 ^ Nat.clog 2 cs.length := by
    obtain ⟨g1, g2⟩ := collect_caps_exact 0 cs (Nat.clog 2 cs.length) (by omega) (by simpa using hk)
      (by simpa using hj)
    simp only [collectOps, SeqOp.caps, SeqOp.step, SeqOp.capAfter, List.getLastD_cons, Nat.add_zero,
      show max 1 0 = 1 from rfl, Nat.one_mul, List.mem_cons] at g1 g2
    have h := str_push_caps cs [] 0
    rw [List.length_nil] at h
    rw [h]
    exact ⟨fun c hc => g1 c (.inr hc), g2⟩
  constructor
  · intro hle
    have hfit : ∀ c ∈ StrOp.caps (cs.map .push) 0 0, TextFits c := fun c hc => by
      have h3 := h1 c hc
      have h4 : Nat.clog 2 cs.length ≤ 62 := (Nat.clog_le_iff_le_pow (by decide)).2 hle
      have h5 := Nat.pow_le_pow_right (n := 2) (by decide) h4
      unfold TextFits
      omega
    have h := C147_machine_string B R m0 (cs.map .push) (fun op ho => by
      obtain ⟨c, hc, rfl⟩ := List.mem_map.1 ho
      exact ⟨hascii c hc, rfl⟩) hfit
    rw [str_push_spec] at h
    obtain ⟨v, m, e, hs, _⟩ := h
    have hc := C147_machine_string_capacity B R m0 _ hfit e
    rw [← List.getLastD_eq_getLast?, h2] at hc
    exact ⟨_, v, m, e, hs, hc⟩
  · intro hgt
    refine C148_modest_requests_partial B R m0 _ (fun _ op ho => ?_) ⟨2 ^ Nat.clog 2 cs.length, ?_, ?_⟩
    · obtain ⟨c, _, rfl⟩ := List.mem_map.1 ho
      simp [StrOp.wanted]
    · rw [← h2]
      rcases List.eq_nil_or_concat (StrOp.caps (cs.map .push) 0 0) with h | ⟨ds, d, h⟩
      · rw [h] at h2
        have := Nat.two_pow_pos (Nat.clog 2 cs.length)
        simp only [List.getLastD_nil] at h2
        omega
      · rw [h]; simp
    · have h4 : 62 < Nat.clog 2 cs.length := (Nat.lt_clog_iff_pow_lt (by decide)).2 hgt
      have h5 := Nat.pow_le_pow_right (n := 2) (by decide) (show 63 ≤ Nat.clog 2 cs.length from h4)
      unfold TextFits
      omega

/-- Instance: three characters, in a release build. -/
example : (do
    let (_, v, m) ← Str.runM .release (strAllocM .release RawAlloc.bump.total)
      (['a', 'b', 'c'].map .push) Vec.new Mem.empty
    let bs ← v.asSlice m
    let c ← v.capacity
    .ok (bs, c)) = (.ok ([97, 98, 99], 4) : Exec _) := by decide +kernel

example : ['a', 'b', 'c'] ≠ [] ∧ (∀ c ∈ ['a', 'b', 'c'], IsAscii c) ∧
    ['a', 'b', 'c'].length ≤ 2 ^ 62 := by
  refine ⟨by decide, ?_, by decide⟩
  unfold IsAscii
  decide

/-- Instance of the other case. -/
example (cs : List Char) (h : cs = List.replicate cs.length 'x') (hl : cs.length = 2 ^ 62 + 1) :
    Str.runM .release (strAllocM .release RawAlloc.bump.total) (cs.map .push) Vec.new Mem.empty =
      .error .panic :=
  (C148_pushes .release RawAlloc.bump Mem.empty cs (by rintro rfl; simp at hl) (fun c hc => by
    rw [h] at hc
    rw [List.eq_of_mem_replicate hc]
    unfold IsAscii
    decide)).2 (by omega)

end Verif
