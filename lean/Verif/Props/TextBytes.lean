import Verif.Spec.TextBytes
import Verif.Props.Refused
import Verif.Props.VectorRefusals

/-!
# C153: strings are sequences of bytes

C16 and C138 say what strings do with ASCII and Latin-1 characters, and leave out `assign`.  These
theorems are about all characters and all calls.
-/

set_option autoImplicit false

namespace Verif
open Spec

theorem charToByte_lowByte (c : Char) : charToByte c = lowByte c := by
  apply UInt8.toNat.inj
  show (UInt32.toUInt8 c.val).toNat = (UInt8.ofNat c.toNat).toNat
  rw [UInt32.toNat_toUInt8]
  simp

theorem insertIdx_take_drop {α : Type} (x : α) : ∀ (i : Nat) (l : List α), i ≤ l.length →
    l.insertIdx i x = l.take i ++ x :: l.drop i := by
  intro i
  induction i with
  | zero => intro l _; simp
  | succ i ih =>
    intro l h
    cases l with
    | nil => simp at h
    | cons a l => simp only [List.length_cons] at h; simp [ih l (by omega)]

theorem byteStep_spec (op : StrOp) (bs : List UInt8) :
    (∃ r, op.stepBytes bs = some r ∧ byteStep op bs = .ok r) ∨
      (op.stepBytes bs = none ∧ byteStep op bs = .error .panic) := by
  cases op with
  | push c => left; exact ⟨_, rfl, by simp only [byteStep, charToByte_lowByte]⟩
  | pop => left; exact ⟨_, rfl, rfl⟩
  | insert i c =>
    by_cases h : i ≤ bs.length
    · left
      refine ⟨(.unit, bs.insertIdx i (lowByte c)), by simp only [StrOp.stepBytes, if_neg (Nat.not_lt.2 h)], ?_⟩
      simp only [byteStep, if_pos h, charToByte_lowByte, insertIdx_take_drop _ i bs h]
    · right
      simp only [StrOp.stepBytes, byteStep, if_neg h, if_pos (Nat.lt_of_not_le h), and_self]
  | remove i =>
    left
    refine ⟨_, rfl, ?_⟩
    simp only [byteStep, List.eraseIdx_eq_take_drop_succ]
    rfl
  | reserve n => left; exact ⟨_, rfl, rfl⟩
  | assign s => left; exact ⟨_, rfl, rfl⟩
  | len => left; exact ⟨_, rfl, rfl⟩
  | isEmpty => left; refine ⟨_, rfl, ?_⟩; cases bs <;> simp [byteStep]

theorem byteRun_spec (ops : List StrOp) : ∀ (bs : List UInt8),
    (∃ os, (StrOp.runBytes ops bs).1 = os.map some ∧
      byteRun ops bs = .ok (os, (StrOp.runBytes ops bs).2)) ∨
    (none ∈ (StrOp.runBytes ops bs).1 ∧ byteRun ops bs = .error .panic) := by
  induction ops with
  | nil => intro bs; left; exact ⟨[], rfl, rfl⟩
  | cons op ops ih =>
    intro bs
    rcases byteStep_spec op bs with ⟨⟨o, bs1⟩, h1, h2⟩ | ⟨h1, h2⟩
    · rcases ih bs1 with ⟨os, h3, h4⟩ | ⟨h3, h4⟩
      · left
        exact ⟨o :: os, by simp [StrOp.runBytes, h1, h3], by simp [byteRun, StrOp.runBytes, h1, h2, h4]⟩
      · right
        exact ⟨by simp [StrOp.runBytes, h1, h3], by simp [byteRun, h2, h4]⟩
    · right
      exact ⟨by simp [StrOp.runBytes, h1], by simp [byteRun, h2]⟩

theorem SInv.runBytesC {R : RawAlloc UInt8} {w : World UInt8} : ∀ (ops : List StrOp)
    {m : Mem UInt8} {v : Vec} {bs : List UInt8} {cap : Nat}, SInv w m v bs cap →
    ∃ v' m' cap', Str.runC (nullTermAllocator (defaultAllocator R)) ops v m =
        .ok ((StrOp.runBytes ops bs).1, v', m') ∧
      SInv w m' v' (StrOp.runBytes ops bs).2 cap'
  | [], m, v, bs, cap, h => ⟨v, m, cap, rfl, h⟩
  | op :: ops, m, v, bs, cap, h => by
    have h1 := h.step (R := R) op
    rcases byteStep_spec op bs with ⟨⟨o, bs1⟩, g1, g2⟩ | ⟨g1, g2⟩
    · rw [g2] at h1
      obtain ⟨v1, m1, cap1, he1, hi1, _⟩ := h1
      have he := Str.stepC_accepted h g2 he1
      obtain ⟨v2, m2, cap2, he2, hi2⟩ := SInv.runBytesC (R := R) ops hi1
      refine ⟨v2, m2, cap2, by simp [Str.runC, he, he2, StrOp.runBytes, g1], ?_⟩
      simpa [StrOp.runBytes, g1] using hi2
    · have he : Str.stepC (nullTermAllocator (defaultAllocator R)) op v m = .ok (none, v, m) := by
        cases op with
        | insert i c =>
          have hi : ¬ i ≤ bs.length := by
            intro hi; simp [byteStep, hi] at g2
          simp [Str.stepC, Vec.insertC, h.len, hi, Mem.unwound]
        | _ => simp [byteStep] at g2
      obtain ⟨v2, m2, cap2, he2, hi2⟩ := SInv.runBytesC (R := R) ops h
      refine ⟨v2, m2, cap2, by simp [Str.runC, he, he2, StrOp.runBytes, g1], ?_⟩
      simpa [StrOp.runBytes, g1] using hi2

/-- C153.  Whatever the calls and the characters, a string does what the sequence of bytes does: the
calls return what it returns, those with an index out of range panic and change nothing, the bytes
are those of the sequence, and dropping the string gives back all its memory. -/
theorem C153_string_is_bytes (R : RawAlloc UInt8) (m0 : Mem UInt8) (ops : List StrOp) :
    ∃ v m m', Str.runC (strAlloc R) ops Vec.new m0 = .ok ((StrOp.runBytes ops []).1, v, m) ∧
      v.asSlice m = .ok (StrOp.runBytes ops []).2 ∧
      v.len = .ok (StrOp.runBytes ops []).2.length ∧
      Str.drop (strAlloc R) v m = .ok m' ∧ m'.live = m0.live := by
  obtain ⟨v, m, cap, h1, h2⟩ := SInv.runBytesC (R := R) ops (VInv.new nullFits m0)
  obtain ⟨m', he, _, hw, _⟩ := h2.clear (nullTerm_lawful R) false
  exact ⟨v, m, m', h1, h2.slice, h2.len, by simp [Str.drop, strAlloc, he],
    funext fun p => hw p not_false⟩

/-- C153, when panics are not caught: the history ends with the first call that panics, and otherwise
returns what the sequence of bytes returns. -/
theorem C153_string_is_bytes_uncaught (R : RawAlloc UInt8) (m0 : Mem UInt8) (ops : List StrOp) :
    (none ∈ (StrOp.runBytes ops []).1 → Str.run (strAlloc R) ops Vec.new m0 = .error .panic) ∧
    (none ∉ (StrOp.runBytes ops []).1 → ∃ outs v m,
      Str.run (strAlloc R) ops Vec.new m0 = .ok (outs, v, m) ∧
      outs.map some = (StrOp.runBytes ops []).1 ∧ v.asSlice m = .ok (StrOp.runBytes ops []).2) := by
  have h := SInv.run (R := R) ops (VInv.new nullFits m0)
  rcases byteRun_spec ops [] with ⟨os, h1, h2⟩ | ⟨h1, h2⟩
  · rw [h2] at h
    obtain ⟨v, m, cap, h3, h4⟩ := h
    refine ⟨fun hn => ?_, fun _ => ⟨os, v, m, h3, h1.symm, h4.slice⟩⟩
    rw [h1] at hn; simp at hn
  · rw [h2] at h
    exact ⟨fun _ => h, fun hn => absurd h1 hn⟩

/-- C153, when some calls are refused memory: only these and calls of `insert` panic, and the others
do what they do on the sequence of bytes without the calls that panicked. -/
theorem C153_string_refusals (R : RawAlloc UInt8) (m0 : Mem UInt8) (calls : List (Bool × StrOp)) :
    ∃ outs v m m', Str.runG (strAlloc R) calls Vec.new m0 = .ok (outs, v, m) ∧
      outs.length = calls.length ∧
      (∀ p ∈ calls.zip outs, p.2 = none → p.1.1 = false ∨ ∃ i c, p.1.2 = .insert i c) ∧
      (StrOp.runBytes (answered (calls.map Prod.snd) outs) []).1 = (outs.filterMap id).map some ∧
      v.asSlice m = .ok (StrOp.runBytes (answered (calls.map Prod.snd) outs) []).2 ∧
      Str.drop (strAlloc R) v m = .ok m' ∧ m'.live = m0.live := by
  obtain ⟨outs, v, m, bs, cap, h1, h2, h3, h4, h5⟩ := SInv.runG (R := R) calls (VInv.new nullFits m0)
  obtain ⟨m', he, _, hw, _⟩ := h5.clear (nullTerm_lawful R) false
  rcases byteRun_spec (answered (calls.map Prod.snd) outs) [] with ⟨os, g1, g2⟩ | ⟨_, g2⟩
  · rw [h4] at g2
    simp only [Except.ok.injEq, Prod.mk.injEq] at g2
    obtain ⟨rfl, g2⟩ := g2
    refine ⟨outs, v, m, m', h1, h2, h3, g1, ?_, by simp [Str.drop, strAlloc, he],
      funext fun p => hw p not_false⟩
    rw [← g2]; exact h5.slice
  · rw [h4] at g2; cases g2

/-- Characters of one to four bytes of UTF-8, and an index out of range. -/
example : StrOp.runBytes [.push 'é', .assign ['é', '€'], .insert 9 'x', .insert 1 '😀', .remove 2,
      .pop, .len] [] =
    ([some .unit, some .unit, none, some .unit, some (.char (some (Char.ofNat 0xC3))),
      some (.char (some (Char.ofNat 0xAC))), some (.nat 5)], [0xE9, 0x00, 0xA9, 0xE2, 0x82]) := by
  decide +kernel

end Verif
