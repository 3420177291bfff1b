import Verif.Text.InPlaceProofs
import Verif.Props.Text

/-!
# C136: a string may be changed in place
-/

set_option autoImplicit false

namespace Verif
open Spec

/-- C136.  A history of calls with ASCII characters on an empty `String`, and of changes of case through
the `&mut str` it lends out, has the results that it has on the text, panics included; the contents
are the text; dropping the string gives memory back as it was. -/
theorem C136_string_edited (R : RawAlloc UInt8) (m0 : Mem UInt8) (ops : List TextEdit)
    (hops : ∀ op ∈ ops, op.Plain) :
    match TextEdit.run ops [] with
    | .error e => Str.edit (strAlloc R) ops Vec.new m0 = .error e
    | .ok (outs, cs) => ∃ v m, Str.edit (strAlloc R) ops Vec.new m0 = .ok (outs, v, m) ∧
        v.asSlice m = .ok (utf8 cs) ∧ v.len = .ok cs.length ∧
        ∃ m', Str.drop (strAlloc R) v m = .ok m' ∧ m'.live = m0.live := by
  have h1 := byteEdit_plain ops (cs := []) hops (by simp)
  have h2 := SInv.edit (R := R) ops (VInv.new nullFits m0)
  cases hr : TextEdit.run ops [] with
  | error e =>
    rw [hr] at h1; simp only [List.map_nil] at h1
    rw [h1] at h2; exact h2
  | ok r =>
    obtain ⟨outs, cs⟩ := r
    rw [hr] at h1; simp only [List.map_nil] at h1
    rw [h1.1] at h2
    obtain ⟨v, m, cap, he, hi⟩ := h2
    have hu := utf8_ascii h1.2
    obtain ⟨m', hc, _, hw, _⟩ := hi.clear (nullTerm_lawful R) false
    exact ⟨v, m, he, by rw [hu]; exact hi.slice, by simpa using hi.len, m', by
      simp [Str.drop, hc], funext fun p => hw p not_false⟩

/-- C136.  Text of any kind: if a string that any history has led to contains `cs`, then afterwards it
contains `cs` with the ASCII letters in upper (or lower) case and all other characters as they were.
Length, capacity and the byte behind the text are the same, and nothing is allocated. -/
theorem C136_case_of_any_text (R : RawAlloc UInt8) (m0 : Mem UInt8) (ops : List TextEdit)
    {outs : List StrOut} {v : Vec} {m : Mem UInt8}
    (hrun : Str.edit (strAlloc R) ops Vec.new m0 = .ok (outs, v, m)) {cs : List Char}
    (hcs : v.asSlice m = .ok (utf8 cs)) (op : TextEdit) (g : Char → Char)
    (hop : op = .upper ∧ g = Char.toUpper ∨ op = .lower ∧ g = Char.toLower) :
    ∃ m', Str.editStep (strAlloc R) op v m = .ok (.unit, v, m') ∧
      v.asSlice m' = .ok (utf8 (cs.map g)) ∧ m'.read v.endPtr = m.read v.endPtr ∧
      m'.allocs = m.allocs ∧ ∀ b, m0.live b ≠ none → m'.live b = m0.live b := by
  have h := SInv.edit (R := R) ops (VInv.new nullFits m0)
  cases hr : byteEdit ops [] with
  | error e => rw [hr] at h; simp only at h; rw [h] at hrun; cases hrun
  | ok r =>
    obtain ⟨os, bs⟩ := r
    rw [hr] at h
    obtain ⟨v', m1, cap, he, hi⟩ := h
    rw [hrun] at he
    cases he
    have : bs = utf8 cs := by
      have h := hi.slice
      rw [hcs] at h
      cases h; rfl
    subst this
    have key : ∀ {f : UInt8 → UInt8}, Follows f g → ∃ m', Str.mapBytes f v m = .ok m' ∧
        v.asSlice m' = .ok (utf8 (cs.map g)) ∧ m'.read v.endPtr = m.read v.endPtr ∧
        m'.allocs = m.allocs ∧ ∀ b, m0.live b ≠ none → m'.live b = m0.live b := by
      intro f hf
      obtain ⟨m', e1, e2, e3, e4⟩ := hi.mapBytes f
      refine ⟨m', e1, by rw [← hf.utf8]; exact e2.slice, e4, by simpa using e3.allocs, ?_⟩
      intro b hb
      rcases e2.rep with h | ⟨b', blk, h⟩
      · rw [h.live]
      · rw [h.live]
        have : b ≠ b' := by rintro rfl; exact hb h.fresh
        simp [this]
    rcases hop with ⟨rfl, rfl⟩ | ⟨rfl, rfl⟩
    · obtain ⟨m', e1, e2⟩ := key upper_follows
      exact ⟨m', by simp [Str.editStep, e1], e2⟩
    · obtain ⟨m', e1, e2⟩ := key lower_follows
      exact ⟨m', by simp [Str.editStep, e1], e2⟩

/-- What happens to letters, digits, and a letter that is not ASCII. -/
example : ['a', 'Z', '1', 'é'].map Char.toUpper = ['A', 'Z', '1', 'é'] := by decide

example : (do
    let (os, v, m) ← Str.edit (strAlloc RawAlloc.bump)
      [.call (.push 'a'), .call (.push 'B'), .lower, .call (.insert 1 '-'), .upper, .call .pop]
      Vec.new Mem.empty
    .ok (os, v.asSlice m, m.read v.endPtr)) =
  (.ok ([.unit, .unit, .unit, .unit, .unit, .char (some 'B')], .ok [65, 45], .ok 0) : Exec _) := rfl

/-- Two bytes of a letter that is not ASCII stay as they are. -/
example : (do
    let (_, v, m) ← Str.edit (strAlloc RawAlloc.bump) [.call (.assign ['n', 'é', 'z']), .upper]
      Vec.new Mem.empty
    .ok (v.asSlice m, m.read v.endPtr)) = (.ok (.ok [78, 195, 169, 90], .ok 0) : Exec _) := rfl

end Verif
