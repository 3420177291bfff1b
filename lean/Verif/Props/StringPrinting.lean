import Verif.Debug.StringPrinting
import Verif.Props.Printing
import Verif.Props.Text

/-!
# C141 for strings
-/

set_option autoImplicit false

namespace Verif
open Spec

/-- C141 for `String`: after any history that leaves the encoding of a text, `{}` hands the writer
this text, and `{:?}` a quote, the text and a quote, up to the first that is refused, which is
reported.  If the bytes encode no text, which C19 shows to happen, printing is undefined behaviour. -/
theorem C141_string_prints (R : RawAlloc UInt8) (m0 : Mem UInt8) (ops : List StrOp)
    {outs : List StrOut} {v : Vec} {m : Mem UInt8}
    (hrun : Str.run (strAlloc R) ops Vec.new m0 = .ok (outs, v, m)) :
    ∃ bs, v.asSlice m = .ok bs ∧
      (∀ cs, bs = utf8 cs → ∃ p q, Str.show v m = .ok p ∧ Str.print v m = .ok q ∧
        ∀ (S : Type) (put : List Char → S → Bool × S) (s : S),
          p.to put s = put cs s ∧ q.to put s = inTurn [put ['"'], put cs, put ['"']] s) ∧
      (¬ WellFormed bs → Str.show v m = .error .ub ∧ Str.print v m = .error .ub) := by
  obtain ⟨bs, _, _, hb, _⟩ := C18_assign_partial R m0 ops hrun []
  refine ⟨bs, hb, fun cs hc => ?_, fun h => ?_⟩
  · subst hc
    have ht := Str.asText_ok hb
    refine ⟨_, _, by simp only [Str.show, ht, Exec.ok_bind]; rfl,
      by simp only [Str.print, ht, Exec.ok_bind]; rfl, fun S put s => ⟨by rw [puts_to], ?_⟩⟩
    rw [andThen_to, andThen_to, puts_to, puts_to, inTurn_cons, inTurn_cons, inTurn_one]
    rfl
  · have ht := Str.asText_ub hb h
    simp [Str.show, Str.print, ht]

/-- C141: in particular after any history of ASCII calls. -/
theorem C141_ascii_string_prints (R : RawAlloc UInt8) (m0 : Mem UInt8) (ops : List StrOp)
    (hops : ∀ op ∈ ops, op.Ascii ∧ op.isAssign = false) {outs : List StrOut} {cs : List Char}
    (hs : StrOp.run ops [] = .ok (outs, cs)) :
    ∃ v m p q, Str.run (strAlloc R) ops Vec.new m0 = .ok (outs, v, m) ∧
      Str.show v m = .ok p ∧ Str.print v m = .ok q ∧
      ∀ (S : Type) (put : List Char → S → Bool × S) (s : S),
        p.to put s = put cs s ∧ q.to put s = inTurn [put ['"'], put cs, put ['"']] s := by
  have h := C16_string_refines_text R m0 ops hops
  rw [hs] at h
  obtain ⟨v, m, h1, h2, _⟩ := h
  obtain ⟨bs, hb, h3, _⟩ := C141_string_prints R m0 ops h1
  rw [h2] at hb
  cases hb
  obtain ⟨p, q, h4⟩ := h3 cs rfl
  exact ⟨v, m, p, q, h1, h4⟩

/-- A string made of `ab` and `é` prints; to a writer with room for two characters only the quote
gets through.  Pushing `é` leaves a string that cannot be printed. -/
example : (do
    let (_, v, m) ← Str.run (strAlloc RawAlloc.bump) [.push 'a', .assign ['b', 'é']]
      Vec.new Mem.empty
    let p ← Str.show v m
    let q ← Str.print v m
    .ok (p.to takeAll [], q.to takeAll [],
      q.to (picky fun out t => decide (out.length + t.length ≤ 2)) [])) =
      (.ok ((true, "abé".toList), (true, "\"abé\"".toList), (false, ['"'])) : Exec _) ∧
  (do
    let (_, v, m) ← Str.run (strAlloc RawAlloc.bump) [.push 'a', .push 'é'] Vec.new Mem.empty
    let p ← Str.show v m
    .ok (p.to takeAll [])) = (.error .ub : Exec _) := by
  decide +kernel

end Verif
