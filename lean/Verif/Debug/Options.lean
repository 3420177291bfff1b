import Verif.Debug.Proofs
import Verif.Spec.FormatOptions

/-!
# `Debug` and `Display` of the containers with a width or a precision

How an element prints depends on the options of the formatter it is given: `dbg` is a function of both.
The options in `{:?}` and `{}` are the default ones.
-/

set_option autoImplicit false

namespace Verif
open Spec

variable {α K V σ : Type}

/-- `Display` of `String` (src/string/mod.rs:232-236), as the bytes written: `write!(f, "{}", ..)`
prints the text with the options written there, which are none. -/
def Str.displayWith (_ : FormatOptions) (v : Vec) (m : Mem UInt8) : Exec (List UInt8) := Str.display v m

/-- `Debug` of `List` (src/list/mod.rs:222-226) and of the fixed lists (src/fixed_list/mod.rs:79-85,
src/fixed_list/conformant.rs:166-172): `debug_list` hands its formatter to the elements. -/
def LList.debugWith (dbg : FormatOptions → α → List Char) (o : FormatOptions) (fuel : Nat) (l : LList σ)
    (m : LMem α) : Exec (List Char) := l.debug (dbg o) fuel m

/-- `Debug` of `Vector` (src/vector/mod.rs:323-327) and of `FixedVector`
(src/fixed_vector/mod.rs:111-117): `format_args!("{:?}", ..)` has no options. -/
def Vec.debugWith (dbg : FormatOptions → α → List Char) (_ : FormatOptions) (v : Vec) (m : Mem α) :
    Exec (List Char) := v.debug (dbg {}) m

/-- `Debug` of `Deque` (src/deque/mod.rs:424-428) and of `Queue` (src/queue.rs:84-88):
`write!(f, "[ {:?} ]", ..)` has no options. -/
def Deque.debugWith (dbg : FormatOptions → α → List Char) (_ : FormatOptions) (fuel : Nat) (d : Deque)
    (m : DMem α) : Exec (List Char) := d.debug (dbg {}) fuel m

/-- `Debug` of `VectorMap` (src/vector_map/mod.rs:209-221): `format!("{k:?}: {v:?}")` has no
options. -/
def VMap.debugWith (dk : FormatOptions → K → List Char) (dv : FormatOptions → V → List Char)
    (_ : FormatOptions) (v : Vec) (m : Mem (K × V)) : Exec (List Char) := VMap.debug (dk {}) (dv {}) v m

/-- `Debug` of `HashMap` (src/hash_map/mod.rs:146-160), likewise. -/
def HTable.debugMapWith (dk : FormatOptions → K → List Char) (dv : FormatOptions → V → List Char)
    (_ : FormatOptions) (fuel : Nat) (t : HTable σ) (m : HMem K V) : Exec (List Char) :=
  t.debugMap (dk {}) (dv {}) fuel m

/-- `Debug` of `HashSet` (src/hash_set/mod.rs:111-122), likewise. -/
def HTable.debugSetWith (dk : FormatOptions → K → List Char) (_ : FormatOptions) (fuel : Nat)
    (t : HTable σ) (m : HMem K Unit) : Exec (List Char) := t.debugSet (dk {}) fuel m

/-- `Debug` of `Map` (src/map/mod.rs:151-162), likewise. -/
def RBTree.debugMapWith (dk : FormatOptions → K → List Char) (dv : FormatOptions → V → List Char)
    (_ : FormatOptions) (fuel : Nat) (t : RBTree σ) (m : TMem K V) : Exec (List Char) :=
  t.debugMap (dk {}) (dv {}) fuel m

/-! ## Proofs -/

theorem FormatOptions.apply_length (o : FormatOptions) (cs : List Char) :
    (o.apply cs).length = max (o.width.getD 0) (min (o.precision.getD cs.length) cs.length) := by
  obtain ⟨fl, al, w, p⟩ := o
  cases p <;> cases al <;> simp [FormatOptions.apply] <;> omega

theorem FormatOptions.apply_eq (o : FormatOptions) (cs : List Char)
    (hp : ∀ p, o.precision = some p → cs.length ≤ p) (hw : ∀ w, o.width = some w → w ≤ cs.length) :
    o.apply cs = cs := by
  obtain ⟨fl, al, w, p⟩ := o
  have h0 : w.getD 0 - cs.length = 0 := by
    cases w with
    | none => simp
    | some w => have := hw w rfl; simp; omega
  cases p with
  | none => cases al <;> simp [FormatOptions.apply, h0]
  | some p =>
    have := hp p rfl
    cases al <;> simp [FormatOptions.apply, h0, List.take_of_length_le this]

theorem separated_length_lt {α : Type} {f g : α → List Char} {sep : List Char}
    (h : ∀ x, (f x).length < (g x).length) : ∀ xs : List α, xs ≠ [] →
    (separated sep (xs.map f)).length < (separated sep (xs.map g)).length
  | [], hx => absurd rfl hx
  | [x], _ => by simpa [separated] using h x
  | x :: y :: xs, _ => by
    have h1 := separated_length_lt (sep := sep) h (y :: xs) (by simp)
    have h2 := h x
    simp only [List.map_cons] at h1
    simp only [List.map_cons, separated, List.length_append]
    omega

theorem listed_ne_of_longer {α : Type} {f g : α → List Char} {o s c o' s' c' : String}
    (ho : o = o') (hs : s = s') (hc : c = c')
    (h : ∀ x, (f x).length < (g x).length) {xs : List α} (hx : xs ≠ []) :
    listed o s c (xs.map f) ≠ listed o' s' c' (xs.map g) := by
  subst ho hs hc
  intro he
  have := congrArg List.length he
  have h1 := separated_length_lt (sep := s.toList) h xs hx
  simp only [listed, List.length_append] at this
  omega

end Verif
