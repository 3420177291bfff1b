import Verif.Debug.Proofs
import Verif.Spec.Pretty

/-!
# `Debug` of the containers with the flag of `{:#?}`

How an element prints depends on the flag of the formatter it is given: `dbg` is a function of both.
-/

set_option autoImplicit false

namespace Verif
open Spec

variable {α K V σ : Type}

/-- `PadAdapter::write_str` (standard library): four spaces are written before the first character of
a line.  The argument is its `on_newline`; the standard library cuts the text into lines first, here it
goes character by character. -/
def padded : Bool → List Char → List Char
  | _, [] => []
  | nl, c :: cs => (if nl then "    ".toList else []) ++ c :: padded (c == '\n') cs

/-- `DebugList::entries` (standard library) if the flag is set: before the first entry the line is
ended, and every entry is written with a comma and a line end through a `PadAdapter`. -/
def prettyEntries (dbg : α → List Char) : Bool → List α → List Char → List Char
  | _, [], out => out
  | has, x :: xs, out =>
    prettyEntries dbg true xs ((if has then out else out ++ ['\n']) ++ padded true (dbg x ++ [',', '\n']))

/-- `f.debug_list().entries(..).finish()` (standard library). -/
def debugListFlag (dbg : Bool → α → List Char) (alt : Bool) (xs : List α) : List Char :=
  if alt then prettyEntries (dbg true) false xs "[".toList ++ "]".toList else debugList (dbg false) xs

/-- `Debug` of `List` (src/list/mod.rs:222-226) and of the fixed lists (src/fixed_list/mod.rs:79-85,
src/fixed_list/conformant.rs:166-172), which hand it their formatter. -/
def LList.debugFlag (dbg : Bool → α → List Char) (alt : Bool) (fuel : Nat) (l : LList σ) (m : LMem α) :
    Exec (List Char) := do
  let xs ← collectFrom (LIter.nextVal m) fuel l.iter
  .ok (debugListFlag dbg alt xs)

/-- `format_args!("{:?}", ..)`, `write!(f, "..{:?}..", ..)` and `format!("{:?}", ..)`: what is printed
by them gets the flags written there, whatever those of the formatter are. -/
def plain (dbg : Bool → α → List Char) (_ : Bool) : α → List Char := dbg false

/-- `Debug` of `Vector` (src/vector/mod.rs:323-327) and of `FixedVector`
(src/fixed_vector/mod.rs:111-117). -/
def Vec.debugFlag (dbg : Bool → α → List Char) (alt : Bool) (v : Vec) (m : Mem α) : Exec (List Char) :=
  v.debug (plain dbg alt) m

/-- `Debug` of `Deque` (src/deque/mod.rs:424-428) and of `Queue` (src/queue.rs:84-88). -/
def Deque.debugFlag (dbg : Bool → α → List Char) (alt : Bool) (fuel : Nat) (d : Deque) (m : DMem α) :
    Exec (List Char) := d.debug (plain dbg alt) fuel m

/-- `Debug` of `HashMap` (src/hash_map/mod.rs:146-160). -/
def HTable.debugMapFlag (dk : Bool → K → List Char) (dv : Bool → V → List Char) (alt : Bool) (fuel : Nat)
    (t : HTable σ) (m : HMem K V) : Exec (List Char) := t.debugMap (plain dk alt) (plain dv alt) fuel m

/-- `Debug` of `HashSet` (src/hash_set/mod.rs:111-122). -/
def HTable.debugSetFlag (dk : Bool → K → List Char) (alt : Bool) (fuel : Nat) (t : HTable σ)
    (m : HMem K Unit) : Exec (List Char) := t.debugSet (plain dk alt) fuel m

/-- `Debug` of `Map` (src/map/mod.rs:151-162). -/
def RBTree.debugMapFlag (dk : Bool → K → List Char) (dv : Bool → V → List Char) (alt : Bool) (fuel : Nat)
    (t : RBTree σ) (m : TMem K V) : Exec (List Char) := t.debugMap (plain dk alt) (plain dv alt) fuel m

/-- `Debug` of `VectorMap` (src/vector_map/mod.rs:209-221). -/
def VMap.debugFlag (dk : Bool → K → List Char) (dv : Bool → V → List Char) (alt : Bool) (v : Vec)
    (m : Mem (K × V)) : Exec (List Char) := VMap.debug (plain dk alt) (plain dv alt) v m

/-! ## Proofs -/

theorem padded_line (l : List Char) (hl : '\n' ∉ l) (s : List Char) : padded false (l ++ s) = l ++ padded false s := by
  induction l with
  | nil => rfl
  | cons c l ih =>
    simp only [List.mem_cons, not_or] at hl
    have : (c == '\n') = false := by simpa using fun h => hl.1 h.symm
    simp [padded, this, ih hl.2]

theorem padded_start (l : List Char) (hl : '\n' ∉ l) (c : Char) (s : List Char) :
    padded true (l ++ c :: s) = ' ' :: ' ' :: ' ' :: ' ' :: (l ++ padded false (c :: s)) := by
  cases l with
  | nil => simp [padded]
  | cons d l =>
    simp only [List.mem_cons, not_or] at hl
    have : (d == '\n') = false := by simpa using fun h => hl.1 h.symm
    simp [padded, this, padded_line l hl.2]

theorem padded_lines : ∀ (ls : List (List Char)), ls ≠ [] → (∀ l ∈ ls, '\n' ∉ l) →
    padded true (separated ['\n'] ls ++ [',', '\n']) = indented ls ++ [',', '\n'] := by
  intro ls
  induction ls with
  | nil => intro h; exact absurd rfl h
  | cons l ls ih =>
    intro _ hl
    cases ls with
    | nil =>
      simp only [separated, indented, List.map_cons, List.map_nil]
      rw [padded_start l (hl l (by simp))]
      simp [padded]
    | cons k ls =>
      have h1 := ih (by simp) fun x hx => hl x (by simp only [List.mem_cons] at hx ⊢; tauto)
      simp only [separated, indented, List.map_cons, List.append_assoc,
        List.cons_append] at h1 ⊢
      rw [padded_start l (hl l (by simp))]
      simp only [padded, Bool.false_eq_true, if_false, List.nil_append, beq_self_eq_true, h1]

theorem padded_inLines {s : List Char} {ls : List (List Char)} (h : InLines s ls) :
    padded true (s ++ [',', '\n']) = indented ls ++ [',', '\n'] := by
  rw [h.1]
  exact padded_lines ls h.2.1 h.2.2

theorem prettyEntries_true {dbg : α → List Char} {lines : α → List (List Char)}
    (hl : ∀ x, InLines (dbg x) (lines x)) (xs : List α) : ∀ out : List Char,
    prettyEntries dbg true xs out = out ++ xs.flatMap fun x => indented (lines x) ++ [',', '\n'] := by
  induction xs with
  | nil => simp [prettyEntries]
  | cons x xs ih => intro out; simp [prettyEntries, ih, padded_inLines (hl x)]

theorem debugListFlag_pretty {dbg : Bool → α → List Char} {lines : α → List (List Char)}
    (hl : ∀ x, InLines (dbg true x) (lines x)) (xs : List α) :
    debugListFlag dbg true xs = pretty "[" "]" (xs.map lines) := by
  cases xs with
  | nil => rfl
  | cons x xs =>
    simp [debugListFlag, prettyEntries, prettyEntries_true hl, padded_inLines (hl x), pretty, List.flatMap_map]

theorem separated_line {sep : List Char} (hs : '\n' ∉ sep) : ∀ (ps : List (List Char)),
    (∀ p ∈ ps, '\n' ∉ p) → '\n' ∉ separated sep ps
  | [], _ => by simp [separated]
  | [p], h => by simpa [separated] using h p (by simp)
  | p :: q :: ps, h => by
    have := separated_line hs (q :: ps) fun x hx => h x (List.mem_cons_of_mem _ hx)
    simp only [separated, List.mem_append, not_or]
    exact ⟨⟨h p (by simp), hs⟩, this⟩

theorem listed_ne_pretty {o s c : String} (ho : '\n' ∉ o.toList) (hs : '\n' ∉ s.toList)
    (hc : '\n' ∉ c.toList) {ps : List (List Char)} (hp : ∀ p ∈ ps, '\n' ∉ p) (o' c' : String)
    {qs : List (List (List Char))} (hq : qs ≠ []) : listed o s c ps ≠ pretty o' c' qs := by
  intro h
  have h1 : '\n' ∈ pretty o' c' qs := by simp [pretty, hq]
  rw [← h] at h1
  simp only [listed, List.mem_append] at h1
  rcases h1 with (h1 | h1) | h1
  · exact ho h1
  · exact separated_line hs ps hp h1
  · exact hc h1

end Verif
