import Verif.Debug.Proofs
import Verif.Spec.Printing

/-!
# `Debug` of the containers, text by text

The formatter is any writer; keys, values and elements print as any `Printing`.  No flags are set.
-/

set_option autoImplicit false

namespace Verif
open Spec

variable {α K V σ : Type}

/-- `a?; b` for two things to be printed. -/
def Spec.Printing.andThen : Printing → Printing → Printing
  | .done true, b => b
  | .done false, _ => .done false
  | .write t next, b => .write t fun r => (next r).andThen b

/-- `f.write_str(t)`. -/
def puts (t : List Char) : Printing := .write t .done

/-- `DebugList::entries` (standard library): `result` is the builder's, `has` its `has_fields`. -/
def printEntries : Bool → List Printing → Printing → Printing
  | _, [], result => result
  | has, p :: ps, result =>
    printEntries true ps (result.andThen (if has then (puts ", ".toList).andThen p else p))

/-- `f.debug_list().entries(..).finish()` (standard library). -/
def printList (ps : List Printing) : Printing :=
  (printEntries false ps (puts "[".toList)).andThen (puts "]".toList)

/-- `Itertools::format` (itertools crate) after the first element. -/
def printRest (sep : List Char) : List Printing → Printing
  | [] => .done true
  | p :: ps => (puts sep).andThen (p.andThen (printRest sep ps))

/-- `Itertools::format` (itertools crate). -/
def printSep (sep : List Char) : List Printing → Printing
  | [] => .done true
  | p :: ps => p.andThen (printRest sep ps)

/-- `format!` (standard library): prints to a new string, and panics if an error is reported. -/
def formatStr (p : Printing) : Exec (List Char) :=
  match p.to (fun t out => (true, out ++ t)) [] with
  | (true, out) => .ok out
  | (false, _) => .error .panic

/-- `.map(|x| format!(..)).collect::<Vec<String>>()` (src/hash_map/mod.rs:153-155,
src/hash_set/mod.rs:116-118, src/map/mod.rs:156-158, src/vector_map/mod.rs:214-217). -/
def formatAll : List Printing → Exec (List (List Char))
  | [] => .ok []
  | p :: ps => do
    let s ← formatStr p
    let ss ← formatAll ps
    .ok (s :: ss)

/-- `write!(f, "{{{}}}", s)` (the places above). -/
def putBraced (s : List Char) : Printing :=
  (puts "{".toList).andThen ((puts s).andThen (puts "}".toList))

/-- `"{k:?}: {v:?}"` (src/hash_map/mod.rs:154, src/map/mod.rs:157, src/vector_map/mod.rs:216). -/
def printEntry (dk : K → Printing) (dv : V → Printing) (e : K × V) : Printing :=
  (dk e.1).andThen ((puts ": ".toList).andThen (dv e.2))

/-- `Debug` of `Vector` (src/vector/mod.rs:323-327) and of `FixedVector`
(src/fixed_vector/mod.rs:111-117). -/
def Vec.print (dbg : α → Printing) (v : Vec) (m : Mem α) : Exec Printing := do
  let xs ← v.asSlice m
  .ok (printList (xs.map dbg))

/-- `Debug` of `Deque` (src/deque/mod.rs:424-428) and of `Queue` (src/queue.rs:84-88). -/
def Deque.print (dbg : α → Printing) (fuel : Nat) (d : Deque) (m : DMem α) : Exec Printing := do
  let it ← d.iter
  let xs ← collectFrom (fun it => it.step .next m) fuel it
  .ok ((puts "[ ".toList).andThen ((printSep ", ".toList (xs.map dbg)).andThen (puts " ]".toList)))

/-- `Debug` of `List` (src/list/mod.rs:222-226) and of the fixed lists
(src/fixed_list/mod.rs:79-85, src/fixed_list/conformant.rs:166-172). -/
def LList.print (dbg : α → Printing) (fuel : Nat) (l : LList σ) (m : LMem α) : Exec Printing := do
  let xs ← collectFrom (LIter.nextVal m) fuel l.iter
  .ok (printList (xs.map dbg))

/-- `Debug` of `HashMap` (src/hash_map/mod.rs:146-160). -/
def HTable.printMap (dk : K → Printing) (dv : V → Printing) (fuel : Nat) (t : HTable σ)
    (m : HMem K V) : Exec Printing := do
  let it ← t.iter m
  let es ← collectFrom (HIter.nextEntry m) fuel it
  let ss ← formatAll (es.map (printEntry dk dv))
  .ok (putBraced (joinStrings ",".toList ss))

/-- `Debug` of `HashSet` (src/hash_set/mod.rs:111-122). -/
def HTable.printSet (dk : K → Printing) (fuel : Nat) (t : HTable σ) (m : HMem K Unit) :
    Exec Printing := do
  let it ← t.iter m
  let es ← collectFrom (HIter.nextEntry m) fuel it
  let ss ← formatAll (es.map fun e => dk e.1)
  .ok (putBraced (joinStrings ",".toList ss))

/-- `Debug` of `Map` (src/map/mod.rs:151-162). -/
def RBTree.printMap (dk : K → Printing) (dv : V → Printing) (fuel : Nat) (t : RBTree σ)
    (m : TMem K V) : Exec Printing := do
  let es ← t.toList fuel m
  let ss ← formatAll (es.map (printEntry dk dv))
  .ok (putBraced (joinStrings ",".toList ss))

/-- `Debug` of `VectorMap` (src/vector_map/mod.rs:209-221). -/
def VMap.print (dk : K → Printing) (dv : V → Printing) (v : Vec) (m : Mem (K × V)) :
    Exec Printing := do
  let es ← v.asSlice m
  let ss ← formatAll (es.map (printEntry dk dv))
  .ok (putBraced (joinStrings ",".toList ss))

/-! ## Lemmas -/

variable {S : Type} {put : List Char → S → Bool × S}

/-- `a` then `b`, as actions on a writer. -/
def andThen (a b : S → Bool × S) (s : S) : Bool × S :=
  match a s with
  | (true, s) => b s
  | (false, s) => (false, s)

theorem andThen_to (a b : Printing) : (a.andThen b).to put = andThen (a.to put) (b.to put) := by
  induction a with
  | done ok => cases ok <;> rfl
  | write t next ih =>
    funext s
    simp only [Printing.andThen, Printing.to, ih, andThen]

theorem puts_to (t : List Char) : (puts t).to put = put t := rfl

theorem andThen_assoc (a b c : S → Bool × S) : andThen (andThen a b) c = andThen a (andThen b c) := by
  funext s
  simp only [andThen]
  rcases a s with ⟨⟨⟩, s'⟩ <;> rfl

theorem inTurn_cons (a : S → Bool × S) (as : List (S → Bool × S)) :
    inTurn (a :: as) = andThen a (inTurn as) := by
  funext s
  simp only [inTurn, andThen]
  rcases a s with ⟨⟨⟩, s'⟩ <;> rfl

theorem inTurn_append (as bs : List (S → Bool × S)) :
    inTurn (as ++ bs) = andThen (inTurn as) (inTurn bs) := by
  induction as with
  | nil => funext s; simp [inTurn, andThen]
  | cons a as ih => rw [List.cons_append, inTurn_cons, inTurn_cons, ih, andThen_assoc]

theorem inTurn_one (a : S → Bool × S) : inTurn [a] = a := by
  funext s
  simp only [inTurn]
  rcases a s with ⟨⟨⟩, s'⟩ <;> rfl

/-- Separator and thing, for each. -/
theorem intersperse_cons_flat {β : Type} (sep p : β) (ps : List β) :
    (p :: ps).intersperse sep = p :: ps.flatMap fun q => [sep, q] := by
  induction ps generalizing p with
  | nil => rfl
  | cons q ps ih => rw [List.intersperse_cons_cons, ih]; simp

theorem printRest_to (sep : List Char) (ps : List Printing) :
    (printRest sep ps).to put = inTurn ((ps.map (·.to put)).flatMap fun q => [put sep, q]) := by
  induction ps with
  | nil => rfl
  | cons p ps ih =>
    rw [printRest, andThen_to, andThen_to, ih, puts_to]
    simp only [List.map_cons, List.flatMap_cons, List.cons_append, List.nil_append, inTurn_cons]

theorem printSep_to (sep : List Char) (ps : List Printing) :
    (printSep sep ps).to put = inTurn ((ps.map (·.to put)).intersperse (put sep)) := by
  cases ps with
  | nil => rfl
  | cons p ps =>
    rw [printSep, andThen_to, printRest_to, List.map_cons, intersperse_cons_flat, inTurn_cons]

theorem printEntries_true (ps : List Printing) (r : Printing) :
    (printEntries true ps r).to put = andThen (r.to put)
      (inTurn ((ps.map (·.to put)).flatMap fun q => [put ", ".toList, q])) := by
  induction ps generalizing r with
  | nil =>
    funext s
    simp only [printEntries, List.map_nil, List.flatMap_nil, andThen, inTurn]
    rcases r.to put s with ⟨⟨⟩, s'⟩ <;> rfl
  | cons p ps ih =>
    rw [printEntries, ih, if_pos rfl, andThen_to, andThen_to, puts_to]
    simp only [List.map_cons, List.flatMap_cons, List.cons_append, List.nil_append, inTurn_cons,
      andThen_assoc]

theorem printList_to (ps : List Printing) :
    (printList ps).to put = inTurn (listing put "[" ", " "]" (ps.map (·.to put))) := by
  rw [printList, andThen_to, listing, inTurn_append, inTurn_one, puts_to]
  refine congrArg (andThen · _) ?_
  rw [List.singleton_append, inTurn_cons]
  cases ps with
  | nil =>
    funext s
    simp only [printEntries, andThen, inTurn, puts_to, List.map_nil, List.intersperse_nil]
    rcases put "[".toList s with ⟨⟨⟩, s'⟩ <;> rfl
  | cons p ps =>
    rw [printEntries, printEntries_true, andThen_to, puts_to, List.map_cons, intersperse_cons_flat,
      inTurn_cons, andThen_assoc]
    rfl

theorem putBraced_to (t : List Char) :
    (putBraced t).to put = inTurn [put "{".toList, put t, put "}".toList] := by
  rw [putBraced, andThen_to, andThen_to, puts_to, puts_to, puts_to]
  simp only [inTurn_cons]
  congr 2
  rw [← inTurn_cons, inTurn_one]

/-- To a writer that takes everything, `a` then `b` writes the one text after the other. -/
theorem takeAll_from (p : Printing) (s : List Char) :
    p.to takeAll s = ((p.to takeAll []).1, s ++ (p.to takeAll []).2) := by
  induction p generalizing s with
  | done ok => simp [Printing.to]
  | write t next ih =>
    simp only [Printing.to, takeAll, List.nil_append]
    rw [ih true (s ++ t), ih true t]
    simp [List.append_assoc]

theorem text_andThen (a b : Printing) : (a.andThen b).text =
    a.text.bind fun x => b.text.map (x ++ ·) := by
  simp only [Printing.text, andThen_to, andThen]
  rcases a.to takeAll [] with ⟨⟨⟩, x⟩
  · simp
  · simp only [takeAll_from b x]
    cases (b.to takeAll []).1 <;> simp

theorem text_puts (t : List Char) : (puts t).text = some t := rfl

theorem formatStr_eq (p : Printing) : formatStr p = match p.text with
    | some s => .ok s
    | none => .error .panic := by
  have : p.to (fun t out => (true, out ++ t)) [] = p.to takeAll [] := rfl
  simp only [formatStr, Printing.text, this]
  rcases p.to takeAll [] with ⟨⟨⟩, s⟩ <;> rfl

theorem formatAll_ok {ps : List Printing} {ss : List (List Char)}
    (h : ps.map (·.text) = ss.map some) : formatAll ps = .ok ss := by
  induction ps generalizing ss with
  | nil =>
    cases ss with
    | nil => rfl
    | cons s ss => simp at h
  | cons p ps ih =>
    cases ss with
    | nil => simp at h
    | cons s ss =>
      simp only [List.map_cons, List.cons.injEq] at h
      simp [formatAll, formatStr_eq, h.1, ih h.2]

theorem formatAll_panic {ps : List Printing} (h : ∃ p ∈ ps, p.text = none) :
    formatAll ps = .error .panic := by
  induction ps with
  | nil => simp at h
  | cons p ps ih =>
    cases hp : p.text with
    | none => simp [formatAll, formatStr_eq, hp]
    | some s =>
      have : ∃ q ∈ ps, q.text = none := by
        obtain ⟨q, hq, hn⟩ := h
        rcases List.mem_cons.1 hq with rfl | hq
        · rw [hp] at hn; simp at hn
        · exact ⟨q, hq, hn⟩
      simp [formatAll, formatStr_eq, hp, ih this]

end Verif
