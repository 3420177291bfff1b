import Verif.Vector.Model
import Verif.Deque.Model
import Verif.LinkedList.Model
import Verif.HashTable.Model
import Verif.Tree.Model
import Verif.VectorMap.Model
import Verif.Text.Model

/-!
# `Debug` and `Display` of the containers

The text written is a list of characters; how an element prints is a function `dbg` from
elements to characters.  The formatter never fails (Debug/Printing.lean is about those that do) and
has no flags set (`{:?}`; Debug/Pretty.lean is about `{:#?}`).
-/

set_option autoImplicit false

namespace Verif

variable {α K V σ ι : Type}

/-- Everything an iterator yields until its first `None`, as a `for` loop asks for it. -/
def collectFrom (next : ι → Exec (Option α × ι)) : Nat → ι → Exec (List α)
  | 0, _ => .error .ub
  | fuel + 1, it => do
    match ← next it with
    | (none, _) => .ok []
    | (some x, it) => .ok (x :: (← collectFrom next fuel it))

/-- `DebugList::entries`/`finish` (standard library, also the `Debug` of a slice): the
separator is written before every entry but the first.  `has` is the builder's `has_fields`. -/
def debugEntries (dbg : α → List Char) : Bool → List α → List Char → List Char
  | _, [], out => out
  | has, x :: xs, out =>
    debugEntries dbg true xs ((if has then out ++ ", ".toList else out) ++ dbg x)

/-- `f.debug_list().entries(..).finish()` (standard library). -/
def debugList (dbg : α → List Char) (xs : List α) : List Char :=
  debugEntries dbg false xs "[".toList ++ "]".toList

/-- `Itertools::format` (itertools crate): the first element, then separator and element for
each further one. -/
def formatRest (dbg : α → List Char) (sep : List Char) : List α → List Char → List Char
  | [], out => out
  | x :: xs, out => formatRest dbg sep xs (out ++ sep ++ dbg x)

/-- See `formatRest`. -/
def formatSep (dbg : α → List Char) (sep : List Char) : List α → List Char
  | [] => []
  | x :: xs => formatRest dbg sep xs (dbg x)

/-- `[String]::join` (standard library). -/
def joinStrings (sep : List Char) : List (List Char) → List Char
  | [] => []
  | s :: ss => s ++ ss.flatMap (sep ++ ·)

/-- `Debug` of `Vector` (src/vector/mod.rs:323-327) and of `FixedVector`
(src/fixed_vector/mod.rs:111-117), which prints its vector: that of the slice. -/
def Vec.debug (dbg : α → List Char) (v : Vec) (m : Mem α) : Exec (List Char) := do
  let xs ← v.asSlice m
  .ok (debugList dbg xs)

/-- `Debug` of `Deque` (src/deque/mod.rs:424-428) and of `Queue` (src/queue.rs:84-88), which
prints its deque. -/
def Deque.debug (dbg : α → List Char) (fuel : Nat) (d : Deque) (m : DMem α) : Exec (List Char) := do
  let it ← d.iter
  let xs ← collectFrom (fun it => it.step .next m) fuel it
  .ok ("[ ".toList ++ formatSep dbg ", ".toList xs ++ " ]".toList)

/-- One value of a list's iterator (src/list/iter.rs:26-35). -/
def LIter.nextVal (m : LMem α) (it : LIter) : Exec (Option α × LIter) := do
  match ← it.next m with
  | (none, it) => .ok (none, it)
  | (some p, it) => do .ok (some (← m.val p), it)

/-- `Debug` of `List` (src/list/mod.rs:222-226) and of the fixed lists
(src/fixed_list/mod.rs:79-85, src/fixed_list/conformant.rs:166-172), which print their list. -/
def LList.debug (dbg : α → List Char) (fuel : Nat) (l : LList σ) (m : LMem α) :
    Exec (List Char) := do
  let xs ← collectFrom (LIter.nextVal m) fuel l.iter
  .ok (debugList dbg xs)

/-- `format!("{k:?}: {v:?}")` (src/hash_map/mod.rs:157, src/map/mod.rs:158,
src/vector_map/mod.rs:216). -/
def formatEntry (dk : K → List Char) (dv : V → List Char) (e : K × V) : List Char :=
  dk e.1 ++ [':', ' '] ++ dv e.2

/-- `write!(f, "{{{}}}", ..join(","))` (the places above and src/hash_set/mod.rs:113-120). -/
def braced (ps : List (List Char)) : List Char := '{' :: (joinStrings [','] ps ++ ['}'])

/-- One entry of a hash table's iterator (src/internal/hash_table/iter.rs:88-122). -/
def HIter.nextEntry (m : HMem K V) (it : HIter) : Exec (Option (K × V) × HIter) := do
  match ← it.next m with
  | (none, it) => .ok (none, it)
  | (some p, it) => do
    let c ← m.node p
    .ok (some (c.key, c.val), it)

/-- `Debug` of `HashMap` (src/hash_map/mod.rs:146-160). -/
def HTable.debugMap (dk : K → List Char) (dv : V → List Char) (fuel : Nat) (t : HTable σ)
    (m : HMem K V) : Exec (List Char) := do
  let it ← t.iter m
  let es ← collectFrom (HIter.nextEntry m) fuel it
  .ok (braced (es.map (formatEntry dk dv)))

/-- `Debug` of `HashSet` (src/hash_set/mod.rs:111-122). -/
def HTable.debugSet (dk : K → List Char) (fuel : Nat) (t : HTable σ) (m : HMem K Unit) :
    Exec (List Char) := do
  let it ← t.iter m
  let es ← collectFrom (HIter.nextEntry m) fuel it
  .ok (braced (es.map fun e => dk e.1))

/-- `Debug` of `Map` (src/map/mod.rs:151-162). -/
def RBTree.debugMap (dk : K → List Char) (dv : V → List Char) (fuel : Nat) (t : RBTree σ)
    (m : TMem K V) : Exec (List Char) := do
  let es ← t.toList fuel m
  .ok (braced (es.map (formatEntry dk dv)))

/-- `Debug` of `VectorMap` (src/vector_map/mod.rs:209-221). -/
def VMap.debug (dk : K → List Char) (dv : V → List Char) (v : Vec) (m : Mem (K × V)) :
    Exec (List Char) := do
  let es ← v.asSlice m
  .ok (braced (es.map (formatEntry dk dv)))

/-- `Debug` of `String` (src/string/mod.rs:206-210), as the bytes written: quotes around the
contents, nothing in which is escaped. -/
def Str.debug (v : Vec) (m : Mem UInt8) : Exec (List UInt8) := do
  let bs ← v.asSlice m
  .ok (34 :: (bs ++ [34]))

/-- `Display` of `String` (src/string/mod.rs:232-236), as the bytes written. -/
def Str.display (v : Vec) (m : Mem UInt8) : Exec (List UInt8) := v.asSlice m

end Verif
