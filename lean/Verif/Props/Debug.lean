import Verif.Debug.Proofs
import Verif.Props.Vector
import Verif.Props.Deque
import Verif.Props.LinkedList
import Verif.Props.HashTable
import Verif.Props.Tree
import Verif.Props.VectorMap
import Verif.Props.Text

/-!
# C105: what `{:?}` prints

`dbg`, `dk` and `dv` range over all ways elements, keys and values may print.
-/

set_option autoImplicit false

namespace Verif
open Spec

variable {α K V : Type}

/-- C105.  After any history a `Vector` prints as its elements in order, separated by a comma and
a space, in square brackets. -/
theorem C105_vector_debug (R : RawAlloc α) (nd : Bool) (m0 : Mem α) (ops : List (SeqOp α))
    (hops : nd = true → ∀ op ∈ ops, op.isSlice = false) {outs : List (Out α)} {xs : List α}
    (hs : SeqOp.run ops [] = .ok (outs, xs)) (dbg : α → List Char) :
    ∃ v m, Vec.run (defaultAllocator R) nd ops Vec.new m0 = .ok (outs, v, m) ∧
      v.debug dbg m = .ok (listed "[" ", " "]" (xs.map dbg)) := by
  have h := C01_vector_refines_sequence R nd m0 ops hops
  rw [hs] at h
  obtain ⟨v, m, h1, h2, _⟩ := h
  exact ⟨v, m, h1, by simp [Vec.debug, h2, debugList_eq]⟩

/-- C105.  After any history a `Deque`, and a `Queue` over it, prints as its elements from front to
back, with a space inside the brackets. -/
theorem C105_deque_debug (E : DEnv α) (hS : 0 < E.S) (ops : List (DeqOp α)) (m0 : DMem α)
    {outs : List (Out α)} {d : Deque} {m : DMem α}
    (h : Deque.history E ops m0 = .ok (outs, d, m)) (dbg : α → List Char) (fuel : Nat)
    (hf : (DeqOp.run ops []).2.length < fuel) :
    d.debug dbg fuel m = .ok (listed "[ " ", " " ]" ((DeqOp.run ops []).2.map dbg)) := by
  obtain ⟨it, it', h1, h2⟩ := C28_deque_iterates E hS ops m0 h
    (List.replicate ((DeqOp.run ops []).2.length + 1) .next)
  rw [iterOp_next] at h2
  have := collectFrom_of_run (run := fun n it => DIter.run (List.replicate n .next) m it)
    (DIter.run_next m) _ ⟨it', h2⟩ fuel hf
  simp [Deque.debug, h1, this, listed, formatSep_eq]

/-- C105.  After any history a `List` prints as its elements from front to back. -/
theorem C105_list_debug (P : Placer (LNode α) α) (size align : Nat) (hsz : 0 < size)
    (nd : Bool) (ops : List (ListOp α)) (m0 : LMem α) (hwf : m0.WF) (s : Nat)
    (hs : m0.node s ≠ none) {outs : List (Out α)} {l : LList Unit} {m : LMem α}
    (h : LList.history (listEnv P size align nd false) ops () s m0 = .ok (outs, l, m))
    (dbg : α → List Char) (fuel : Nat) (hf : (ListOp.run ops []).2.length < fuel) :
    l.debug dbg fuel m = .ok (listed "[" ", " "]" ((ListOp.run ops []).2.map dbg)) := by
  obtain ⟨it, h1, _⟩ := C37_list_iterates P hsz align nd ops m0 hwf s hs h
    ((ListOp.run ops []).2.length + 1)
  have := collectFrom_of_run (run := fun n it => LIter.run n it m)
    (LIter.run_next m) _ ⟨it, h1⟩ fuel hf
  simp [LList.debug, this, debugList_eq]

/-- C105.  After any history a `HashMap` prints each of its entries exactly once, as `key: value`,
in some order, separated by commas in curly braces. -/
theorem C105_hash_map_debug {E : HEnv K V Unit} {m0 : HMem K V} (S : HSetting E m0)
    (ops : List (MapOp K V)) (hpk : MapOp.peak E.eq ops [] ≤ 2557710464)
    {outs : List (MapOut K V)} {t : HTable Unit} {m : HMem K V}
    (h : HTable.history E ops m0 = .ok (outs, t, m)) (dk : K → List Char) (dv : V → List Char)
    (fuel : Nat) (hf : (MapOp.run E.eq ops []).2.length < fuel) :
    ∃ es : List (K × V), es.Perm (MapOp.run E.eq ops []).2 ∧
      t.debugMap dk dv fuel m = .ok (listed "{" "," "}" (es.map (showEntry dk dv))) := by
  obtain ⟨it, es, h1, hp, _, h2⟩ := C47_hash_iterates_once S ops hpk h
  have := collectFrom_of_run (run := fun n it => HIter.run m n it)
    (HIter.run_next m) es (h2 _) fuel (by rw [hp.length_eq]; exact hf)
  refine ⟨es, hp, ?_⟩
  simp only [HTable.debugMap, h1, Exec.ok_bind, this, braced_eq]
  rfl

/-- C105.  After any history a `HashSet` prints each of its keys exactly once. -/
theorem C105_hash_set_debug {E : HEnv K Unit Unit} {m0 : HMem K Unit} (S : HSetting E m0)
    (ops : List (SetOp K)) (hpk : SetOp.peak E.eq ops [] ≤ 2557710464) (dk : K → List Char)
    (fuel : Nat) (hf : (SetOp.run id E.eq ops []).2.length < fuel) :
    ∃ outs t m, ∃ es : List K, HTable.historySet E ops m0 = .ok (outs, t, m) ∧
      es.Perm (SetOp.run id E.eq ops []).2 ∧
      t.debugSet dk fuel m = .ok (listed "{" "," "}" (es.map dk)) := by
  obtain ⟨t, m, it, es, h0, h1, hp, h2⟩ := C57_hash_set_partial S ops hpk
  have := collectFrom_of_run (run := fun n it => HIter.run m n it)
    (HIter.run_next m) (es.map fun k => (k, ())) (by
      obtain ⟨it', h⟩ := h2 (es.length + 1)
      exact ⟨it', by simpa using h⟩) fuel (by rw [List.length_map, hp.length_eq]; exact hf)
  refine ⟨_, t, m, es, h0, hp, ?_⟩
  simp only [HTable.debugSet, h1, Exec.ok_bind, this, braced_eq, List.map_map]
  rfl

/-- C105.  A `Map` prints its entries from left to right: for a search tree, in increasing order. -/
theorem C105_map_debug {σ : Type} {T : RBTree σ} {m : TMem K V} {t : Spec.Tree (Nat × K × V)}
    (h : TreeRep T m t) (dk : K → List Char) (dv : V → List Char) {fuel : Nat}
    (hf : t.count + 2 ≤ fuel) :
    T.debugMap dk dv fuel m = .ok (listed "{" "," "}" ((entries t).map (showEntry dk dv))) ∧
      ∀ lt : K → K → Bool, StrictWeak lt → (t.Search fun a b => lt a.2.1 b.2.1) →
        Increasing lt (entries t) := by
  have h1 := C61_tree_iter h hf
  refine ⟨?_, h1.2⟩
  simp only [RBTree.debugMap, h1.1, Exec.ok_bind, braced_eq]
  rfl

/-- C105.  After any history a `VectorMap` prints each of its entries exactly once, in increasing
order of the keys. -/
theorem C105_vector_map_debug (R : RawAlloc (K × V)) (lt eq : K → K → Bool)
    (hw : StrictWeak lt) (hc : Consistent lt eq) (nd : Bool) (m0 : Mem (K × V))
    (ops : List (MapOp K V)) (dk : K → List Char) (dv : V → List Char) :
    ∃ outs v m, ∃ es : List (K × V), VMap.run (defaultAllocator R) lt eq nd ops Vec.new m0 = .ok (outs, v, m) ∧
      es.Perm (MapOp.run eq ops []).2 ∧ Increasing lt es ∧
      VMap.debug dk dv v m = .ok (listed "{" "," "}" (es.map (showEntry dk dv))) := by
  obtain ⟨v, m, xs, h1, h2, h3⟩ := C22_vector_map_refines_map R lt eq hw hc nd m0 ops
  obtain ⟨ys, h4, h5⟩ := C23_vector_map_sorted R lt eq hw hc nd m0 ops h1
  rw [h2] at h4
  cases h4
  refine ⟨_, v, m, xs, h1, h3, h5, ?_⟩
  simp only [VMap.debug, h2, Exec.ok_bind, braced_eq]
  rfl

/-- C105.  After any history of ASCII calls a `String` displays as its characters, and its `{:?}`
is those characters in quotes. -/
theorem C105_string_debug (R : RawAlloc UInt8) (m0 : Mem UInt8) (ops : List StrOp)
    (hops : ∀ op ∈ ops, op.Ascii ∧ op.isAssign = false) {outs : List StrOut} {cs : List Char}
    (hs : StrOp.run ops [] = .ok (outs, cs)) :
    ∃ v m, Str.run (strAlloc R) ops Vec.new m0 = .ok (outs, v, m) ∧
      Str.display v m = .ok (utf8 cs) ∧ Str.debug v m = .ok (utf8 (quoted cs)) := by
  have h := C16_string_refines_text R m0 ops hops
  rw [hs] at h
  obtain ⟨v, m, h1, h2, _⟩ := h
  refine ⟨v, m, h1, h2, ?_⟩
  have hq : String.utf8EncodeChar '"' = [34] := by decide
  simp [Str.debug, h2, quoted, utf8, hq]

/-- C105, as far as it holds.  If no element prints as the empty text or with a comma, and
different elements print differently, then sequences that print the same are the same.  Missing:
elements whose printed form has commas; see `C105_strings_print_alike`. -/
theorem C105_contents_readable_partial (opening closing : String) (sep : List Char)
    (dbg : α → List Char) (hd : ∀ x, dbg x ≠ [] ∧ ',' ∉ dbg x) (hi : Function.Injective dbg)
    (xs ys : List α)
    (h : listed opening (String.ofList (',' :: sep)) closing (xs.map dbg) =
      listed opening (String.ofList (',' :: sep)) closing (ys.map dbg)) : xs = ys := by
  simp only [listed, List.append_assoc] at h
  have h := List.append_cancel_right (List.append_cancel_left h)
  simp only [String.toList_ofList] at h
  exact List.map_injective_iff.2 hi (separated_inj (by simpa using fun x _ => hd x)
    (by simpa using fun x _ => hd x) h)

/-- C105 is false for containers of `String`s, whose `{:?}` escapes nothing: whatever the texts `a`
and `b`, the vector of these two prints like the vector of some single string. -/
theorem C105_strings_print_alike (R : RawAlloc (List Char)) (m0 : Mem (List Char))
    (a b : List Char) :
    ∃ c v m v' m' text,
      Vec.run (defaultAllocator R) true [.push a, .push b] Vec.new m0 = .ok ([.unit, .unit], v, m) ∧
      Vec.run (defaultAllocator R) true [.push c] Vec.new m0 = .ok ([.unit], v', m') ∧
      v.debug quoted m = .ok text ∧ v'.debug quoted m' = .ok text := by
  obtain ⟨v, m, h1, h2⟩ := C105_vector_debug R true m0 [.push a, .push b]
    (by simp [SeqOp.isSlice]) (outs := [.unit, .unit]) (xs := [a, b]) rfl quoted
  obtain ⟨v', m', h3, h4⟩ := C105_vector_debug R true m0 [.push (a ++ "\", \"".toList ++ b)]
    (by simp [SeqOp.isSlice]) (outs := [.unit]) (xs := [_]) rfl quoted
  refine ⟨_, v, m, v', m', _, h1, h3, h2, ?_⟩
  rw [h4]
  simp [listed, separated, quoted]

/-- How a digit prints. -/
def exampleDigit (n : Nat) : List Char := [Char.ofNat (48 + n % 10)]

/-- A concrete case of each theorem above. -/
example : (do
    let (_, v, m) ← Vec.run (defaultAllocator RawAlloc.bump) true
      [.push 1, .push 2, .insert 0 3, .pop] Vec.new Mem.empty
    v.debug exampleDigit m) = (.ok "[3, 1]".toList : Exec _) ∧
  (do
    let (_, d, m) ← Deque.history exampleEnv [.pushBack 1, .pushFront 2, .pushBack 3]
      ⟨Mem.empty, Mem.empty⟩
    d.debug exampleDigit 4 m) = (.ok "[ 2, 1, 3 ]".toList : Exec _) ∧
  (do
    let (_, l, m) ← LList.history (listEnv Placer.bump 24 8 true false)
      [.pushBack 1, .pushBack 2, .pushFront 3] () 64 exampleListMem
    l.debug exampleDigit 4 m) = (.ok "[3, 1, 2]".toList : Exec _) ∧
  (do
    let (_, t, m) ← HTable.history (exampleHash (· % 100))
      [.insert 1 5, .insert 2 6, .insert 1 7] exampleHashMem
    t.debugMap exampleDigit exampleDigit 3 m) = (.ok "{2: 6,1: 7}".toList : Exec _) ∧
  exampleTreeObj.debugMap exampleDigit exampleDigit 6 exampleTreeMem =
    .ok "{2: 0,3: 0,5: 0,9: 0}".toList ∧
  (do
    let (_, v, m) ← Str.run (strAlloc RawAlloc.bump) [.push 'a', .push 'b'] Vec.new Mem.empty
    Str.debug v m) = (.ok [34, 97, 98, 34] : Exec _) := by
  decide +kernel

/-- Digits meet the hypotheses of `C105_contents_readable_partial`. -/
example : (∀ x : Fin 10, exampleDigit x ≠ [] ∧ ',' ∉ exampleDigit x) ∧
    Function.Injective fun x : Fin 10 => exampleDigit x := by
  refine ⟨by decide, ?_⟩
  intro a b
  revert a b
  decide

example : debugList quoted ["a".toList, "b".toList] = debugList quoted ["a\", \"b".toList] := rfl

end Verif
