import Verif.Debug.Printing
import Verif.Props.Debug

/-!
# C141: printing to writers that may refuse

`dbg`, `dk` and `dv` range over all ways elements, keys and values may print, including those that
report errors; `put` over all writers.
-/

set_option autoImplicit false

namespace Verif
open Spec

variable {α K V : Type}

/-- `p` prints what is given between brackets, to every writer, and stops at the first refusal or
error, which it reports. -/
def PrintsListing (p : Printing) (opening sep closing : String) (ps : List Printing) : Prop :=
  ∀ (S : Type) (put : List Char → S → Bool × S) (s : S),
    p.to put s = inTurn (listing put opening sep closing (ps.map fun q => q.to put)) s

/-- C141.  After any history a `Vector` prints its elements in order between brackets, to any writer,
up to the first text the writer refuses or the first element that reports an error; then it writes
nothing more and reports the error. -/
theorem C141_vector_prints (R : RawAlloc α) (nd : Bool) (m0 : Mem α) (ops : List (SeqOp α))
    (hops : nd = true → ∀ op ∈ ops, op.isSlice = false) {outs : List (Out α)} {xs : List α}
    (hs : SeqOp.run ops [] = .ok (outs, xs)) (dbg : α → Printing) :
    ∃ v m p, Vec.run (defaultAllocator R) nd ops Vec.new m0 = .ok (outs, v, m) ∧
      v.print dbg m = .ok p ∧ PrintsListing p "[" ", " "]" (xs.map dbg) := by
  have h := C01_vector_refines_sequence R nd m0 ops hops
  rw [hs] at h
  obtain ⟨v, m, h1, h2, _⟩ := h
  exact ⟨v, m, printList (xs.map dbg), h1, by simp [Vec.print, h2],
    fun S put s => by rw [printList_to]⟩

/-- C141 for `Deque` and `Queue`. -/
theorem C141_deque_prints (E : DEnv α) (hS : 0 < E.S) (ops : List (DeqOp α)) (m0 : DMem α)
    {outs : List (Out α)} {d : Deque} {m : DMem α}
    (h : Deque.history E ops m0 = .ok (outs, d, m)) (dbg : α → Printing) (fuel : Nat)
    (hf : (DeqOp.run ops []).2.length < fuel) :
    ∃ p, d.print dbg fuel m = .ok p ∧
      PrintsListing p "[ " ", " " ]" ((DeqOp.run ops []).2.map dbg) := by
  obtain ⟨it, it', h1, h2⟩ := C28_deque_iterates E hS ops m0 h
    (List.replicate ((DeqOp.run ops []).2.length + 1) .next)
  rw [iterOp_next] at h2
  have := collectFrom_of_run (run := fun n it => DIter.run (List.replicate n .next) m it)
    (DIter.run_next m) _ ⟨it', h2⟩ fuel hf
  refine ⟨_, by simp only [Deque.print, h1, this, Exec.ok_bind]; rfl, fun S put s => ?_⟩
  rw [andThen_to, andThen_to, printSep_to, puts_to, puts_to, listing, inTurn_append, inTurn_append,
    inTurn_one, inTurn_one, andThen_assoc]

/-- C141 for `List` and the fixed lists. -/
theorem C141_list_prints (P : Placer (LNode α) α) (size align : Nat) (hsz : 0 < size)
    (nd : Bool) (ops : List (ListOp α)) (m0 : LMem α) (hwf : m0.WF) (s : Nat)
    (hs : m0.node s ≠ none) {outs : List (Out α)} {l : LList Unit} {m : LMem α}
    (h : LList.history (listEnv P size align nd false) ops () s m0 = .ok (outs, l, m))
    (dbg : α → Printing) (fuel : Nat) (hf : (ListOp.run ops []).2.length < fuel) :
    ∃ p, l.print dbg fuel m = .ok p ∧
      PrintsListing p "[" ", " "]" ((ListOp.run ops []).2.map dbg) := by
  obtain ⟨it, h1, _⟩ := C37_list_iterates P hsz align nd ops m0 hwf s hs h
    ((ListOp.run ops []).2.length + 1)
  have := collectFrom_of_run (run := fun n it => LIter.run n it m)
    (LIter.run_next m) _ ⟨it, h1⟩ fuel hf
  exact ⟨_, by simp only [LList.print, this, Exec.ok_bind]; rfl, fun S put s => by rw [printList_to]⟩

/-! ## Maps -/

/-- `r` is the printing of a map whose entries have the texts `ps`: if every one of them has a text, the
listing of these texts, handed over in three pieces up to the first that is refused; otherwise a
panic. -/
def PrintsMap (r : Exec Printing) (ps : List (Option (List Char))) : Prop :=
  (∀ ts : List (List Char), ps = ts.map some →
    ∃ p, r = .ok p ∧ ∀ (S : Type) (put : List Char → S → Bool × S) (s : S),
      p.to put s = inTurn [put "{".toList, put (separated ",".toList ts), put "}".toList] s) ∧
  (none ∈ ps → r = .error .panic)

theorem printsMap (ps : List Printing) : PrintsMap (do
    let ss ← formatAll ps
    .ok (putBraced (joinStrings ",".toList ss))) (ps.map Printing.text) := by
  refine ⟨fun ts hts => ⟨putBraced (joinStrings ",".toList ts), ?_, fun S put s => ?_⟩, fun h => ?_⟩
  · rw [formatAll_ok hts]; rfl
  · rw [putBraced_to, joinStrings_eq]
  · rw [formatAll_panic (by simpa using h)]; rfl

theorem entry_text (dk : K → Printing) (dv : V → Printing) (e : K × V) :
    (printEntry dk dv e).text = entryText dk dv e := by
  simp only [printEntry, text_andThen, text_puts, entryText]
  cases (dk e.1).text <;> cases (dv e.2).text <;> simp

theorem printsMap_entries (dk : K → Printing) (dv : V → Printing) (es : List (K × V)) :
    PrintsMap (do
      let ss ← formatAll (es.map (printEntry dk dv))
      .ok (putBraced (joinStrings ",".toList ss))) (es.map (entryText dk dv)) := by
  have h := printsMap (es.map (printEntry dk dv))
  rw [List.map_map] at h
  have he : Printing.text ∘ printEntry dk dv = entryText dk dv := funext fun e => entry_text dk dv e
  rwa [he] at h

/-- C141, as far as it holds for `HashMap`: after any history, if all keys and values in it print
without error, its listing is printed up to the first text the writer refuses, which is reported; if
one of them reports an error, printing panics.  Missing: the error being reported. -/
theorem C141_hash_map_prints_partial {E : HEnv K V Unit} {m0 : HMem K V} (S : HSetting E m0)
    (ops : List (MapOp K V)) (hpk : MapOp.peak E.eq ops [] ≤ 2557710464)
    {outs : List (MapOut K V)} {t : HTable Unit} {m : HMem K V}
    (h : HTable.history E ops m0 = .ok (outs, t, m)) (dk : K → Printing) (dv : V → Printing)
    (fuel : Nat) (hf : (MapOp.run E.eq ops []).2.length < fuel) :
    ∃ es : List (K × V), es.Perm (MapOp.run E.eq ops []).2 ∧
      PrintsMap (t.printMap dk dv fuel m) (es.map (entryText dk dv)) := by
  obtain ⟨it, es, h1, hp, _, h2⟩ := C47_hash_iterates_once S ops hpk h
  have := collectFrom_of_run (run := fun n it => HIter.run m n it)
    (HIter.run_next m) es (h2 _) fuel (by rw [hp.length_eq]; exact hf)
  refine ⟨es, hp, ?_⟩
  simp only [HTable.printMap, h1, Exec.ok_bind, this]
  exact printsMap_entries _ _ _

/-- C141 for `HashSet`, as far as it holds. -/
theorem C141_hash_set_prints_partial {E : HEnv K Unit Unit} {m0 : HMem K Unit} (S : HSetting E m0)
    (ops : List (SetOp K)) (hpk : SetOp.peak E.eq ops [] ≤ 2557710464) (dk : K → Printing)
    (fuel : Nat) (hf : (SetOp.run id E.eq ops []).2.length < fuel) :
    ∃ outs t m, ∃ es : List K, HTable.historySet E ops m0 = .ok (outs, t, m) ∧
      es.Perm (SetOp.run id E.eq ops []).2 ∧ PrintsMap (t.printSet dk fuel m) (es.map fun k => (dk k).text) := by
  obtain ⟨t, m, it, es, h0, h1, hp, h2⟩ := C57_hash_set_partial S ops hpk
  have := collectFrom_of_run (run := fun n it => HIter.run m n it)
    (HIter.run_next m) (es.map fun k => (k, ())) (by
      obtain ⟨it', h⟩ := h2 (es.length + 1)
      exact ⟨it', by simpa using h⟩) fuel (by rw [List.length_map, hp.length_eq]; exact hf)
  refine ⟨_, t, m, es, h0, hp, ?_⟩
  simp only [HTable.printSet, h1, Exec.ok_bind, this, List.map_map]
  have h := printsMap (es.map dk)
  rw [List.map_map] at h
  exact h

/-- C141 for `Map`, as far as it holds. -/
theorem C141_map_prints_partial {σ : Type} {T : RBTree σ} {m : TMem K V}
    {t : Spec.Tree (Nat × K × V)} (h : TreeRep T m t) (dk : K → Printing) (dv : V → Printing)
    {fuel : Nat} (hf : t.count + 2 ≤ fuel) :
    PrintsMap (T.printMap dk dv fuel m) ((entries t).map (entryText dk dv)) := by
  simp only [RBTree.printMap, (C61_tree_iter h hf).1, Exec.ok_bind]
  exact printsMap_entries _ _ _

/-- C141 for `VectorMap`, as far as it holds. -/
theorem C141_vector_map_prints_partial (R : RawAlloc (K × V)) (lt eq : K → K → Bool)
    (hw : StrictWeak lt) (hc : Consistent lt eq) (nd : Bool) (m0 : Mem (K × V))
    (ops : List (MapOp K V)) (dk : K → Printing) (dv : V → Printing) :
    ∃ outs v m, ∃ es : List (K × V),
      VMap.run (defaultAllocator R) lt eq nd ops Vec.new m0 = .ok (outs, v, m) ∧
      es.Perm (MapOp.run eq ops []).2 ∧
      PrintsMap (VMap.print dk dv v m) (es.map (entryText dk dv)) := by
  obtain ⟨v, m, xs, h1, h2, h3⟩ := C22_vector_map_refines_map R lt eq hw hc nd m0 ops
  refine ⟨_, v, m, xs, h1, h3, ?_⟩
  simp only [VMap.print, h2, Exec.ok_bind]
  exact printsMap_entries _ _ _

/-- C141 is false for maps: after any history, if the map contains a key or a value that reports an
error when printed, printing the map panics, whatever the writer. -/
theorem C141_hash_map_panics {E : HEnv K V Unit} {m0 : HMem K V} (S : HSetting E m0)
    (ops : List (MapOp K V)) (hpk : MapOp.peak E.eq ops [] ≤ 2557710464)
    {outs : List (MapOut K V)} {t : HTable Unit} {m : HMem K V}
    (h : HTable.history E ops m0 = .ok (outs, t, m)) (dk : K → Printing) (dv : V → Printing)
    (fuel : Nat) (hf : (MapOp.run E.eq ops []).2.length < fuel) {e : K × V}
    (he : e ∈ (MapOp.run E.eq ops []).2) (hbad : (dk e.1).text = none ∨ (dv e.2).text = none) :
    t.printMap dk dv fuel m = .error .panic := by
  obtain ⟨es, hp, h1⟩ := C141_hash_map_prints_partial S ops hpk h dk dv fuel hf
  refine h1.2 (List.mem_map.2 ⟨e, hp.mem_iff.2 he, ?_⟩)
  unfold entryText
  rcases hbad with hb | hb <;> rw [hb]
  cases (dk e.1).text <;> rfl

/-! ## What arrives at the writer -/

/-- Whatever the writer takes, it is a part, from the beginning, of `text`; all of it if success is
reported; and success is reported to a writer that takes everything. -/
def Delivers (takes : List Char → List Char → Bool)
    (a : List Char → Bool × List Char) (text : List Char) : Prop :=
  ∀ s, ∃ b w, a s = (b, s ++ w) ∧ w <+: text ∧ (b = true → w = text) ∧
    ((∀ o t, takes o t = true) → b = true)

theorem Delivers.put (takes : List Char → List Char → Bool) (t : List Char) :
    Delivers takes (picky takes t) t := by
  intro s
  by_cases h : takes s t = true
  · exact ⟨true, t, by simp [picky, h], List.prefix_refl _, fun _ => rfl, fun _ => rfl⟩
  · exact ⟨false, [], by simp [picky, h], List.nil_prefix, by simp, fun ha => absurd (ha s t) h⟩

theorem Delivers.nothing (takes : List Char → List Char → Bool) :
    Delivers takes (Spec.inTurn []) [] :=
  fun s => ⟨true, [], by simp [Spec.inTurn], List.nil_prefix, fun _ => rfl, fun _ => rfl⟩

theorem Delivers.andThen {takes : List Char → List Char → Bool}
    {a b : List Char → Bool × List Char} {x y : List Char} (ha : Delivers takes a x)
    (hb : Delivers takes b y) : Delivers takes (Verif.andThen a b) (x ++ y) := by
  intro s
  obtain ⟨r, w, e1, e2, e3, e4⟩ := ha s
  cases r with
  | false =>
    exact ⟨false, w, by simp [Verif.andThen, e1], e2.trans (List.prefix_append _ _), by simp,
      fun h => absurd (e4 h) (by simp)⟩
  | true =>
    obtain rfl := e3 rfl
    obtain ⟨r', w', f1, f2, f3, f4⟩ := hb (s ++ w)
    refine ⟨r', w ++ w', by simp [Verif.andThen, e1, f1], (List.prefix_append_right_inj _).2 f2,
      fun h => by rw [f3 h], f4⟩

theorem Delivers.inTurn {takes : List Char → List Char → Bool} {β : Type}
    {f : β → List Char → Bool × List Char} {g : β → List Char} (h : ∀ x, Delivers takes (f x) (g x)) :
    ∀ l : List β, Delivers takes (Spec.inTurn (l.map f)) (l.flatMap g)
  | [] => Delivers.nothing takes
  | x :: l => by
    rw [List.map_cons, inTurn_cons, List.flatMap_cons]
    exact (h x).andThen (Delivers.inTurn h l)

theorem plain_to {S : Type} (put : List Char → S → Bool × S) (ts : List (List Char)) :
    (Printing.plain ts).to put = inTurn (ts.map put) := by
  induction ts with
  | nil => rfl
  | cons t ts ih =>
    funext s
    simp only [Printing.plain, Printing.to, List.map_cons, inTurn, ← ih]
    rcases put t s with ⟨⟨⟩, s'⟩ <;> rfl

/-- C141.  Sequences whose elements give up when a text of theirs is refused deliver a part of the
text of C105 from the beginning, and all of it if they report success; if everything is taken they do
report success. -/
theorem C141_listing_delivers (takes : List Char → List Char → Bool) (opening sep closing : String)
    (texts : α → List (List Char)) (xs : List α) {p : Printing}
    (h : PrintsListing p opening sep closing (xs.map fun x => .plain (texts x))) :
    Delivers takes (p.to (picky takes))
      (listed opening sep closing (xs.map fun x => (texts x).flatten)) := by
  have hp : p.to (picky takes) = _ := funext fun s => h _ (picky takes) s
  have hx : ∀ x, Delivers takes ((Printing.plain (texts x)).to (picky takes)) (texts x).flatten := by
    intro x
    rw [plain_to]
    have := Delivers.inTurn (Delivers.put takes) (texts x)
    rwa [List.flatMap_id'] at this
  rw [hp, listing, listed, inTurn_append, inTurn_append, inTurn_one, inTurn_one]
  refine ((Delivers.put takes _).andThen ?_).andThen (Delivers.put takes _)
  rw [List.map_map]
  cases xs with
  | nil => exact Delivers.nothing takes
  | cons x xs =>
    rw [List.map_cons, List.map_cons, intersperse_cons_flat, inTurn_cons, separated_cons,
      List.flatMap_map, List.flatMap_map]
    refine (hx x).andThen ?_
    clear h hp p x
    induction xs with
    | nil => exact Delivers.nothing takes
    | cons x xs ih =>
      simp only [List.flatMap_cons, List.cons_append, List.nil_append]
      rw [inTurn_cons, inTurn_cons, ← andThen_assoc]
      exact ((Delivers.put takes _).andThen (hx x)).andThen ih

/-! ## Concrete cases -/

/-- A number prints as a digit; `0` reports an error after a question mark. -/
def examplePrint (n : Nat) : Printing :=
  if n = 0 then .write ['?'] fun _ => .done false else .plain [exampleDigit n]

/-- A writer with room for 5 characters takes part of a vector; a vector and a deque report the error
of an element, a map panics because of it. -/
example : (do
    let (_, v, m) ← Vec.run (defaultAllocator RawAlloc.bump) true
      [.push 1, .push 2, .push 3] Vec.new Mem.empty
    let p ← v.print examplePrint m
    .ok (p.to (picky fun out t => decide (out.length + t.length ≤ 5)) [], p.to takeAll [])) =
      (.ok ((false, "[1, 2".toList), (true, "[1, 2, 3]".toList)) : Exec _) ∧
  (do
    let (_, d, m) ← Deque.history exampleEnv [.pushBack 1, .pushFront 0, .pushFront 3]
      ⟨Mem.empty, Mem.empty⟩
    let p ← d.print examplePrint 4 m
    .ok (p.to takeAll [])) = (.ok (false, "[ 3, ?".toList) : Exec _) ∧
  (do
    let (_, t, m) ← HTable.history (exampleHash (· % 100)) [.insert 1 5, .insert 2 6] exampleHashMem
    let p ← t.printMap examplePrint examplePrint 3 m
    .ok (p.to takeAll [], p.to (picky fun out _ => decide (out.length < 1)) [])) =
      (.ok ((true, "{2: 6,1: 5}".toList), (false, ['{'])) : Exec _) ∧
  ((do
    let (_, t, m) ← HTable.history (exampleHash (· % 100)) [.insert 1 5, .insert 2 0] exampleHashMem
    let p ← t.printMap examplePrint examplePrint 3 m
    .ok (p.to takeAll [])) = (.error .panic : Exec _)) := by
  decide +kernel

end Verif
