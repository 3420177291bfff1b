import Verif.Debug.Pretty
import Verif.Props.Debug

/-!
# C166: what `{:#?}` prints

`dbg`, `dk` and `dv` range over all ways elements, keys and values may print, with the flag and
without.
-/

set_option autoImplicit false

namespace Verif
open Spec

variable {α K V : Type}

/-- C166.  The hypothesis of `C166_list_pretty_partial` restricts nothing: every text consists of lines,
and of no others. -/
theorem C166_lines (s : List Char) : ∃! ls, InLines s ls := by
  induction s with
  | nil =>
    refine ⟨[[]], ⟨rfl, by simp, by simp⟩, ?_⟩
    rintro ls ⟨h1, h2, _⟩
    match ls, h1, h2 with
    | [l], h1, _ => rw [show l = [] from h1.symm]
    | l :: k :: ls, h1, _ => simp [separated] at h1
  | cons c s ih =>
    obtain ⟨ls, ⟨h1, h2, h3⟩, hu⟩ := ih
    by_cases hc : c = '\n'
    · subst hc
      obtain ⟨k, ks, rfl⟩ := List.exists_cons_of_ne_nil h2
      refine ⟨[] :: k :: ks, ⟨by simp [separated, ← h1], by simp, by simpa using h3⟩, ?_⟩
      rintro qs ⟨g1, g2, g3⟩
      match qs, g1, g2, g3 with
      | [l], g1, _, g3 =>
        exact absurd (show '\n' ∈ l by rw [show l = _ from g1.symm]; simp) (g3 l (by simp))
      | [] :: q :: qs, g1, _, g3 =>
        rw [hu (q :: qs) ⟨by simpa [separated] using g1, by simp, fun l hl => g3 l (by simp at hl ⊢; tauto)⟩]
      | (d :: l) :: q :: qs, g1, _, g3 =>
        simp only [separated, List.cons_append, List.cons.injEq] at g1
        exact absurd (show '\n' ∈ d :: l by rw [← g1.1]; simp) (g3 _ (by simp))
    · obtain ⟨k, ks, rfl⟩ := List.exists_cons_of_ne_nil h2
      have hc' : ¬ '\n' = c := fun h => hc h.symm
      refine ⟨(c :: k) :: ks, ⟨?_, by simp, ?_⟩, ?_⟩
      · cases ks <;> simp [separated, h1]
      · intro l hl
        rcases List.mem_cons.1 hl with rfl | hl
        · simpa [hc'] using h3 k (by simp)
        · exact h3 l (by simp [hl])
      · rintro qs ⟨g1, g2, g3⟩
        match qs, g1, g2, g3 with
        | [] :: q :: qs, g1, _, g3 =>
          simp only [separated, List.nil_append, List.cons_append, List.cons.injEq] at g1
          exact absurd g1.1 hc
        | [[]], g1, _, g3 => simp [separated] at g1
        | (d :: l) :: qs, g1, _, g3 =>
          have hd : c = d ∧ s = separated ['\n'] (l :: qs) := by
            cases qs <;> simpa [separated] using g1
          have := hu (l :: qs) ⟨hd.2, by simp, fun x hx => by
            rcases List.mem_cons.1 hx with rfl | hx
            · have := g3 (d :: x) (by simp)
              simp only [List.mem_cons, not_or] at this
              exact this.2
            · exact g3 x (by simp [hx])⟩
          rw [hd.1]
          simp only [List.cons.injEq] at this
          rw [this.1, this.2]

theorem separated_append (sep : List Char) : ∀ (ls ks : List (List Char)), ls ≠ [] → ks ≠ [] →
    separated sep (ls ++ ks) = separated sep ls ++ sep ++ separated sep ks
  | [], _, h, _ => absurd rfl h
  | [l], [], _, h => absurd rfl h
  | [l], k :: ks, _, _ => by simp [separated]
  | l :: j :: ls, ks, _, h => by
    have := separated_append sep (j :: ls) ks (by simp) h
    simp only [List.cons_append, separated, List.append_assoc] at this ⊢
    rw [this]

theorem prettyPiece_ne : ∀ {ls : List (List Char)}, ls ≠ [] → prettyPiece ls ≠ []
  | [], h => absurd rfl h
  | [_], _ => by simp [prettyPiece]
  | _ :: _ :: _, _ => by simp [prettyPiece]

theorem prettyPiece_text : ∀ {ls : List (List Char)}, ls ≠ [] →
    separated ['\n'] (prettyPiece ls) = indented ls ++ [',']
  | [], h => absurd rfl h
  | [l], _ => by simp [prettyPiece, separated, indented]
  | l :: k :: ls, _ => by
    have h1 := prettyPiece_text (ls := k :: ls) (by simp)
    obtain ⟨j, js, hj⟩ := List.exists_cons_of_ne_nil (prettyPiece_ne (ls := k :: ls) (by simp))
    simp only [prettyPiece, hj] at h1 ⊢
    simp only [separated, h1, indented, List.map_cons, List.append_assoc]

theorem prettyPiece_line : ∀ {ls : List (List Char)}, (∀ l ∈ ls, '\n' ∉ l) → ∀ l ∈ prettyPiece ls, '\n' ∉ l
  | [], _ => by simp [prettyPiece]
  | [l], h => by simpa [prettyPiece] using h
  | l :: k :: ls, h => by
    have h1 := prettyPiece_line (ls := k :: ls) fun x hx => h x (List.mem_cons_of_mem _ hx)
    have h2 := h l (by simp)
    intro x hx
    simp only [prettyPiece, List.mem_cons] at hx
    rcases hx with rfl | hx
    · simpa using h2
    · exact h1 x hx

theorem prettyPieces_text (c : List Char) (ps : List (List (List Char))) (h : ∀ ls ∈ ps, ls ≠ []) :
    separated ['\n'] (ps.flatMap prettyPiece ++ [c]) =
      ps.flatMap (fun ls => indented ls ++ [',', '\n']) ++ c := by
  induction ps with
  | nil => simp [separated]
  | cons p ps ih =>
    have hp := h p (by simp)
    have := ih fun ls hl => h ls (List.mem_cons_of_mem _ hl)
    rw [List.flatMap_cons, List.append_assoc,
      separated_append _ _ _ (prettyPiece_ne hp) (by simp), this, prettyPiece_text hp]
    simp

/-- C166.  The lines of a sequence printed over several lines: those of the elements, indented.  With
`C166_list_pretty_partial` for the inner and the outer list, elements of lists in lists are indented by
eight spaces, and so on. -/
theorem C166_nested_lines {opening closing : String} (ho : '\n' ∉ opening.toList)
    (hc : '\n' ∉ closing.toList) (ps : List (List (List Char)))
    (h : ∀ ls ∈ ps, ls ≠ [] ∧ ∀ l ∈ ls, '\n' ∉ l) :
    InLines (pretty opening closing ps) (prettyLines opening closing ps) := by
  unfold pretty prettyLines
  by_cases hp : ps = []
  · rw [if_pos hp, if_pos hp]
    exact ⟨rfl, by simp, by simp [ho, hc]⟩
  · rw [if_neg hp, if_neg hp]
    refine ⟨?_, by simp, ?_⟩
    · have := prettyPieces_text closing.toList ps fun ls hl => (h ls hl).1
      have h2 := separated_append ['\n'] [opening.toList] (ps.flatMap prettyPiece ++ [closing.toList])
        (by simp) (by simp)
      rw [this] at h2
      simpa [separated] using h2.symm
    · intro l hl
      simp only [List.cons_append, List.mem_cons, List.mem_append, List.mem_flatMap, List.not_mem_nil,
        or_false] at hl
      rcases hl with rfl | ⟨ls, hls, hl⟩ | rfl
      · exact ho
      · exact prettyPiece_line (h ls hls).2 l hl
      · exact hc

example : prettyLines "[" "]" [prettyLines "[" "]" [[['1']], [['2']]], prettyLines "[" "]" []] =
    ["[", "    [", "        1,", "        2,", "    ],", "    [],", "]"].map String.toList := by decide +kernel

/-- C166.  After any history a `List` prints over several lines if the flag is set: brackets on lines of
their own, elements printed with the flag, every line of them indented, a comma after each.
Missing from the full statement: the other containers, of which it is false. -/
theorem C166_list_pretty_partial (P : Placer (LNode α) α) (size align : Nat) (hsz : 0 < size)
    (nd : Bool) (ops : List (ListOp α)) (m0 : LMem α) (hwf : m0.WF) (s : Nat)
    (hs : m0.node s ≠ none) {outs : List (Out α)} {l : LList Unit} {m : LMem α}
    (h : LList.history (listEnv P size align nd false) ops () s m0 = .ok (outs, l, m))
    (dbg : Bool → α → List Char) {lines : α → List (List Char)} (hl : ∀ x, InLines (dbg true x) (lines x))
    (fuel : Nat) (hf : (ListOp.run ops []).2.length < fuel) :
    l.debugFlag dbg true fuel m = .ok (pretty "[" "]" ((ListOp.run ops []).2.map lines)) ∧
      l.debugFlag dbg false fuel m = .ok (listed "[" ", " "]" ((ListOp.run ops []).2.map (dbg false))) := by
  obtain ⟨it, h1, _⟩ := C37_list_iterates P hsz align nd ops m0 hwf s hs h
    ((ListOp.run ops []).2.length + 1)
  have := collectFrom_of_run (run := fun n it => LIter.run n it m)
    (LIter.run_next m) _ ⟨it, h1⟩ fuel hf
  refine ⟨?_, ?_⟩
  · simp only [LList.debugFlag, this, Exec.ok_bind, debugListFlag_pretty hl]
  · simp only [LList.debugFlag, this, Exec.ok_bind, debugListFlag, debugList_eq]
    rfl

/-- C166 is false of `Vector`: with the flag it prints as without, elements included, and so not as a
sequence over several lines unless the elements bring line ends of their own. -/
theorem C166_vector_flat (R : RawAlloc α) (nd : Bool) (m0 : Mem α) (ops : List (SeqOp α))
    (hops : nd = true → ∀ op ∈ ops, op.isSlice = false) {outs : List (Out α)} {xs : List α}
    (hs : SeqOp.run ops [] = .ok (outs, xs)) (dbg : Bool → α → List Char) :
    ∃ v m text, Vec.run (defaultAllocator R) nd ops Vec.new m0 = .ok (outs, v, m) ∧
      (∀ alt, v.debugFlag dbg alt m = .ok text) ∧ text = listed "[" ", " "]" (xs.map (dbg false)) ∧
      ((∀ x, '\n' ∉ dbg false x) → ∀ qs ≠ [], text ≠ pretty "[" "]" qs) := by
  obtain ⟨v, m, h1, h2⟩ := C105_vector_debug R nd m0 ops hops hs (dbg false)
  exact ⟨v, m, _, h1, fun _ => h2, rfl, fun hd qs hq =>
    listed_ne_pretty (by decide) (by decide) (by decide) (by simpa using fun x _ => hd x) _ _ hq⟩

/-- C166 is false of `Deque` and `Queue`. -/
theorem C166_deque_flat (E : DEnv α) (hS : 0 < E.S) (ops : List (DeqOp α)) (m0 : DMem α)
    {outs : List (Out α)} {d : Deque} {m : DMem α}
    (h : Deque.history E ops m0 = .ok (outs, d, m)) (dbg : Bool → α → List Char) (fuel : Nat)
    (hf : (DeqOp.run ops []).2.length < fuel) :
    ∃ text, (∀ alt, d.debugFlag dbg alt fuel m = .ok text) ∧
      text = listed "[ " ", " " ]" ((DeqOp.run ops []).2.map (dbg false)) ∧
      ((∀ x, '\n' ∉ dbg false x) → ∀ qs ≠ [], text ≠ pretty "[" "]" qs) :=
  ⟨_, fun _ => C105_deque_debug E hS ops m0 h (dbg false) fuel hf, rfl, fun hd _ hq =>
    listed_ne_pretty (by decide) (by decide) (by decide) (by simpa using fun x _ => hd x) _ _ hq⟩

theorem showEntry_line {dk : K → List Char} {dv : V → List Char} (hk : ∀ x, '\n' ∉ dk x)
    (hv : ∀ x, '\n' ∉ dv x) (es : List (K × V)) : ∀ p ∈ es.map (showEntry dk dv), '\n' ∉ p := by
  intro p hp
  obtain ⟨e, _, rfl⟩ := List.mem_map.1 hp
  simp only [showEntry, List.mem_append, not_or]
  exact ⟨⟨hk _, by decide⟩, hv _⟩

/-- C166 is false of `HashMap`. -/
theorem C166_hash_map_flat {E : HEnv K V Unit} {m0 : HMem K V} (S : HSetting E m0)
    (ops : List (MapOp K V)) (hpk : MapOp.peak E.eq ops [] ≤ 2557710464)
    {outs : List (MapOut K V)} {t : HTable Unit} {m : HMem K V}
    (h : HTable.history E ops m0 = .ok (outs, t, m)) (dk : Bool → K → List Char) (dv : Bool → V → List Char)
    (fuel : Nat) (hf : (MapOp.run E.eq ops []).2.length < fuel) :
    ∃ (es : List (K × V)) (text : List Char), es.Perm (MapOp.run E.eq ops []).2 ∧
      (∀ alt, t.debugMapFlag dk dv alt fuel m = .ok text) ∧
      text = listed "{" "," "}" (es.map (showEntry (dk false) (dv false))) ∧
      ((∀ x, '\n' ∉ dk false x) → (∀ x, '\n' ∉ dv false x) → ∀ qs ≠ [], text ≠ pretty "{" "}" qs) := by
  obtain ⟨es, hp, h1⟩ := C105_hash_map_debug S ops hpk h (dk false) (dv false) fuel hf
  exact ⟨es, _, hp, fun _ => h1, rfl, fun hk hv _ hq =>
    listed_ne_pretty (by decide) (by decide) (by decide) (showEntry_line hk hv es) _ _ hq⟩

/-- C166 is false of `HashSet`. -/
theorem C166_hash_set_flat {E : HEnv K Unit Unit} {m0 : HMem K Unit} (S : HSetting E m0)
    (ops : List (SetOp K)) (hpk : SetOp.peak E.eq ops [] ≤ 2557710464) (dk : Bool → K → List Char)
    (fuel : Nat) (hf : (SetOp.run id E.eq ops []).2.length < fuel) :
    ∃ outs t m, ∃ (es : List K) (text : List Char), HTable.historySet E ops m0 = .ok (outs, t, m) ∧
      es.Perm (SetOp.run id E.eq ops []).2 ∧
      (∀ alt, t.debugSetFlag dk alt fuel m = .ok text) ∧
      text = listed "{" "," "}" (es.map (dk false)) ∧
      ((∀ x, '\n' ∉ dk false x) → ∀ qs ≠ [], text ≠ pretty "{" "}" qs) := by
  obtain ⟨outs, t, m, es, h0, hp, h1⟩ := C105_hash_set_debug S ops hpk (dk false) fuel hf
  exact ⟨outs, t, m, es, _, h0, hp, fun _ => h1, rfl, fun hk _ hq =>
    listed_ne_pretty (by decide) (by decide) (by decide) (by simpa using fun x _ => hk x) _ _ hq⟩

/-- C166 is false of `Map`. -/
theorem C166_map_flat {σ : Type} {T : RBTree σ} {m : TMem K V} {t : Spec.Tree (Nat × K × V)}
    (h : TreeRep T m t) (dk : Bool → K → List Char) (dv : Bool → V → List Char) {fuel : Nat}
    (hf : t.count + 2 ≤ fuel) :
    ∃ text, (∀ alt, T.debugMapFlag dk dv alt fuel m = .ok text) ∧
      text = listed "{" "," "}" ((entries t).map (showEntry (dk false) (dv false))) ∧
      ((∀ x, '\n' ∉ dk false x) → (∀ x, '\n' ∉ dv false x) → ∀ qs ≠ [], text ≠ pretty "{" "}" qs) :=
  ⟨_, fun _ => (C105_map_debug h (dk false) (dv false) hf).1, rfl, fun hk hv _ hq =>
    listed_ne_pretty (by decide) (by decide) (by decide) (showEntry_line hk hv _) _ _ hq⟩

/-- C166 is false of `VectorMap`. -/
theorem C166_vector_map_flat (R : RawAlloc (K × V)) (lt eq : K → K → Bool)
    (hw : StrictWeak lt) (hc : Consistent lt eq) (nd : Bool) (m0 : Mem (K × V))
    (ops : List (MapOp K V)) (dk : Bool → K → List Char) (dv : Bool → V → List Char) :
    ∃ outs v m, ∃ (es : List (K × V)) (text : List Char), VMap.run (defaultAllocator R) lt eq nd ops Vec.new m0 = .ok (outs, v, m) ∧
      es.Perm (MapOp.run eq ops []).2 ∧ Increasing lt es ∧
      (∀ alt, VMap.debugFlag dk dv alt v m = .ok text) ∧
      text = listed "{" "," "}" (es.map (showEntry (dk false) (dv false))) ∧
      ((∀ x, '\n' ∉ dk false x) → (∀ x, '\n' ∉ dv false x) → ∀ qs ≠ [], text ≠ pretty "{" "}" qs) := by
  obtain ⟨outs, v, m, es, h0, hp, hi, h1⟩ := C105_vector_map_debug R lt eq hw hc nd m0 ops (dk false) (dv false)
  exact ⟨outs, v, m, es, _, h0, hp, hi, fun _ => h1, rfl, fun hk hv _ hq =>
    listed_ne_pretty (by decide) (by decide) (by decide) (showEntry_line hk hv es) _ _ hq⟩

/-- Digits print on one line, which has no line end. -/
example : (∀ x : Fin 10, InLines (exampleDigit x) [exampleDigit x]) ∧ ∀ x : Fin 10, '\n' ∉ exampleDigit x := by
  have h : ∀ x : Fin 10, '\n' ∉ exampleDigit x := by decide
  exact ⟨fun x => ⟨rfl, by simp, by simpa using h x⟩, h⟩

/-- A list of digits and a vector of digits with the flag set, and a list of lists. -/
example : (do
    let (_, l, m) ← LList.history (listEnv Placer.bump 24 8 true false)
      [.pushBack 1, .pushBack 2, .pushFront 3] () 64 exampleListMem
    l.debugFlag (fun _ => exampleDigit) true 4 m) = (.ok "[\n    3,\n    1,\n    2,\n]".toList : Exec _) ∧
  (do
    let (_, v, m) ← Vec.run (defaultAllocator RawAlloc.bump) true
      [.push 1, .push 2, .insert 0 3, .pop] Vec.new Mem.empty
    v.debugFlag (fun _ => exampleDigit) true m) = (.ok "[3, 1]".toList : Exec _) ∧
  debugListFlag (debugListFlag fun _ => exampleDigit) true [[1, 2], [], [3]] =
    "[\n    [\n        1,\n        2,\n    ],\n    [],\n    [\n        3,\n    ],\n]".toList := by
  decide +kernel

end Verif
