import Verif.Debug.Options
import Verif.Props.Debug
import Verif.Hash.LossyProofs

/-!
# C167: printing with a width or a precision

`dbg`, `dk` and `dv` range over all ways elements, keys and values may print with given options.
-/

set_option autoImplicit false

namespace Verif
open Spec

variable {α K V : Type}

/-- C167.  After any history of ASCII calls a `String` prints as its characters, whatever the options;
this is what they ask for if the text fits in the precision and fills the width.  Missing from the full
statement: all other options that ask for another length, for which it is false. -/
theorem C167_string_display_partial (R : RawAlloc UInt8) (m0 : Mem UInt8) (ops : List StrOp)
    (hops : ∀ op ∈ ops, op.Ascii ∧ op.isAssign = false) {outs : List StrOut} {cs : List Char}
    (hs : StrOp.run ops [] = .ok (outs, cs)) :
    ∃ v m, Str.run (strAlloc R) ops Vec.new m0 = .ok (outs, v, m) ∧
      ∀ o : FormatOptions, ∃ bytes, Str.displayWith o v m = .ok bytes ∧ bytes = utf8 cs ∧
        ((∀ p, o.precision = some p → cs.length ≤ p) → (∀ w, o.width = some w → w ≤ cs.length) →
          bytes = utf8 (o.apply cs)) ∧
        (max (o.width.getD 0) (min (o.precision.getD cs.length) cs.length) ≠ cs.length →
          bytes ≠ utf8 (o.apply cs)) := by
  obtain ⟨v, m, h1, h2, _⟩ := C105_string_debug R m0 ops hops hs
  refine ⟨v, m, h1, fun o => ⟨_, h2, rfl, fun hp hw => by rw [FormatOptions.apply_eq o cs hp hw],
    fun hl he => hl ?_⟩⟩
  rw [← FormatOptions.apply_length o cs, ← utf8_inj he]

/-- C167.  After any history a `List` prints its elements with the options it is printed with. -/
theorem C167_list_debug (P : Placer (LNode α) α) (size align : Nat) (hsz : 0 < size)
    (nd : Bool) (ops : List (ListOp α)) (m0 : LMem α) (hwf : m0.WF) (s : Nat)
    (hs : m0.node s ≠ none) {outs : List (Out α)} {l : LList Unit} {m : LMem α}
    (h : LList.history (listEnv P size align nd false) ops () s m0 = .ok (outs, l, m))
    (dbg : FormatOptions → α → List Char) (o : FormatOptions) (fuel : Nat)
    (hf : (ListOp.run ops []).2.length < fuel) :
    l.debugWith dbg o fuel m = .ok (listed "[" ", " "]" ((ListOp.run ops []).2.map (dbg o))) :=
  C105_list_debug P size align hsz nd ops m0 hwf s hs h (dbg o) fuel hf

/-- C167 is false of `Vector`: the elements are printed without the options, so that the text is too
short if these would make the elements longer. -/
theorem C167_vector_ignores (R : RawAlloc α) (nd : Bool) (m0 : Mem α) (ops : List (SeqOp α))
    (hops : nd = true → ∀ op ∈ ops, op.isSlice = false) {outs : List (Out α)} {xs : List α}
    (hs : SeqOp.run ops [] = .ok (outs, xs)) (dbg : FormatOptions → α → List Char) :
    ∃ v m text, Vec.run (defaultAllocator R) nd ops Vec.new m0 = .ok (outs, v, m) ∧
      (∀ o, v.debugWith dbg o m = .ok text) ∧ text = listed "[" ", " "]" (xs.map (dbg {})) ∧
      (xs ≠ [] → ∀ o, (∀ x, (dbg {} x).length < (dbg o x).length) →
        text ≠ listed "[" ", " "]" (xs.map (dbg o))) := by
  obtain ⟨v, m, h1, h2⟩ := C105_vector_debug R nd m0 ops hops hs (dbg {})
  exact ⟨v, m, _, h1, fun _ => h2, rfl, fun hx o hd => listed_ne_of_longer rfl rfl rfl hd hx⟩

/-- C167 is false of `Deque` and `Queue`. -/
theorem C167_deque_ignores (E : DEnv α) (hS : 0 < E.S) (ops : List (DeqOp α)) (m0 : DMem α)
    {outs : List (Out α)} {d : Deque} {m : DMem α}
    (h : Deque.history E ops m0 = .ok (outs, d, m)) (dbg : FormatOptions → α → List Char) (fuel : Nat)
    (hf : (DeqOp.run ops []).2.length < fuel) :
    ∃ text, (∀ o, d.debugWith dbg o fuel m = .ok text) ∧
      text = listed "[ " ", " " ]" ((DeqOp.run ops []).2.map (dbg {})) ∧
      ((DeqOp.run ops []).2 ≠ [] → ∀ o, (∀ x, (dbg {} x).length < (dbg o x).length) →
        text ≠ listed "[ " ", " " ]" ((DeqOp.run ops []).2.map (dbg o))) :=
  ⟨_, fun _ => C105_deque_debug E hS ops m0 h (dbg {}) fuel hf, rfl, fun hx _ hd =>
    listed_ne_of_longer rfl rfl rfl hd hx⟩

/-- C167 is false of `HashMap`: here, if the options would make the values longer and the keys not
shorter. -/
theorem C167_hash_map_ignores {E : HEnv K V Unit} {m0 : HMem K V} (S : HSetting E m0)
    (ops : List (MapOp K V)) (hpk : MapOp.peak E.eq ops [] ≤ 2557710464)
    {outs : List (MapOut K V)} {t : HTable Unit} {m : HMem K V}
    (h : HTable.history E ops m0 = .ok (outs, t, m)) (dk : FormatOptions → K → List Char)
    (dv : FormatOptions → V → List Char) (fuel : Nat) (hf : (MapOp.run E.eq ops []).2.length < fuel) :
    ∃ (es : List (K × V)) (text : List Char), es.Perm (MapOp.run E.eq ops []).2 ∧
      (∀ o, t.debugMapWith dk dv o fuel m = .ok text) ∧
      text = listed "{" "," "}" (es.map (showEntry (dk {}) (dv {}))) ∧
      (es ≠ [] → ∀ o, (∀ x, (dk {} x).length ≤ (dk o x).length) → (∀ x, (dv {} x).length < (dv o x).length) →
        text ≠ listed "{" "," "}" (es.map (showEntry (dk o) (dv o)))) := by
  obtain ⟨es, hp, h1⟩ := C105_hash_map_debug S ops hpk h (dk {}) (dv {}) fuel hf
  refine ⟨es, _, hp, fun _ => h1, rfl, fun hx o hk hv => listed_ne_of_longer rfl rfl rfl (fun e => ?_) hx⟩
  have := hk e.1
  have := hv e.2
  simp only [showEntry, List.length_append]
  omega

/-- C167 is false of `HashSet`. -/
theorem C167_hash_set_ignores {E : HEnv K Unit Unit} {m0 : HMem K Unit} (S : HSetting E m0)
    (ops : List (SetOp K)) (hpk : SetOp.peak E.eq ops [] ≤ 2557710464) (dk : FormatOptions → K → List Char)
    (fuel : Nat) (hf : (SetOp.run id E.eq ops []).2.length < fuel) :
    ∃ outs t m, ∃ (es : List K) (text : List Char), HTable.historySet E ops m0 = .ok (outs, t, m) ∧
      es.Perm (SetOp.run id E.eq ops []).2 ∧
      (∀ o, t.debugSetWith dk o fuel m = .ok text) ∧ text = listed "{" "," "}" (es.map (dk {})) ∧
      (es ≠ [] → ∀ o, (∀ x, (dk {} x).length < (dk o x).length) →
        text ≠ listed "{" "," "}" (es.map (dk o))) := by
  obtain ⟨outs, t, m, es, h0, hp, h1⟩ := C105_hash_set_debug S ops hpk (dk {}) fuel hf
  exact ⟨outs, t, m, es, _, h0, hp, fun _ => h1, rfl, fun hx o hk => listed_ne_of_longer rfl rfl rfl hk hx⟩

/-- C167 is false of `Map`. -/
theorem C167_map_ignores {σ : Type} {T : RBTree σ} {m : TMem K V} {t : Spec.Tree (Nat × K × V)}
    (h : TreeRep T m t) (dk : FormatOptions → K → List Char) (dv : FormatOptions → V → List Char)
    {fuel : Nat} (hf : t.count + 2 ≤ fuel) :
    ∃ text, (∀ o, T.debugMapWith dk dv o fuel m = .ok text) ∧
      text = listed "{" "," "}" ((entries t).map (showEntry (dk {}) (dv {}))) ∧
      (entries t ≠ [] → ∀ o, (∀ x, (dk {} x).length ≤ (dk o x).length) →
        (∀ x, (dv {} x).length < (dv o x).length) →
        text ≠ listed "{" "," "}" ((entries t).map (showEntry (dk o) (dv o)))) := by
  refine ⟨_, fun _ => (C105_map_debug h (dk {}) (dv {}) hf).1, rfl, fun hx o hk hv =>
    listed_ne_of_longer rfl rfl rfl (fun e => ?_) hx⟩
  have := hk e.1
  have := hv e.2
  simp only [showEntry, List.length_append]
  omega

/-- C167 is false of `VectorMap`. -/
theorem C167_vector_map_ignores (R : RawAlloc (K × V)) (lt eq : K → K → Bool)
    (hw : StrictWeak lt) (hc : Consistent lt eq) (nd : Bool) (m0 : Mem (K × V))
    (ops : List (MapOp K V)) (dk : FormatOptions → K → List Char) (dv : FormatOptions → V → List Char) :
    ∃ outs v m, ∃ (es : List (K × V)) (text : List Char),
      VMap.run (defaultAllocator R) lt eq nd ops Vec.new m0 = .ok (outs, v, m) ∧
      es.Perm (MapOp.run eq ops []).2 ∧ Increasing lt es ∧
      (∀ o, VMap.debugWith dk dv o v m = .ok text) ∧
      text = listed "{" "," "}" (es.map (showEntry (dk {}) (dv {}))) ∧
      (es ≠ [] → ∀ o, (∀ x, (dk {} x).length ≤ (dk o x).length) → (∀ x, (dv {} x).length < (dv o x).length) →
        text ≠ listed "{" "," "}" (es.map (showEntry (dk o) (dv o)))) := by
  obtain ⟨outs, v, m, es, h0, hp, hi, h1⟩ := C105_vector_map_debug R lt eq hw hc nd m0 ops (dk {}) (dv {})
  refine ⟨outs, v, m, es, _, h0, hp, hi, fun _ => h1, rfl, fun hx o hk hv =>
    listed_ne_of_longer rfl rfl rfl (fun e => ?_) hx⟩
  have := hk e.1
  have := hv e.2
  simp only [showEntry, List.length_append]
  omega

/-- `{:*>5}`, `{:^6}` and `{:.1}` of `ab`; the first asks for another length than that of the text. -/
example : ({ fill := '*', align := .right, width := some 5 } : FormatOptions).apply ['a', 'b'] =
      "***ab".toList ∧
    ({ align := .center, width := some 6 } : FormatOptions).apply ['a', 'b'] = "  ab  ".toList ∧
    ({ precision := some 1 } : FormatOptions).apply ['a', 'b'] = ['a'] ∧
    StrOp.run [.push 'a', .push 'b'] [] = .ok ([.unit, .unit], ['a', 'b']) := ⟨by decide, by decide, by decide, rfl⟩

/-- Digits printed with a width of two are longer than without, and a list of them shows it while a
vector does not. -/
example : (∀ x : Fin 10, (FormatOptions.apply {} (exampleDigit x)).length <
      (FormatOptions.apply { width := some 2 } (exampleDigit x)).length) ∧
  (do
    let (_, l, m) ← LList.history (listEnv Placer.bump 24 8 true false)
      [.pushBack 1, .pushBack 2, .pushFront 3] () 64 exampleListMem
    l.debugWith (fun o x => o.apply (exampleDigit x)) { width := some 2, align := .right } 4 m) =
      (.ok "[ 3,  1,  2]".toList : Exec _) ∧
  (do
    let (_, v, m) ← Vec.run (defaultAllocator RawAlloc.bump) true
      [.push 1, .push 2, .insert 0 3, .pop] Vec.new Mem.empty
    v.debugWith (fun o x => o.apply (exampleDigit x)) { width := some 2, align := .right } m) =
      (.ok "[3, 1]".toList : Exec _) := by
  decide +kernel

end Verif
