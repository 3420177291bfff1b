import Verif.Tree.Remove
import Verif.Props.Tree

/-!
# C137: removing a key from a map
-/

set_option autoImplicit false

namespace Verif
open Spec

variable {K V σ : Type}

/-- C137 is false: `remove_entry` panics on every map, for every key, in particular for a key that
the map contains. -/
theorem C137_remove_entry_panics {E : TEnv K V σ} (hw : StrictWeak E.lt) {T : RBTree σ} {m : TMem K V}
    {t : Tree (Nat × K × V)} (h : TreeRep T m t) (ho : t.Search fun a b => E.lt a.2.1 b.2.1)
    {k : K} {v : V} (hk : (k, v) ∈ entries t) {f : Nat} (hf : t.count + 2 ≤ f) :
    T.get E f k m = .ok (some v) ∧ T.removeEntry k m = .error .panic ∧
      ∀ k' : K, T.removeEntry (V := V) k' m = .error .panic := by
  obtain ⟨m', _, e, _⟩ := C73_tree_history hw h ho [.get k] hf
  refine ⟨?_, rfl, fun _ => rfl⟩
  have hi := search_increasing hw ho
  have hl : lookup (equiv E.lt) (entries t) k = some (k, v) := by
    have hmem := hk
    clear e hf hk h ho
    revert hmem hi
    generalize entries t = l
    intro hi hmem
    induction l with
    | nil => cases hmem
    | cons p l ih =>
      have hp := List.pairwise_cons.1 hi
      rcases List.mem_cons.1 hmem with rfl | hm
      · simp [lookup, equiv, hw.irrefl]
      · have hlt := hp.1 _ hm
        have : equiv E.lt p.1 k = false := by simp [equiv, hlt]
        simp only [lookup, List.find?_cons, this]
        exact ih hp.2 hm
  rw [h.get hw hi k (f := f) (by omega), hl]
  rfl

/-- The answers of the calls in a history, attempted removals left out. -/
def MapTried.outs : List (MapTried K V) → List (TreeOut K V)
  | [] => []
  | .out o :: os => o :: outs os
  | _ :: os => outs os

/-- The calls in a history, attempted removals left out. -/
def MapTry.calls : List (MapTry K V) → List (TreeOp K V)
  | [] => []
  | .call op :: ops => op :: calls ops
  | .removeEntry _ :: ops => calls ops

/-- What is true of C137: an attempt to remove a key does no harm.  In any history of calls in which
attempts are caught, all other calls answer as if there had been no attempts.  Missing: the key is not
removed, and every attempt ends in a panic. -/
theorem C137_attempts_partial {E : TEnv K V σ} (hw : StrictWeak E.lt) {T : RBTree σ} {m : TMem K V}
    {t : Tree (Nat × K × V)} (h : TreeRep T m t) (ho : t.Search fun a b => E.lt a.2.1 b.2.1)
    (ops : List (MapTry K V)) {f : Nat} (hf : t.count + 2 ≤ f) :
    ∃ outs m', T.runTries E f ops m = .ok (outs, m') ∧
      MapTried.outs outs = (TreeOp.run E.lt (MapTry.calls ops) (entries t)).1 ∧
      T.toList f m' = .ok (TreeOp.run E.lt (MapTry.calls ops) (entries t)).2 ∧
      ∀ o ∈ outs, ∀ e, o ≠ .removed e := by
  have key : ∀ (ops : List (MapTry K V)) (m : TMem K V) {os : List (TreeOut K V)} {m' : TMem K V},
      T.run E f (MapTry.calls ops) m = .ok (os, m') →
      ∃ outs, T.runTries E f ops m = .ok (outs, m') ∧ MapTried.outs outs = os ∧
        ∀ o ∈ outs, ∀ e, o ≠ .removed e := by
    intro ops
    induction ops with
    | nil => intro m os m' e; cases e; exact ⟨[], rfl, rfl, by simp⟩
    | cons op ops ih =>
      intro m os m' e
      cases op with
      | call op =>
        simp only [MapTry.calls, RBTree.run] at e
        obtain ⟨⟨o, m1⟩, e1, e⟩ := Exec.bind_ok e
        obtain ⟨⟨os', m2⟩, e2, e⟩ := Exec.bind_ok e
        cases e
        obtain ⟨outs, g1, g2, g3⟩ := ih m1 e2
        refine ⟨.out o :: outs, by simp [RBTree.runTries, e1, g1], by simp [MapTried.outs, g2], ?_⟩
        intro o' ho' e'
        rcases List.mem_cons.1 ho' with rfl | ho'
        · simp
        · exact g3 o' ho' e'
      | removeEntry k =>
        obtain ⟨outs, g1, g2, g3⟩ := ih m e
        refine ⟨.panicked :: outs, by
          simp [RBTree.runTries, RBTree.tryRemove, RBTree.removeEntry, g1], by
          simp [MapTried.outs, g2], ?_⟩
        intro o' ho' e'
        rcases List.mem_cons.1 ho' with rfl | ho'
        · simp
        · exact g3 o' ho' e'
  obtain ⟨m', t', e1, e2, e3, e4, _⟩ := C73_tree_history hw h ho (MapTry.calls ops) hf
  obtain ⟨outs, g1, g2, g3⟩ := key ops m e1
  refine ⟨outs, m', g1, g2, ?_, g3⟩
  have hc : t'.count = t.count := by
    have := congrArg List.length e4
    simpa [nodeAddrs, length_inorder] using this
  rw [e2.toList (f := f) (by omega), e3]

/-- Key 3 is present; it cannot be removed, and it is still there. -/
example : (3, 30) ∈ entries exampleTree ∧
    (exampleTreeObj.runTries exampleTreeEnv 6
      [.removeEntry 3, .call (.get 3), .removeEntry 4, .call .len] exampleTreeMem).map Prod.fst =
    .ok [.panicked, .out (.val (some 30)), .panicked, .out (.nat 4)] :=
  ⟨by decide, by decide +kernel⟩

end Verif
