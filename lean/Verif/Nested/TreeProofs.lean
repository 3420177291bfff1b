import Verif.Nested.Maps
import Verif.Nested.TreeModel
import Verif.Props.Tree

/-! Ordered maps as containers of anything. -/

set_option autoImplicit false

namespace Verif
open Spec

variable {K V W H σ : Type}

theorem _root_.Verif.Spec.LookOp.step_map (lt : K → K → Bool) (f : V → W) (op : LookOp K)
    (s : List (K × V)) :
    (op.toTree (V := W)).step lt (s.map fun p => (p.1, f p.2)) =
      (((op.toTree (V := V)).step lt s).1.map f,
        ((op.toTree (V := V)).step lt s).2.map fun p => (p.1, f p.2)) := by
  cases op with
  | get k =>
    simp only [LookOp.toTree, TreeOp.step, lookup_mapVals]
    cases lookup (equiv lt) s k <;> simp [TreeOut.map]
  | contains k =>
    simp only [LookOp.toTree, TreeOp.step, lookup_mapVals]
    cases lookup (equiv lt) s k <;> simp [TreeOut.map]
  | len => simp [LookOp.toTree, TreeOp.step, TreeOut.map]
  | isEmpty => simp [LookOp.toTree, TreeOp.step, TreeOut.map]
  | iter => simp [LookOp.toTree, TreeOp.step, TreeOut.map]

theorem _root_.Verif.Spec.LookOp.same (lt : K → K → Bool) (op : LookOp K) (s : List (K × V)) :
    ((op.toTree (V := V)).step lt s).2 = s := by
  cases op <;> rfl

theorem _root_.Verif.Spec.LookOp.shown (lt : K → K → Bool) (op : LookOp K) (s : List (K × V)) :
    ∀ x ∈ ((op.toTree (V := V)).step lt s).1.vals, x ∈ s.map Prod.snd := by
  intro x hx
  cases op with
  | get k =>
    simp only [LookOp.toTree, TreeOp.step, TreeOut.vals] at hx
    cases h : lookup (equiv lt) s k with
    | none => simp [h] at hx
    | some p =>
      simp only [h, Option.map_some, Option.toList_some, List.mem_singleton] at hx
      exact List.mem_map.2 ⟨p, (lookup_mem h).1, hx.symm⟩
  | iter => exact hx
  | _ => simp [LookOp.toTree, TreeOp.step, TreeOut.vals] at hx

theorem KindLaw.ordered (lt : K → K → Bool) : KindLaw (Kind.ordered lt) (fun _ => true) where
  ok_map f op := rfl
  map_map f g op := rfl
  arg_map f op := rfl
  res_congr {α β} f g r h := by
    let r' : TreeOut K α := r
    have h : ∀ x ∈ r'.vals, f x = g x := h
    show r'.map f = r'.map g
    generalize r' = r' at h
    cases r' with
    | val v => cases v <;> simp_all [TreeOut.map, TreeOut.vals]
    | pairs l =>
      simp only [TreeOut.map]
      congr 1
      refine List.map_congr_left fun p hp => ?_
      rw [h p.2 (List.mem_map_of_mem (f := Prod.snd) hp)]
    | _ => rfl
  st_congr := (KindLaw.table (equiv lt)).st_congr
  step_map f op st := congrArg Except.ok (LookOp.step_map lt f op st)
  shown {α} op st r st' h := by
    have h : Except.ok ((LookOp.toTree (V := α) op).step lt st) = Except.ok (r, st') := h
    have h := Except.ok.inj h
    have h1 := LookOp.shown lt op st
    have h2 := LookOp.same (V := α) lt op st
    rw [h] at h1 h2
    intro x hx
    have := h1 x hx
    simp only at h2
    rw [← h2] at this
    exact this
  get_map := (KindLaw.table (equiv lt)).get_map
  set_map := (KindLaw.table (equiv lt)).set_map
  set_perm := (KindLaw.table (equiv lt)).set_perm
  set_congr := (KindLaw.table (equiv lt)).set_congr

theorem setFirst_increasing {lt : K → K → Bool} (hw : StrictWeak lt) {s : List (K × V)}
    (hi : Increasing lt s) (k : K) (v : V) :
    s.map (fun e => if equiv lt e.1 k then (e.1, v) else e) = setFirst (equiv lt) k v s := by
  induction s with
  | nil => rfl
  | cons p s ih =>
    have hi' : Increasing lt s := List.Pairwise.of_cons hi
    simp only [List.map_cons, setFirst]
    by_cases hp : equiv lt p.1 k = true
    · rw [if_pos hp, if_pos hp]
      congr 1
      have : ∀ q ∈ s, (if equiv lt q.1 k then (q.1, v) else q) = q := by
        intro q hq
        rw [if_neg]
        intro hqk
        have hpq : lt p.1 q.1 = true := (List.pairwise_cons.1 hi).1 q hq
        simp only [equiv, Bool.and_eq_true, Bool.not_eq_true'] at hp hqk
        rcases hw.cotrans hpq k with h | h
        · rw [hp.1] at h; cases h
        · rw [hqk.2] at h; cases h
      rw [List.map_congr_left this, List.map_id']
    · rw [if_neg hp, if_neg hp, ih hi']

/-- An ordered tree with these entries, in nodes that have not moved. -/
def TreeOuterInv (E : TEnv K H σ) (fuel : Nat) (T : RBTree σ) (m0 : TMem K H) (ps : List Nat)
    (s : (treeOuter E fuel).σ) (st : List (K × H)) : Prop :=
  s.1 = T ∧ ∃ t, TreeRep T s.2 t ∧ entries t = st ∧ Increasing E.lt st ∧ nodeAddrs t = ps ∧
    t.count + 2 ≤ fuel ∧ (∀ p, p ∉ ps → s.2.node p = m0.node p) ∧ s.2.reg = m0.reg ∧
    s.2.link = m0.link ∧ s.2.dropped = m0.dropped

theorem treeOuter_calls {E : TEnv K H σ} (hw : StrictWeak E.lt) (fuel : Nat) (T : RBTree σ)
    (m0 : TMem K H) (ps : List Nat) :
    OuterCalls (treeOuter E fuel) (fun _ => true) (fun _ => TreeOuterInv E fuel T m0 ps) where
  mono h := h
  step := by
    intro n s st op _ h
    obtain ⟨T', m⟩ := s
    obtain ⟨h0, t, h1, h2, h3, h4, h5, h6, h7, h8, h9⟩ := h
    simp only at h0 h1 h6 h7 h8 h9
    subst h0
    subst h2
    have key : T'.step E fuel op.toTree m = .ok (((LookOp.toTree op).step E.lt (entries t)).1, m) := by
      have op' : LookOp K := op
      cases op with
      | get k =>
        simp [LookOp.toTree, RBTree.step, h1.get hw h3 k (f := fuel) (by omega), TreeOp.step]
      | contains k =>
        simp [LookOp.toTree, RBTree.step, RBTree.containsKey, h1.get hw h3 k (f := fuel) (by omega),
          TreeOp.step]
      | len =>
        simp [LookOp.toTree, RBTree.step, RBTree.len, h1.size, TreeOp.step, length_entries]
      | isEmpty =>
        have : (T'.size == 0) = decide (entries t = []) := by
          rw [h1.size, ← length_entries]
          cases entries t <;> rfl
        simp [LookOp.toTree, RBTree.step, RBTree.isEmpty, RBTree.len, TreeOp.step, this]
      | iter => simp [LookOp.toTree, RBTree.step, h1.toList h5, TreeOp.step]
    have hsame := LookOp.same (V := H) E.lt op (entries t)
    show ∃ s' ds, _
    refine ⟨(T', m), [], ?_, ?_, by simp, ?_⟩
    · show (T'.step E fuel op.toTree m >>= fun q => Except.ok (q.1, T', q.2)) = _
      rw [key]
      rfl
    · refine ⟨rfl, t, h1, hsame.symm, ?_, h4, h5, h6, h7, h8, h9⟩
      show Increasing E.lt ((LookOp.toTree op).step E.lt (entries t)).2
      rw [hsame]
      exact h3
    · show ((entries t).map Prod.snd).Perm (((LookOp.toTree op).step E.lt (entries t)).2.map Prod.snd)
      rw [hsame]
  get := by
    intro n s st k h
    obtain ⟨T', m⟩ := s
    obtain ⟨rfl, t, h1, h2, h3, h4, h5, h6, h7, h8, h9⟩ := h
    subst h2
    exact h1.get hw h3 k (by omega)
  put := by
    intro n s st k x y h hy
    obtain ⟨T', m⟩ := s
    obtain ⟨h0, t, h1, h2, h3, h4, h5, h6, h7, h8, h9⟩ := h
    simp only at h0 h1 h6 h7 h8 h9
    subst h0
    subst h2
    obtain ⟨m1, e1, e2, e3, e4, e5, e6⟩ := h1.modify hw h3 k (fun _ => x) (f := fuel) (by omega)
    have hen := entries_map (fun e : K × H => if equiv E.lt e.1 k then (e.1, x) else e) t
    refine ⟨(T', m1), by simp [treeOuter, e1], ⟨rfl, _, e2, ?_, ?_, ?_, ?_, ?_, e4.trans h7,
      e5.trans h8, e6.trans h9⟩, by simp [treeOuter, e6]⟩
    · rw [hen]
      exact setFirst_increasing hw h3 k x
    · show Increasing E.lt (setFirst (equiv E.lt) k x (entries t))
      rw [← setFirst_increasing hw h3 k x]
      unfold Increasing at *
      rw [List.pairwise_map]
      refine h3.imp ?_
      intro a b hab
      split_ifs <;> exact hab
    · rw [← h4]
      exact nodeAddrs_map (fun e : K × H => if equiv E.lt e.1 k then (e.1, x) else e) t
    · rw [count_map]; exact h5
    · intro p hp
      rw [← h6 p hp]
      exact e3 p (by rw [h4]; exact hp)

end Verif
