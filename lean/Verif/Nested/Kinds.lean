import Verif.Nested.Proofs

/-! Vectors, deques and lists as containers of anything. -/

set_option autoImplicit false

namespace Verif
open Spec

variable {α β : Type}

theorem _root_.Verif.Spec.Out.map_congr (f g : α → β) (r : Out α) (h : ∀ x ∈ r.elems, f x = g x) :
    r.map f = r.map g := by
  cases r with
  | elem x => cases x <;> simp_all [Out.map, Out.elems]
  | list xs => simpa [Out.map, Out.elems] using h
  | _ => rfl

theorem take_drop_perm (xs : List α) (i : Nat) (h : i < xs.length) :
    xs.Perm (xs[i] :: (xs.take i ++ xs.drop (i + 1))) := by
  have : xs = xs.take i ++ xs[i] :: xs.drop (i + 1) := by
    rw [List.cons_getElem_drop_succ, List.take_append_drop]
  exact (List.Perm.of_eq this).trans List.perm_middle

theorem _root_.Verif.Spec.SeqOp.step_map (f : α → β) (op : SeqOp α) (xs : List α) :
    (op.map f).step (xs.map f) = (op.step xs).map fun p => (p.1.map f, p.2.map f) := by
  cases op <;> simp only [SeqOp.map, SeqOp.step, List.length_map, List.map_eq_nil_iff] <;> (try split_ifs) <;>
    simp_all [Except.map, Out.map, List.map_dropLast]

theorem _root_.Verif.Spec.SeqOp.shown (op : SeqOp α) {xs ys : List α} {r : Out α} (h : op.step xs = .ok (r, ys)) :
    ∀ x ∈ r.elems, x ∈ op.owned r ++ ys := by
  cases op <;> simp only [SeqOp.step] at h <;> (try split_ifs at h) <;> cases h <;>
    simp (config := { contextual := true }) [Out.elems, SeqOp.owned]

theorem KindLaw.vector : KindLaw Kind.vector SeqOp.single where
  ok_map f op := by cases op <;> rfl
  map_map f g op := by cases op <;> simp [Kind.vector, SeqOp.map]
  arg_map f op := by cases op <;> rfl
  res_congr f g r h := Out.map_congr f g r h
  st_congr f g st h := List.map_congr_left h
  step_map f op st := SeqOp.step_map f op st
  shown op st r st' h := SeqOp.shown op h
  get_map f p st := List.getElem?_map
  set_map f p x st := List.map_set
  set_perm p x y st h := by
    let i : Nat := p
    let xs : List _ := st
    obtain ⟨hi, rfl⟩ := List.getElem?_eq_some_iff.1 (show xs[i]? = some y from h)
    refine ⟨xs.take i ++ xs.drop (i + 1), take_drop_perm xs i hi, ?_⟩
    show (xs.set i x).Perm _
    rw [List.set_eq_take_append_cons_drop, if_pos hi]
    exact List.perm_middle
  set_congr f g p x y st zs h hz hfg := by
    let i : Nat := p
    let xs : List _ := st
    obtain ⟨hi, rfl⟩ := List.getElem?_eq_some_iff.1 (show xs[i]? = some y from h)
    have hp : zs.Perm (xs.take i ++ xs.drop (i + 1)) :=
      List.Perm.cons_inv (hz.symm.trans (take_drop_perm xs i hi))
    have h1 : ∀ z ∈ xs.take i, f z = g z := fun z hz => hfg z (hp.mem_iff.2 (by simp [hz]))
    have h2 : ∀ z ∈ xs.drop (i + 1), f z = g z := fun z hz => hfg z (hp.mem_iff.2 (by simp [hz]))
    show (xs.map f).set i (f x) = (xs.map g).set i (f x)
    rw [List.set_eq_take_append_cons_drop, List.set_eq_take_append_cons_drop, List.length_map,
      List.length_map, if_pos hi, if_pos hi, ← List.map_take, ← List.map_take, ← List.map_drop,
      ← List.map_drop, List.map_congr_left h1, List.map_congr_left h2]

theorem _root_.Verif.Spec.End.get_map (f : α → β) (p : End) (st : List α) :
    p.get (st.map f) = (p.get st).map f := by
  cases p <;> simp [End.get]

theorem _root_.Verif.Spec.End.set_map (f : α → β) (p : End) (x : α) (st : List α) :
    (p.set x st).map f = p.set (f x) (st.map f) := by
  cases p <;> simp only [End.set, List.map_eq_nil_iff] <;> split_ifs <;> simp [List.map_dropLast]

theorem _root_.Verif.Spec.End.split (p : End) {y : α} {st : List α} (h : p.get st = some y) :
    ∃ zs, st.Perm (y :: zs) ∧ ∀ {β : Type} (f : α → β) (b : β),
      p.set b (st.map f) = match p with
        | .front => b :: zs.map f
        | .back => zs.map f ++ [b] := by
  cases p with
  | front =>
    cases st with
    | nil => cases h
    | cons a st =>
      obtain rfl : a = y := by simpa [End.get] using h
      exact ⟨st, .refl _, fun f b => by simp [End.set]⟩
  | back =>
    rcases List.eq_nil_or_concat st with rfl | ⟨st, a, rfl⟩
    · cases h
    · obtain rfl : a = y := by simpa [End.get] using h
      exact ⟨st, by simp, fun f b => by simp [End.set]⟩

theorem _root_.Verif.Spec.End.set_perm (p : End) (x : α) {y : α} {st : List α} (h : p.get st = some y) :
    ∃ zs, st.Perm (y :: zs) ∧ (p.set x st).Perm (x :: zs) := by
  obtain ⟨zs, h1, h2⟩ := p.split h
  refine ⟨zs, h1, ?_⟩
  have := h2 id x
  rw [List.map_id, List.map_id] at this
  rw [this]
  cases p
  · exact .refl _
  · exact List.perm_append_singleton x zs

theorem _root_.Verif.Spec.End.set_congr (f g : α → β) (p : End) (b : β) {y : α} {st zs : List α}
    (h : p.get st = some y) (hz : st.Perm (y :: zs)) (hfg : ∀ z ∈ zs, f z = g z) :
    p.set b (st.map f) = p.set b (st.map g) := by
  obtain ⟨ys, h1, h2⟩ := p.split h
  have hp : zs.Perm ys := List.Perm.cons_inv (hz.symm.trans h1)
  have : ys.map f = ys.map g := List.map_congr_left fun z hz => hfg z (hp.mem_iff.2 hz)
  rw [h2, h2, this]

theorem _root_.Verif.Spec.DeqOp.step_map (f : α → β) (op : DeqOp α) (xs : List α) :
    (op.map f).step (xs.map f) = ((op.step xs).1.map f, (op.step xs).2.map f) := by
  cases op <;> simp only [DeqOp.map, DeqOp.step, List.length_map, List.map_eq_nil_iff] <;> (try split_ifs) <;>
    simp_all [Out.map, List.map_dropLast, List.map_tail]

theorem _root_.Verif.Spec.DeqOp.shown (op : DeqOp α) (xs : List α) :
    ∀ x ∈ (op.step xs).1.elems, x ∈ op.owned (op.step xs).1 ++ (op.step xs).2 := by
  intro x hx
  cases op with
  | front => simpa [DeqOp.step, Out.elems, DeqOp.owned] using List.mem_of_mem_head? (by simpa [DeqOp.step, Out.elems] using hx)
  | back => simpa [DeqOp.step, Out.elems, DeqOp.owned] using List.mem_of_mem_getLast? (by simpa [DeqOp.step, Out.elems] using hx)
  | _ => simp_all [DeqOp.step, Out.elems, DeqOp.owned]

theorem KindLaw.deque : KindLaw Kind.deque (fun _ => true) where
  ok_map f op := rfl
  map_map f g op := by cases op <;> simp [Kind.deque, DeqOp.map]
  arg_map f op := by cases op <;> rfl
  res_congr f g r h := Out.map_congr f g r h
  st_congr f g st h := List.map_congr_left h
  step_map f op st := congrArg Except.ok (DeqOp.step_map f op st)
  shown op st r st' h := by
    have h : Except.ok (DeqOp.step op st) = Except.ok (r, st') := h
    have h := Except.ok.inj h
    have := DeqOp.shown op st
    rw [h] at this
    exact this
  get_map f p st := End.get_map f p st
  set_map f p x st := End.set_map f p x st
  set_perm p x y st h := End.set_perm p x h
  set_congr f g p x y st zs h hz hfg := End.set_congr f g p (f x) h hz hfg

theorem _root_.Verif.Spec.ListOp.step_map (f : α → β) (op : ListOp α) (xs : List α) :
    (op.map f).step (xs.map f) = ((op.step xs).1.map f, (op.step xs).2.map f) := by
  cases op <;> simp only [ListOp.map, ListOp.step, List.length_map, List.map_eq_nil_iff] <;> (try split_ifs) <;>
    simp_all [Out.map, List.map_dropLast, List.map_tail]

theorem _root_.Verif.Spec.ListOp.shown (op : ListOp α) (xs : List α) :
    ∀ x ∈ (op.step xs).1.elems, x ∈ op.owned (op.step xs).1 ++ (op.step xs).2 := by
  intro x hx
  cases op with
  | front => simpa [ListOp.step, Out.elems, ListOp.owned] using List.mem_of_mem_head? (by simpa [ListOp.step, Out.elems] using hx)
  | back => simpa [ListOp.step, Out.elems, ListOp.owned] using List.mem_of_mem_getLast? (by simpa [ListOp.step, Out.elems] using hx)
  | _ => simp_all [ListOp.step, Out.elems, ListOp.owned]

theorem KindLaw.list : KindLaw Kind.list ListOp.single where
  ok_map f op := by cases op <;> rfl
  map_map f g op := by cases op <;> simp [Kind.list, ListOp.map]
  arg_map f op := by cases op <;> rfl
  res_congr f g r h := Out.map_congr f g r h
  st_congr f g st h := List.map_congr_left h
  step_map f op st := congrArg Except.ok (ListOp.step_map f op st)
  shown op st r st' h := by
    have h : Except.ok (ListOp.step op st) = Except.ok (r, st') := h
    have h := Except.ok.inj h
    have := ListOp.shown op st
    rw [h] at this
    exact this
  get_map f p st := End.get_map f p st
  set_map f p x st := End.set_map f p x st
  set_perm p x y st h := End.set_perm p x h
  set_congr f g p x y st zs h hz hfg := End.set_congr f g p (f x) h hz hfg

end Verif
