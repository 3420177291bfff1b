import Verif.Tree.Iter
import Verif.Spec.FiniteMapLemmas

/-!
# Searching an ordered tree
-/

set_option autoImplicit false

namespace Verif
open Spec

variable {K V σ : Type} {lt : K → K → Bool}

theorem equiv_true {a b : K} : equiv lt a b = true ↔ lt a b = false ∧ lt b a = false := by
  simp [equiv]

theorem increasing_node {l r : Tree (Nat × K × V)} {x : Nat × K × V}
    (h : Increasing lt (entries (.node l x r))) :
    Increasing lt (entries l) ∧ Increasing lt (entries r) ∧
      (∀ y ∈ l.inorder, lt y.2.1 x.2.1 = true) ∧ (∀ y ∈ r.inorder, lt x.2.1 y.2.1 = true) := by
  unfold Increasing at *
  rw [entries_node] at h
  obtain ⟨h1, h2, h3⟩ := List.pairwise_append.1 h
  obtain ⟨h4, h5⟩ := List.pairwise_cons.1 h2
  exact ⟨h1, h5, fun y hy => h3 _ (List.mem_map_of_mem hy) _ (by simp),
    fun y hy => h4 _ (List.mem_map_of_mem hy)⟩

/-- A search tree lists its entries in increasing order. -/
theorem search_increasing (hw : StrictWeak lt) {t : Tree (Nat × K × V)}
    (h : t.Search fun a b => lt a.2.1 b.2.1) : Increasing lt (entries t) := by
  induction t with
  | nil => exact List.Pairwise.nil
  | node l x r ih1 ih2 =>
    obtain ⟨h1, h2, h3, h4⟩ := h
    unfold Increasing at *
    rw [entries_node]
    refine List.pairwise_append.2 ⟨ih1 h1, List.pairwise_cons.2 ⟨?_, ih2 h2⟩, ?_⟩
    · intro y hy
      obtain ⟨z, hz, rfl⟩ := List.mem_map.1 hy
      exact h4 z hz
    · intro y hy z hz
      obtain ⟨y', hy', rfl⟩ := List.mem_map.1 hy
      rcases List.mem_cons.1 hz with rfl | hz
      · exact h3 y' hy'
      · obtain ⟨z', hz', rfl⟩ := List.mem_map.1 hz
        exact hw.trans _ _ _ (h3 y' hy') (h4 z' hz')

theorem find?_none_of {α : Type} {p : α → Bool} {l : List α} (h : ∀ x ∈ l, p x = false) :
    l.find? p = none := by
  rw [List.find?_eq_none]
  intro x hx
  rw [h x hx]; decide

theorem findLoop_ok {E : TEnv K V σ} (hw : StrictWeak E.lt) (k : K) {m : TMem K V} {par p : Nat}
    {t : Tree (Nat × K × V)} (h : TreeAt m par t p) (hi : Increasing E.lt (entries t)) {f : Nat}
    (hf : t.count < f) :
    RBTree.findLoop E k f m p =
      .ok ((t.inorder.find? fun x => equiv E.lt x.2.1 k).map Prod.fst) := by
  induction t generalizing par p f with
  | nil =>
    obtain ⟨f, rfl⟩ : ∃ g, f = g + 1 := ⟨f - 1, by omega⟩
    have : p = 0 := h
    simp [RBTree.findLoop, this, Tree.inorder]
  | node l x r ih1 ih2 =>
    obtain ⟨i1, i2, i3, i4⟩ := increasing_node hi
    obtain ⟨b, e⟩ := x
    obtain ⟨rfl, h0, n, hn, h1, h2, hl, hr⟩ := h
    simp only [Tree.count] at hf
    obtain ⟨f, rfl⟩ : ∃ g, f = g + 1 := ⟨f - 1, by omega⟩
    simp only at i3 i4
    simp only [RBTree.findLoop, h0, if_false, NMem.get_some hn, Exec.ok_bind, h1, initd,
      Tree.inorder, List.find?_append, List.find?_cons]
    cases hk : E.lt k e.1 with
    | true =>
      have hx : equiv E.lt e.1 k = false := by
        simp [equiv, hk]
      have hr0 : (r.inorder.find? fun x => equiv E.lt x.2.1 k) = none := by
        apply find?_none_of
        intro y hy
        simp [equiv, hw.trans _ _ _ hk (i4 y hy)]
      simp [hx, hr0, ih1 hl i1 (f := f) (by omega)]
    | false =>
      cases hk2 : E.lt e.1 k with
      | false =>
        have hx : equiv E.lt e.1 k = true := by simp [equiv, hk, hk2]
        have hl0 : (l.inorder.find? fun x => equiv E.lt x.2.1 k) = none := by
          apply find?_none_of
          intro y hy
          rcases hw.cotrans (i3 y hy) k with h | h
          · simp [equiv, h]
          · rw [h] at hk; cases hk
        simp [hx, hl0]
      | true =>
        have hx : equiv E.lt e.1 k = false := by simp [equiv, hk2]
        have hl0 : (l.inorder.find? fun x => equiv E.lt x.2.1 k) = none := by
          apply find?_none_of
          intro y hy
          simp [equiv, hw.trans _ _ _ (i3 y hy) hk2]
        simp [hx, hl0, ih2 hr i2 (f := f) (by omega)]

theorem TreeRep.find {T : RBTree σ} {E : TEnv K V σ} {m : TMem K V} {t : Tree (Nat × K × V)}
    (h : TreeRep T m t) (hw : StrictWeak E.lt) (hi : Increasing E.lt (entries t)) (k : K) {f : Nat}
    (hf : t.count < f) :
    T.find E f k m = .ok ((t.inorder.find? fun x => equiv E.lt x.2.1 k).map Prod.fst) := by
  obtain ⟨n, r, hn, h1, _, h3, _⟩ := h.anchor
  simp only [RBTree.find, RBTree.root, NMem.get_some hn, Exec.ok_bind, h1]
  exact findLoop_ok hw k h3 hi hf

theorem lookup_entries (eq : K → K → Bool) (t : Tree (Nat × K × V)) (k : K) :
    lookup eq (entries t) k = (t.inorder.find? fun x => eq x.2.1 k).map Prod.snd := by
  simp only [lookup, entries, List.find?_map]
  rfl

theorem TreeRep.get {T : RBTree σ} {E : TEnv K V σ} {m : TMem K V} {t : Tree (Nat × K × V)}
    (h : TreeRep T m t) (hw : StrictWeak E.lt) (hi : Increasing E.lt (entries t)) (k : K) {f : Nat}
    (hf : t.count < f) :
    T.get E f k m = .ok ((lookup (equiv E.lt) (entries t) k).map Prod.snd) := by
  obtain ⟨n, r, hn, h1, _, h3, _⟩ := h.anchor
  rw [lookup_entries]
  cases hx : t.inorder.find? fun x => equiv E.lt x.2.1 k with
  | none => simp [RBTree.get, h.find hw hi k hf, hx]
  | some x =>
    obtain ⟨n', hn', hp'⟩ := h3.pair (List.mem_of_find?_eq_some hx)
    simp [RBTree.get, h.find hw hi k hf, hx, nodePair, NMem.get_some hn', hp', initd]

theorem increasing_unique (hw : StrictWeak lt) {s : List (Nat × K × V)}
    (hi : Increasing lt (s.map Prod.snd)) {k : K} {x y : Nat × K × V}
    (hx : x ∈ s) (hy : y ∈ s) (h1 : equiv lt x.2.1 k = true) (h2 : equiv lt y.2.1 k = true) :
    x = y := by
  have key : ∀ x y : Nat × K × V, lt x.2.1 y.2.1 = true → equiv lt x.2.1 k = true →
      equiv lt y.2.1 k = true → False := by
    intro x y hxy h1 h2
    rw [equiv_true] at h1 h2
    rcases hw.cotrans hxy k with h | h
    · rw [h1.1] at h; cases h
    · rw [h2.2] at h; cases h
  induction s with
  | nil => cases hx
  | cons a s ih =>
    unfold Increasing at *
    rw [List.map_cons, List.pairwise_cons] at hi
    rcases List.mem_cons.1 hx with rfl | hx'
    · rcases List.mem_cons.1 hy with rfl | hy'
      · rfl
      · exact (key _ _ (hi.1 _ (List.mem_map_of_mem hy')) h1 h2).elim
    · rcases List.mem_cons.1 hy with rfl | hy'
      · exact (key _ _ (hi.1 _ (List.mem_map_of_mem hx')) h2 h1).elim
      · exact ih hi.2 hx' hy'

theorem TreeRep.modify {T : RBTree σ} {E : TEnv K V σ} {m : TMem K V} {t : Tree (Nat × K × V)}
    (h : TreeRep T m t) (hw : StrictWeak E.lt) (hi : Increasing E.lt (entries t)) (k : K)
    (g : V → V) {f : Nat} (hf : t.count < f) :
    ∃ m', T.modify E f k g m = .ok ((lookup (equiv E.lt) (entries t) k).isSome, m') ∧
      TreeRep T m' (t.map fun x => (x.1, if equiv E.lt x.2.1 k then (x.2.1, g x.2.2) else x.2)) ∧
      (∀ p, p ∉ nodeAddrs t → m'.node p = m.node p) ∧ m'.reg = m.reg ∧ m'.link = m.link ∧
      m'.dropped = m.dropped := by
  obtain ⟨n, r, hn, h1, _, h3, _⟩ := h.anchor
  rw [lookup_entries]
  cases hx : t.inorder.find? fun x => equiv E.lt x.2.1 k with
  | none =>
    refine ⟨m, by simp [RBTree.modify, h.find hw hi k hf, hx], ?_, fun _ _ => rfl, rfl, rfl, rfl⟩
    refine h.changed (f := fun e => if equiv E.lt e.1 k then (e.1, g e.2) else e) (.refl m) ?_
    intro x hm
    have : equiv E.lt x.2.1 k = false := by
      have := List.find?_eq_none.1 hx x hm
      simpa using this
    obtain ⟨n', hn', hp'⟩ := h3.pair hm
    exact ⟨n', hn', by simp [this, hp']⟩
  | some x =>
    have hxm := List.mem_of_find?_eq_some hx
    have hxe : equiv E.lt x.2.1 k = true := by simpa using List.find?_some hx
    obtain ⟨n', hn', hp'⟩ := h3.pair hxm
    obtain ⟨m1, e1, l1, e2, e3, e4, e5, e6⟩ := setPair_ok hn' (x.2.1, g x.2.2)
    refine ⟨m1, ?_, ?_, ?_, e4, e5, e6⟩
    · simp [RBTree.modify, h.find hw hi k hf, hx, nodePair, NMem.get_some hn', hp', initd, e1]
    · refine h.changed (f := fun e => if equiv E.lt e.1 k then (e.1, g e.2) else e) l1 ?_
      intro y hy
      by_cases hxy : y.1 = x.1
      · have : y = x := by
          by_contra hne
          have hnd := h.nodup
          have : ∀ (s : List (Nat × K × V)), (s.map Prod.fst).Nodup → y ∈ s → x ∈ s → y = x := by
            intro s
            induction s with
            | nil => intro _ h; cases h
            | cons a s ih =>
              intro hnd h1 h2
              rw [List.map_cons, List.nodup_cons] at hnd
              rcases List.mem_cons.1 h1 with rfl | h1'
              · rcases List.mem_cons.1 h2 with rfl | h2'
                · rfl
                · exact absurd (hxy ▸ List.mem_map_of_mem h2') hnd.1
              · rcases List.mem_cons.1 h2 with rfl | h2'
                · exact absurd (hxy ▸ List.mem_map_of_mem h1') hnd.1
                · exact ih hnd.2 h1' h2'
          exact hne (this _ hnd hy hxm)
        subst this
        exact ⟨_, e2, by simp [hxe]⟩
      · obtain ⟨n2, hn2, hp2⟩ := h3.pair hy
        have : equiv E.lt y.2.1 k = false := by
          cases he : equiv E.lt y.2.1 k with
          | false => rfl
          | true => exact absurd (congrArg Prod.fst (increasing_unique hw hi hy hxm he hxe)) hxy
        exact ⟨n2, by rw [e3 _ hxy, hn2], by simp [this, hp2]⟩
    · intro p hp
      apply e3
      rintro rfl
      exact hp (List.mem_map_of_mem hxm)

/-- The search for the place of a new key ends below a node that is next to that place. -/
theorem positionLoop_ok {E : TEnv K V σ} (hw : StrictWeak E.lt) (k : K) {m : TMem K V}
    {par p prev : Nat} {t : Tree (Nat × K × V)} (h : TreeAt m par t p)
    (hi : Increasing E.lt (entries t)) {f : Nat} (hf : t.count < f) :
    (t = .nil ∧ RBTree.positionLoop E k f m p prev = .ok prev) ∨
    ∃ pre x post n, t.inorder = pre ++ x :: post ∧ m.node x.1 = some n ∧
      RBTree.positionLoop E k f m p prev = .ok x.1 ∧
      (∀ y ∈ pre, E.lt k y.2.1 = false) ∧ (∀ y ∈ post, E.lt k y.2.1 = true) ∧
      if E.lt k x.2.1 then n.left = 0 else n.right = 0 := by
  induction t generalizing par p f prev with
  | nil =>
    obtain ⟨f, rfl⟩ : ∃ g, f = g + 1 := ⟨f - 1, by omega⟩
    have : p = 0 := h
    exact .inl ⟨rfl, by simp [RBTree.positionLoop, this]⟩
  | node l x r ih1 ih2 =>
    right
    obtain ⟨i1, i2, i3, i4⟩ := increasing_node hi
    obtain ⟨b, e⟩ := x
    obtain ⟨rfl, h0, n, hn, h1, h2, hl, hr⟩ := h
    simp only [Tree.count] at hf
    obtain ⟨f, rfl⟩ : ∃ g, f = g + 1 := ⟨f - 1, by omega⟩
    simp only at i3 i4
    simp only [RBTree.positionLoop, h0, if_false, NMem.get_some hn, Exec.ok_bind, h1, initd]
    cases hk : E.lt k e.1 with
    | true =>
      have hr' : ∀ y ∈ r.inorder, E.lt k y.2.1 = true :=
        fun y hy => hw.trans _ _ _ hk (i4 y hy)
      rcases ih1 hl i1 (prev := p) (f := f) (by omega) with ⟨hnil, hp⟩ | ⟨pre, x, post, nx, h3, h4, h5, h6, h7, h8⟩
      · refine ⟨[], (p, e), r.inorder, n, by simp [Tree.inorder, hnil], hn, by simpa using hp, by simp, hr', ?_⟩
        simp only [hk, if_true]
        exact hl.nil_iff.2 hnil
      · refine ⟨pre, x, post ++ (p, e) :: r.inorder, nx, by simp [Tree.inorder, h3], h4, by simpa using h5, h6, ?_, h8⟩
        intro y hy
        simp only [List.mem_append, List.mem_cons] at hy
        rcases hy with hy | rfl | hy
        · exact h7 y hy
        · exact hk
        · exact hr' y hy
    | false =>
      have hl' : ∀ y ∈ l.inorder, E.lt k y.2.1 = false := by
        intro y hy
        cases hky : E.lt k y.2.1 with
        | false => rfl
        | true => rw [hw.trans _ _ _ hky (i3 y hy)] at hk; cases hk
      rcases ih2 hr i2 (prev := p) (f := f) (by omega) with ⟨hnil, hp⟩ | ⟨pre, x, post, nx, h3, h4, h5, h6, h7, h8⟩
      · refine ⟨l.inorder, (p, e), [], n, by simp [Tree.inorder, hnil], hn, by simpa using hp, hl', by simp, ?_⟩
        simp only [hk]
        exact hr.nil_iff.2 hnil
      · refine ⟨l.inorder ++ (p, e) :: pre, x, post, nx, by simp [Tree.inorder, h3], h4, by simpa using h5, ?_, h7, h8⟩
        intro y hy
        simp only [List.mem_append, List.mem_cons] at hy
        rcases hy with hy | rfl | hy
        · exact hl' y hy
        · exact hk
        · exact h6 y hy

end Verif
