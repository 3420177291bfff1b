import Verif.Tree.Rep

/-!
# The successor of a node, and iteration
-/

set_option autoImplicit false

namespace Verif
open Spec

variable {K V σ : Type}

theorem leftmost_ok {m : TMem K V} {par p : Nat} {t : Tree (Nat × K × V)} (h : TreeAt m par t p)
    (hp : p ≠ 0) {f : Nat} (hf : t.count ≤ f) :
    ∃ a, (nodeAddrs t).head? = some a ∧ leftmost f m p = .ok a := by
  induction t generalizing par p f with
  | nil => exact absurd h hp
  | node l x r ih1 _ =>
    obtain ⟨b, e⟩ := x
    obtain ⟨rfl, h0, n, hn, h1, h2, hl, hr⟩ := h
    simp only [Tree.count] at hf
    obtain ⟨f, rfl⟩ : ∃ g, f = g + 1 := ⟨f - 1, by omega⟩
    by_cases hz : n.left = 0
    · have hnil := hl.nil_iff.1 hz
      subst hnil
      exact ⟨p, by simp, by simp [leftmost, NMem.get_some hn, hz]⟩
    · obtain ⟨a, ha, hr⟩ := ih1 hl hz (f := f) (by omega)
      refine ⟨a, by simp [List.head?_append, ha], ?_⟩
      simp [leftmost, NMem.get_some hn, hz, hr]

/-- What `nodeNext` does once it is known that there is no right child. -/
def up (f : Nat) (m : TMem K V) (self parent : Nat) : Exec Nat := do
  let _ ← m.get parent
  let (self, parent) ← climb f m self parent
  let n ← m.get self
  if n.right ≠ parent then .ok parent else .ok self

/-- Every address of the list is followed by the next, and asking for the one after the last
results in `e`. -/
def Succ (f : Nat) (m : TMem K V) (e : Exec Nat) : List Nat → Prop
  | [] => True
  | [x] => nodeNext f m x = e
  | x :: y :: l => nodeNext f m x = .ok y ∧ Succ f m e (y :: l)

theorem Succ.append {f : Nat} {m : TMem K V} {e : Exec Nat} {y : Nat} {l l' : List Nat}
    (h1 : Succ f m (.ok y) l) (h2 : Succ f m e (y :: l')) : Succ f m e (l ++ y :: l') := by
  induction l with
  | nil => exact h2
  | cons x l ih =>
    cases l with
    | nil => exact ⟨h1, h2⟩
    | cons z l => exact ⟨h1.1, ih h1.2⟩

theorem Succ.cons {f : Nat} {m : TMem K V} {e : Exec Nat} {x y : Nat} {l : List Nat}
    (h1 : nodeNext f m x = .ok y) (hy : l.head? = some y) (h2 : Succ f m e l) :
    Succ f m e (x :: l) := by
  cases l with
  | nil => simp at hy
  | cons z l =>
    simp only [List.head?_cons, Option.some.injEq] at hy
    subst hy
    exact ⟨h1, h2⟩

theorem Succ.suffix {f : Nat} {m : TMem K V} {e : Exec Nat} {l l' : List Nat}
    (h : Succ f m e (l ++ l')) : Succ f m e l' := by
  induction l with
  | nil => exact h
  | cons x l ih =>
    cases hl : l ++ l' with
    | nil => rw [List.append_eq_nil_iff] at hl; rw [hl.2]; trivial
    | cons y l2 =>
      rw [List.cons_append, hl] at h
      rw [hl] at ih
      exact ih h.2

/-- Successors inside a subtree, given what climbing out of it results in. -/
theorem TreeAt.succ {m : TMem K V} {par p d : Nat} {e : Exec Nat} {t : Tree (Nat × K × V)}
    (h : TreeAt m par t p) (hnd : (nodeAddrs t).Nodup)
    (hup : p ≠ 0 → ∀ f, d ≤ f → up f m p par = e) {f : Nat} (hf : d + t.count ≤ f) :
    Succ f m e (nodeAddrs t) := by
  induction t generalizing par p e d f with
  | nil => trivial
  | node l x r ih1 ih2 =>
    obtain ⟨b, kv⟩ := x
    have h' := h
    obtain ⟨rfl, h0, n, hn, h1, h2, hl, hr⟩ := h
    simp only [Tree.count] at hf
    rw [nodeAddrs_node] at hnd ⊢
    simp only at hnd ⊢
    obtain ⟨nd1, nd2, nd3⟩ := List.nodup_append.1 hnd
    obtain ⟨nd4, nd5⟩ := List.nodup_cons.1 nd2
    apply Succ.append
    · -- the left subtree
      refine ih1 (d := 1) hl nd1 ?_ (by omega)
      intro hz f hf
      obtain ⟨f, rfl⟩ : ∃ g, f = g + 1 := ⟨f - 1, by omega⟩
      have hml := hl.root_mem hz
      have hne : n.left ≠ n.right := by
        intro he
        have := hr.root_mem (by rw [← he]; exact hz)
        rw [← he] at this
        exact nd3 _ hml _ (by simp [this]) rfl
      obtain ⟨nl, hnl⟩ := hl.live hml
      have hright : nl.right ≠ p := by
        cases l with
        | nil => simp at hml
        | node l' x' r' =>
          obtain ⟨b', kv'⟩ := x'
          obtain ⟨rfl, h0', n', hn', h1', h2', hl', hr'⟩ := hl
          rw [hnl] at hn'
          obtain rfl := Option.some.inj hn'
          intro he
          have := hr'.root_mem (by rw [he]; exact h0)
          rw [he] at this
          exact nd3 p (by simp [this]) p (by simp) rfl
      simp [up, climb, NMem.get_some hn, hne, NMem.get_some hnl, hright]
    · -- the node itself and the right subtree
      have hself : nodeNext f m p = if n.right = 0 then e else leftmost f m n.right := by
        by_cases hz : n.right = 0
        · have := hup h0 f (by omega)
          unfold up at this
          simp only [nodeNext, NMem.get_some hn, Exec.ok_bind, hz, h2,
            ne_eq, not_true_eq_false, if_true, if_false]
          exact this
        · simp [nodeNext, NMem.get_some hn, hz]
      by_cases hz : n.right = 0
      · have hnil := hr.nil_iff.1 hz
        subst hnil
        simpa [Succ, hz] using hself
      · obtain ⟨y, hy1, hy2⟩ := leftmost_ok hr hz (f := f) (by omega)
        rw [if_neg hz, hy2] at hself
        refine Succ.cons hself hy1 (ih2 (d := d + 1) hr nd5 ?_ (by omega))
        intro _ f hf
        obtain ⟨f, rfl⟩ : ∃ g, f = g + 1 := ⟨f - 1, by omega⟩
        have := hup h0 f (by omega)
        unfold up at this
        simp only [up, climb, NMem.get_some hn, Exec.ok_bind, if_true, h2]
        rw [← this]
        cases m.get par <;> rfl

/-- The tree with its anchor: the successor of the last node is the anchor, whatever the anchor's
`begin` field holds. -/
theorem succ_anchor {m : TMem K V} {anchor p : Nat} {n : TNode K V} {t : Tree (Nat × K × V)}
    (h : TreeAt m anchor t p) (hnd : (nodeAddrs t).Nodup) (hn : m.node anchor = some n)
    (hroot : n.parent.addr = p) (h0 : anchor ≠ 0) (ha : anchor ∉ nodeAddrs t) {f : Nat}
    (hf : t.count + 2 ≤ f) : Succ f m (.ok anchor) (nodeAddrs t) := by
  refine h.succ hnd (d := 2) ?_ (by omega)
  intro hp f hf
  obtain ⟨f, rfl⟩ : ∃ g, f = g + 2 := ⟨f - 2, by omega⟩
  cases t with
  | nil => exact absurd h hp
  | node l x r =>
    obtain ⟨b, e⟩ := x
    obtain ⟨rfl, _, np, hnp, _, _, hl, hr⟩ := h
    have hne : np.right ≠ anchor := by
      intro he
      have := hr.root_mem (by rw [he]; exact h0)
      rw [he] at this
      exact ha (by simp [this])
    by_cases hb : p = n.right
    · subst hb
      simp [up, climb, NMem.get_some hn, hroot, NMem.get_some hnp, Ne.symm hne]
    · simp [up, climb, NMem.get_some hn, hb, NMem.get_some hnp, hne]

/-- A tree whose anchor is not a node any more: asking for the successor of the last node
dereferences it. -/
theorem succ_dangling {m : TMem K V} {anchor p : Nat} {t : Tree (Nat × K × V)}
    (h : TreeAt m anchor t p) (hnd : (nodeAddrs t).Nodup) (hn : m.node anchor = none) {f : Nat}
    (hf : t.count ≤ f) : Succ f m (.error .ub) (nodeAddrs t) := by
  refine h.succ hnd (d := 0) ?_ (by omega)
  intro _ f _
  simp [up, NMem.get_none hn]

theorem TreeAt.pair {m : TMem K V} {par p : Nat} {t : Tree (Nat × K × V)} (h : TreeAt m par t p)
    {x : Nat × K × V} (hx : x ∈ t.inorder) : ∃ n, m.node x.1 = some n ∧ n.pair = some x.2 := by
  induction t generalizing par p with
  | nil => simp [Tree.inorder] at hx
  | node l y r ih1 ih2 =>
    obtain ⟨b, e⟩ := y
    obtain ⟨rfl, h0, n, hn, h1, h2, hl, hr⟩ := h
    simp only [Tree.inorder, List.mem_append, List.mem_cons] at hx
    rcases hx with hx | rfl | hx
    · exact ih1 hl hx
    · exact ⟨n, hn, h1⟩
    · exact ih2 hr hx

/-- Draining an iterator yields the entries from its node on. -/
theorem drain_ok {m : TMem K V} {anchor nf : Nat} {xs : List (Nat × K × V)}
    (hs : Succ nf m (.ok anchor) (xs.map Prod.fst)) (ha : anchor ∉ xs.map Prod.fst)
    (h0 : ∀ x ∈ xs, x.1 ≠ 0)
    (hp : ∀ x ∈ xs, ∃ n, m.node x.1 = some n ∧ n.pair = some x.2) {f : Nat}
    (hf : xs.length < f) :
    RBTree.Iter.drain nf f ⟨(xs.map Prod.fst).head?.getD anchor, anchor⟩ m =
      .ok (xs.map Prod.snd) := by
  induction xs generalizing f with
  | nil =>
    obtain ⟨f, rfl⟩ : ∃ g, f = g + 1 := ⟨f - 1, by simp at hf; omega⟩
    simp [RBTree.Iter.drain, RBTree.Iter.next]
  | cons x xs ih =>
    obtain ⟨f, rfl⟩ : ∃ g, f = g + 1 := ⟨f - 1, by simp at hf; omega⟩
    obtain ⟨n, hn, hpair⟩ := hp x (by simp)
    have hx0 := h0 x (by simp)
    have hxa : x.1 ≠ anchor := by rintro rfl; exact ha (by simp)
    have hnext : nodeNext nf m x.1 = .ok ((xs.map Prod.fst).head?.getD anchor) := by
      cases xs with
      | nil => exact hs
      | cons y xs => exact hs.1
    have hs' : Succ nf m (.ok anchor) (xs.map Prod.fst) := by
      cases xs with
      | nil => trivial
      | cons y xs => exact hs.2
    have := ih hs' (fun h => ha (by simp only [List.map_cons, List.mem_cons]; exact .inr h))
      (fun y hy => h0 y (by simp [hy])) (fun y hy => hp y (by simp [hy])) (f := f)
      (by simp at hf; omega)
    rw [List.head?_map] at this
    simp [RBTree.Iter.drain, RBTree.Iter.next, hxa, hx0, hnext, nodePair, NMem.get_some hn, hpair,
      initd, this]

/-- Draining an iterator over a tree whose last step faults. -/
theorem drain_err {m : TMem K V} {s nf : Nat} {e : Fault} {xs : List (Nat × K × V)}
    (hs : Succ nf m (.error e) (xs.map Prod.fst)) (ha : s ∉ xs.map Prod.fst)
    (h0 : ∀ x ∈ xs, x.1 ≠ 0)
    (hp : ∀ x ∈ xs, ∃ n, m.node x.1 = some n ∧ n.pair = some x.2) {f p : Nat}
    (hx : (xs.map Prod.fst).head? = some p) (hf : xs.length ≤ f) :
    RBTree.Iter.drain nf f ⟨p, s⟩ m = .error e := by
  induction xs generalizing f p with
  | nil => simp at hx
  | cons x xs ih =>
    obtain ⟨f, rfl⟩ : ∃ g, f = g + 1 := ⟨f - 1, by simp at hf; omega⟩
    obtain ⟨n, hn, hpair⟩ := hp x (by simp)
    have hx0 := h0 x (by simp)
    simp only [List.map_cons, List.head?_cons, Option.some.injEq] at hx
    subst hx
    have hxa : x.1 ≠ s := by rintro rfl; exact ha (by simp)
    cases xs with
    | nil =>
      have hnext : nodeNext nf m x.1 = .error e := hs
      simp [RBTree.Iter.drain, RBTree.Iter.next, hxa, hx0, hnext]
    | cons y xs =>
      have hnext : nodeNext nf m x.1 = .ok y.1 := hs.1
      have := ih hs.2 (fun h => ha (by rw [List.map_cons, List.mem_cons]; exact .inr h))
        (fun y hy => h0 y (List.mem_cons_of_mem _ hy))
        (fun y hy => hp y (List.mem_cons_of_mem _ hy)) (f := f) (p := y.1) rfl
        (by simp at hf ⊢; omega)
      simp [RBTree.Iter.drain, RBTree.Iter.next, hxa, hx0, hnext, nodePair, NMem.get_some hn,
        hpair, initd, this]

theorem TreeRep.first {T : RBTree σ} {m : TMem K V} {t : Tree (Nat × K × V)} (h : TreeRep T m t) :
    ∃ n, m.node T.anchor = some n ∧
      (t ≠ .nil → n.right = (nodeAddrs t).head?.getD T.anchor) ∧
      (t = .nil → n.right = 0 ∨ n.right = T.anchor) := by
  obtain ⟨n, r, hn, _, _, _, h1, h2⟩ := h.anchor
  exact ⟨n, hn, fun ht => by rw [(h1 ht).1]; rfl, h2⟩

theorem TreeRep.succ {T : RBTree σ} {m : TMem K V} {t : Tree (Nat × K × V)} (h : TreeRep T m t)
    {f : Nat} (hf : t.count + 2 ≤ f) : Succ f m (.ok T.anchor) (nodeAddrs t) := by
  obtain ⟨n, r, hn, _, h1, h2, _⟩ := h.anchor
  exact succ_anchor h2 h.nodup hn h1 h.nonnull h.apart hf

theorem TreeRep.toList {T : RBTree σ} {m : TMem K V} {t : Tree (Nat × K × V)} (h : TreeRep T m t)
    {f : Nat} (hf : t.count + 2 ≤ f) : T.toList f m = .ok (entries t) := by
  obtain ⟨n, hn, h1, h2⟩ := h.first
  by_cases ht : t = .nil
  · subst ht
    obtain ⟨f, rfl⟩ : ∃ g, f = g + 1 := ⟨f - 1, by omega⟩
    rcases h2 rfl with h2 | h2 <;>
      simp [RBTree.toList, RBTree.iter, RBTree.first, NMem.get_some hn, RBTree.Iter.drain,
        RBTree.Iter.next, h2, Ne.symm h.nonnull]
  · obtain ⟨n', r, hn', _, _, ha, _⟩ := h.anchor
    have := drain_ok (xs := t.inorder) (h.succ hf) h.apart
      (fun x hx => ha.ne_zero (List.mem_map_of_mem hx)) (fun x hx => ha.pair hx) (f := f)
      (by rw [length_inorder]; omega)
    simp only [RBTree.toList, RBTree.iter, RBTree.first, NMem.get_some hn, Exec.ok_bind, h1 ht]
    exact this

/-! ## Iterating with a consumer that changes values -/

/-- The same nodes with the same links; entries may differ. -/
def SameLinks (m m' : TMem K V) : Prop :=
  ∀ p, (m.node p = none ∧ m'.node p = none) ∨ ∃ n n', m.node p = some n ∧ m'.node p = some n' ∧
    n'.right = n.right ∧ n'.left = n.left ∧ n'.parent = n.parent

theorem SameLinks.leftmost {m m' : TMem K V} (h : SameLinks m m') (f p : Nat) :
    leftmost f m' p = leftmost f m p := by
  induction f generalizing p with
  | zero => rfl
  | succ f ih =>
    rcases h p with ⟨h1, h2⟩ | ⟨n, n', h1, h2, h3, h4, h5⟩
    · simp [Verif.leftmost, NMem.get_none h1, NMem.get_none h2]
    · simp [Verif.leftmost, NMem.get_some h1, NMem.get_some h2, h4, ih]

theorem SameLinks.climb {m m' : TMem K V} (h : SameLinks m m') (f s p : Nat) :
    climb f m' s p = climb f m s p := by
  induction f generalizing s p with
  | zero => rfl
  | succ f ih =>
    rcases h p with ⟨h1, h2⟩ | ⟨n, n', h1, h2, h3, h4, h5⟩
    · simp [Verif.climb, NMem.get_none h1, NMem.get_none h2]
    · simp only [Verif.climb, NMem.get_some h1, NMem.get_some h2, Exec.ok_bind, h3, h5, ih]
      rcases h n.parent.addr with ⟨g1, g2⟩ | ⟨n2, n2', g1, g2, _⟩
      · simp [NMem.get_none g1, NMem.get_none g2]
      · simp [NMem.get_some g1, NMem.get_some g2]

theorem SameLinks.nodeNext {m m' : TMem K V} (h : SameLinks m m') (f p : Nat) :
    nodeNext f m' p = nodeNext f m p := by
  rcases h p with ⟨h1, h2⟩ | ⟨n, n', h1, h2, h3, h4, h5⟩
  · simp [Verif.nodeNext, NMem.get_none h1, NMem.get_none h2]
  · simp only [Verif.nodeNext, NMem.get_some h1, NMem.get_some h2, Exec.ok_bind, h3, h5,
      h.leftmost, h.climb]
    rcases h n.parent.addr with ⟨g1, g2⟩ | ⟨n2, n2', g1, g2, _⟩
    · simp [NMem.get_none g1, NMem.get_none g2]
    · simp only [NMem.get_some g1, NMem.get_some g2, Exec.ok_bind]
      cases hc : Verif.climb f m p n.parent.addr with
      | error e => rfl
      | ok x =>
        simp only [Exec.ok_bind]
        rcases h x.1 with ⟨g1, g2⟩ | ⟨n3, n3', g1, g2, g3, _⟩
        · simp [NMem.get_none g1, NMem.get_none g2]
        · simp [NMem.get_some g1, NMem.get_some g2, g3]

theorem SameLinks.succ {m m' : TMem K V} (h : SameLinks m m') {f : Nat} {e : Exec Nat} {l : List Nat}
    (hs : Succ f m e l) : Succ f m' e l := by
  induction l with
  | nil => trivial
  | cons x l ih =>
    cases l with
    | nil => exact (h.nodeNext f x).trans hs
    | cons y l => exact ⟨(h.nodeNext f x).trans hs.1, ih hs.2⟩

theorem SameLinks.refl (m : TMem K V) : SameLinks m m := by
  intro p
  cases h : m.node p with
  | none => exact .inl ⟨rfl, rfl⟩
  | some n => exact .inr ⟨n, n, rfl, rfl, rfl, rfl, rfl⟩

theorem SameLinks.trans {m1 m2 m3 : TMem K V} (h : SameLinks m1 m2) (h' : SameLinks m2 m3) :
    SameLinks m1 m3 := by
  intro p
  rcases h p with ⟨h1, h2⟩ | ⟨n, n', h1, h2, h3, h4, h5⟩
  · rcases h' p with ⟨g1, g2⟩ | ⟨n, n', g1, g2, _⟩
    · exact .inl ⟨h1, g2⟩
    · rw [g1] at h2; cases h2
  · rcases h' p with ⟨g1, g2⟩ | ⟨k, k', g1, g2, g3, g4, g5⟩
    · rw [g1] at h2; cases h2
    · rw [g1] at h2
      obtain rfl := Option.some.inj h2
      exact .inr ⟨n, k', h1, g2, g3.trans h3, g4.trans h4, g5.trans h5⟩

/-- Memory `m'` is `m` with the entries of `xs` changed by `f`, and nothing else. -/
structure Changed (f : K × V → K × V) (xs : List (Nat × K × V)) (m m' : TMem K V) : Prop where
  links : SameLinks m m'
  there : ∀ x ∈ xs, ∃ n, m'.node x.1 = some n ∧ n.pair = some (f x.2)
  other : ∀ p, p ∉ xs.map Prod.fst → m'.node p = m.node p
  reg : m'.reg = m.reg
  link : m'.link = m.link
  dropped : m'.dropped = m.dropped

theorem setPair_ok {m : TMem K V} {p : Nat} {n : TNode K V} (hn : m.node p = some n) (e : K × V) :
    ∃ m', m.modify p (fun n => { n with pair := some e }) = .ok m' ∧ SameLinks m m' ∧
      m'.node p = some { n with pair := some e } ∧ (∀ q, q ≠ p → m'.node q = m.node q) ∧
      m'.reg = m.reg ∧ m'.link = m.link ∧ m'.dropped = m.dropped := by
  refine ⟨_, NMem.modify_some hn _, ?_, by simp, fun q hq => by simp [hq], rfl, rfl, rfl⟩
  intro q
  by_cases hq : q = p
  · subst hq
    exact .inr ⟨n, { n with pair := some e }, hn, by simp, rfl, rfl, rfl⟩
  · simp only [Function.update_of_ne hq]
    exact SameLinks.refl m q

theorem drainMut_ok (g : K → V → V) {m : TMem K V} {anchor nf : Nat} {xs : List (Nat × K × V)}
    (hs : Succ nf m (.ok anchor) (xs.map Prod.fst)) (ha : anchor ∉ xs.map Prod.fst)
    (h0 : ∀ x ∈ xs, x.1 ≠ 0) (hnd : (xs.map Prod.fst).Nodup)
    (hp : ∀ x ∈ xs, ∃ n, m.node x.1 = some n ∧ n.pair = some x.2) {f : Nat}
    (hf : xs.length < f) :
    ∃ m', RBTree.Iter.drainMut g nf f ⟨(xs.map Prod.fst).head?.getD anchor, anchor⟩ m =
      .ok (xs.map Prod.snd, m') ∧ Changed (fun e => (e.1, g e.1 e.2)) xs m m' := by
  induction xs generalizing f m with
  | nil =>
    obtain ⟨f, rfl⟩ : ∃ g, f = g + 1 := ⟨f - 1, by simp at hf; omega⟩
    exact ⟨m, by simp [RBTree.Iter.drainMut, RBTree.Iter.next],
      .refl m, by simp, fun _ _ => rfl, rfl, rfl, rfl⟩
  | cons x xs ih =>
    obtain ⟨f, rfl⟩ : ∃ g, f = g + 1 := ⟨f - 1, by simp at hf; omega⟩
    obtain ⟨n, hn, hpair⟩ := hp x (by simp)
    have hx0 := h0 x (by simp)
    have hxa : x.1 ≠ anchor := by rintro rfl; exact ha (by simp)
    have hnext : nodeNext nf m x.1 = .ok ((xs.map Prod.fst).head?.getD anchor) := by
      cases xs with
      | nil => exact hs
      | cons y xs => exact hs.1
    have hs' : Succ nf m (.ok anchor) (xs.map Prod.fst) := by
      cases xs with
      | nil => trivial
      | cons y xs => exact hs.2
    rw [List.map_cons, List.nodup_cons] at hnd
    obtain ⟨m1, e1, l1, e2, e3, e4, e5, e6⟩ := setPair_ok hn (x.2.1, g x.2.1 x.2.2)
    have hne : ∀ y ∈ xs, y.1 ≠ x.1 := fun y hy he => hnd.1 (he ▸ List.mem_map_of_mem hy)
    obtain ⟨m2, r1, c⟩ := ih (m := m1) (l1.succ hs')
      (fun h => ha (by simp only [List.map_cons, List.mem_cons]; exact .inr h))
      (fun y hy => h0 y (by simp [hy])) hnd.2
      (fun y hy => by rw [e3 _ (hne y hy)]; exact hp y (by simp [hy])) (f := f)
      (by simp at hf; omega)
    refine ⟨m2, ?_, l1.trans c.links, ?_, ?_, c.reg.trans e4, c.link.trans e5,
      c.dropped.trans e6⟩
    · rw [List.head?_map] at r1
      simp [RBTree.Iter.drainMut, RBTree.Iter.next, hxa, hx0, hnext, nodePair, NMem.get_some hn,
        hpair, initd, e1, r1]
    · intro y hy
      rcases List.mem_cons.1 hy with rfl | hy
      · exact ⟨_, (c.other _ hnd.1).trans e2, rfl⟩
      · exact c.there y hy
    · intro p hp
      simp only [List.map_cons, List.mem_cons, not_or] at hp
      rw [c.other p hp.2, e3 p hp.1]

/-- A tree whose entries change in place keeps its shape. -/
theorem TreeAt.changed {f : K × V → K × V} {m m' : TMem K V} {par p : Nat}
    {t : Tree (Nat × K × V)} (h : TreeAt m par t p) (hl : SameLinks m m')
    (ht : ∀ x ∈ t.inorder, ∃ n, m'.node x.1 = some n ∧ n.pair = some (f x.2)) :
    TreeAt m' par (t.map fun x => (x.1, f x.2)) p := by
  induction t generalizing par p with
  | nil => exact h
  | node l x r ih1 ih2 =>
    obtain ⟨b, e⟩ := x
    obtain ⟨rfl, h0, n, hn, h1, h2, h3, h4⟩ := h
    simp only [Tree.inorder, List.mem_append, List.mem_cons] at ht
    obtain ⟨n', hn', hp'⟩ := ht (p, e) (by simp)
    rcases hl p with ⟨g1, g2⟩ | ⟨k, k', g1, g2, g3, g4, g5⟩
    · rw [hn] at g1; cases g1
    · simp only at hn'
      rw [hn'] at g2
      rw [hn] at g1
      obtain rfl := Option.some.inj g1
      obtain rfl := Option.some.inj g2
      refine ⟨rfl, h0, n', hn', hp', by rw [g5]; exact h2, ?_, ?_⟩
      · rw [g4]; exact ih1 h3 (fun x hx => ht x (.inl hx))
      · rw [g3]; exact ih2 h4 (fun x hx => ht x (.inr (.inr hx)))

theorem inorder_map {α β : Type} (f : α → β) (t : Tree α) :
    (t.map f).inorder = t.inorder.map f := by
  induction t with
  | nil => rfl
  | node l x r h1 h2 => simp [Tree.map, Tree.inorder, h1, h2]

theorem count_map {α β : Type} (f : α → β) (t : Tree α) : (t.map f).count = t.count := by
  induction t with
  | nil => rfl
  | node l x r h1 h2 => simp [Tree.map, Tree.count, h1, h2]

theorem nodeAddrs_map (f : K × V → K × V) (t : Tree (Nat × K × V)) :
    nodeAddrs (t.map fun x => (x.1, f x.2)) = nodeAddrs t := by
  simp [nodeAddrs, inorder_map]

theorem entries_map (f : K × V → K × V) (t : Tree (Nat × K × V)) :
    entries (t.map fun x => (x.1, f x.2)) = (entries t).map f := by
  simp [entries, inorder_map]

theorem TreeRep.changed {T : RBTree σ} {f : K × V → K × V} {m m' : TMem K V}
    {t : Tree (Nat × K × V)} (h : TreeRep T m t) (hl : SameLinks m m')
    (ht : ∀ x ∈ t.inorder, ∃ n, m'.node x.1 = some n ∧ n.pair = some (f x.2)) :
    TreeRep T m' (t.map fun x => (x.1, f x.2)) := by
  obtain ⟨n, r, hn, h1, h2, h3, h4, h5⟩ := h.anchor
  have hnil : (t.map fun x => (x.1, f x.2)) = .nil ↔ t = .nil := by
    cases t with
    | nil => simp [Tree.map]
    | node => simp [Tree.map]
  refine ⟨?_, h.nonnull, by rw [nodeAddrs_map]; exact h.nodup, by rw [nodeAddrs_map]; exact h.apart,
    by rw [count_map]; exact h.size⟩
  rcases hl T.anchor with ⟨g1, g2⟩ | ⟨k, k', g1, g2, g3, g4, g5⟩
  · rw [hn] at g1; cases g1
  · rw [hn] at g1
    obtain rfl := Option.some.inj g1
    refine ⟨k', r, g2, by rw [g5]; exact h1, by rw [g5]; exact h2, h3.changed hl ht, ?_, ?_⟩
    · rw [nodeAddrs_map, g3, g4]; intro ht; exact h4 (fun e => ht (hnil.2 e))
    · rw [g3]; intro ht; exact h5 (hnil.1 ht)

theorem TreeRep.forEachMut {T : RBTree σ} {m : TMem K V} {t : Tree (Nat × K × V)} (h : TreeRep T m t)
    (g : K → V → V) {f : Nat} (hf : t.count + 2 ≤ f) :
    ∃ m', T.forEachMut g f m = .ok (entries t, m') ∧
      TreeRep T m' (t.map fun x => (x.1, (x.2.1, g x.2.1 x.2.2))) ∧
      (∀ p, p ∉ nodeAddrs t → m'.node p = m.node p) ∧ m'.reg = m.reg ∧ m'.link = m.link ∧
      m'.dropped = m.dropped := by
  obtain ⟨n, hn, h1, h2⟩ := h.first
  by_cases ht : t = .nil
  · subst ht
    obtain ⟨f, rfl⟩ : ∃ g, f = g + 1 := ⟨f - 1, by omega⟩
    refine ⟨m, ?_, h, fun _ _ => rfl, rfl, rfl, rfl⟩
    rcases h2 rfl with h2 | h2 <;>
      simp [RBTree.forEachMut, RBTree.iter, RBTree.first, NMem.get_some hn, RBTree.Iter.drainMut,
        RBTree.Iter.next, h2, Ne.symm h.nonnull]
  · obtain ⟨n', r, hn', _, _, ha, _⟩ := h.anchor
    obtain ⟨m', r1, c⟩ := drainMut_ok g (xs := t.inorder) (h.succ hf) h.apart
      (fun x hx => ha.ne_zero (List.mem_map_of_mem hx)) h.nodup (fun x hx => ha.pair hx) (f := f)
      (by rw [length_inorder]; omega)
    refine ⟨m', ?_, h.changed (f := fun e => (e.1, g e.1 e.2)) c.links c.there, c.other, c.reg, c.link, c.dropped⟩
    simp only [RBTree.forEachMut, RBTree.iter, RBTree.first, NMem.get_some hn, Exec.ok_bind, h1 ht]
    exact r1

end Verif
