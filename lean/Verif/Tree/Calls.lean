import Verif.Tree.Iter
import Verif.Spec.IterCalls

/-!
# Calls of `next`, one by one

Some number of calls of an iterator, however many entries there are, with what the caller does to
each value it is handed.
-/

set_option autoImplicit false

namespace Verif
open Spec

variable {K V σ : Type}

/-- As many calls of `next` (src/internal/rb_tree/iter.rs:21-31, 37-47) as there are functions, the
caller replacing the value it is handed, if it is handed one, by the function of key and value.
Through `iter`, which hands out shared references, the functions return the value unchanged. -/
def RBTree.Iter.calls (nf : Nat) : List (K → V → V) → Iter → TMem K V →
    Exec (List (Option (K × V)) × Iter × TMem K V)
  | [], it, m => .ok ([], it, m)
  | g :: gs, it, m => do
    match ← it.next nf m with
    | (none, it) => do
      let (os, it, m) ← it.calls nf gs m
      .ok (none :: os, it, m)
    | (some (p, e), it) => do
      let m ← m.modify p fun n => { n with pair := some (e.1, g e.1 e.2) }
      let (os, it, m) ← it.calls nf gs m
      .ok (some e :: os, it, m)

/-- As many calls of `next` of the iterator `iter` returns (src/internal/rb_tree/iter.rs:21-31). -/
def RBTree.Iter.look (nf : Nat) : Nat → Iter → TMem K V → Exec (List (Option (K × V)) × Iter)
  | 0, it, _ => .ok ([], it)
  | n + 1, it, m => do
    let (o, it) ← it.next nf m
    let (os, it) ← it.look nf n m
    .ok (o.map Prod.snd :: os, it)

theorem calls_end {m : TMem K V} {nf : Nat} (gs : List (K → V → V)) {it : RBTree.Iter}
    (h : it.node = it.anchor ∨ it.node = 0) :
    RBTree.Iter.calls nf gs it m = .ok (gs.map fun _ => none, it, m) := by
  induction gs with
  | nil => rfl
  | cons g gs ih =>
    have hn : it.next nf m = .ok (none, it) := by
      rcases h with h | h <;> simp [RBTree.Iter.next, h]
    simp [RBTree.Iter.calls, hn, ih]

theorem look_end {m : TMem K V} {nf : Nat} (n : Nat) {it : RBTree.Iter}
    (h : it.node = it.anchor ∨ it.node = 0) :
    RBTree.Iter.look nf n it m = .ok (List.replicate n none, it) := by
  induction n with
  | zero => rfl
  | succ n ih =>
    have hn : it.next nf m = .ok (none, it) := by
      rcases h with h | h <;> simp [RBTree.Iter.next, h]
    simp [RBTree.Iter.look, hn, ih, List.replicate_succ]

/-- The answers of `n` calls on an iterator with these entries ahead. -/
def answers {α : Type} (n : Nat) (es : List α) : List (Option α) :=
  (List.range n).map fun i => es[i]?

@[simp] theorem answers_zero {α : Type} (es : List α) : answers 0 es = [] := rfl

theorem answers_succ {α : Type} (n : Nat) (e : α) (es : List α) :
    answers (n + 1) (e :: es) = some e :: answers n es := by
  simp [answers, List.range_succ_eq_map]

theorem answers_nil {α : Type} (n : Nat) : answers n ([] : List α) = List.replicate n none := by
  simp [answers, List.map_const']

theorem look_ok {m : TMem K V} {anchor nf : Nat} {xs : List (Nat × K × V)}
    (hs : Succ nf m (.ok anchor) (xs.map Prod.fst)) (ha : anchor ∉ xs.map Prod.fst)
    (h0 : ∀ x ∈ xs, x.1 ≠ 0)
    (hp : ∀ x ∈ xs, ∃ n, m.node x.1 = some n ∧ n.pair = some x.2) (n : Nat) :
    ∃ it', RBTree.Iter.look nf n ⟨(xs.map Prod.fst).head?.getD anchor, anchor⟩ m =
      .ok (answers n (xs.map Prod.snd), it') := by
  induction n generalizing xs with
  | zero => exact ⟨_, rfl⟩
  | succ n ih =>
    cases xs with
    | nil =>
      refine ⟨⟨anchor, anchor⟩, ?_⟩
      rw [List.map_nil, List.map_nil, answers_nil]
      exact look_end (it := ⟨anchor, anchor⟩) _ (.inl rfl)
    | cons x xs =>
      obtain ⟨nd, hn, hpair⟩ := hp x (by simp)
      have hx0 := h0 x (by simp)
      have hxa : x.1 ≠ anchor := by rintro rfl; exact ha (by simp)
      have hnext : nodeNext nf m x.1 = .ok ((xs.map Prod.fst).head?.getD anchor) := by
        cases xs with
        | nil => exact hs
        | cons y xs => exact hs.1
      have hs' : Succ nf m (.ok anchor) (xs.map Prod.fst) := by
        cases xs with
        | nil => trivial
        | cons y xs => exact hs.2
      obtain ⟨it', r⟩ := ih hs' (fun h => ha (by simp only [List.map_cons, List.mem_cons]; exact .inr h))
        (fun y hy => h0 y (by simp [hy])) (fun y hy => hp y (by simp [hy]))
      refine ⟨it', ?_⟩
      rw [List.head?_map] at r
      simp [RBTree.Iter.look, RBTree.Iter.next, hxa, hx0, hnext, nodePair, NMem.get_some hn, hpair,
        initd, r, answers_succ]

theorem calls_ok {m : TMem K V} {anchor nf : Nat} {xs : List (Nat × K × V)}
    (hs : Succ nf m (.ok anchor) (xs.map Prod.fst)) (ha : anchor ∉ xs.map Prod.fst)
    (h0 : ∀ x ∈ xs, x.1 ≠ 0) (hnd : (xs.map Prod.fst).Nodup)
    (hp : ∀ x ∈ xs, ∃ n, m.node x.1 = some n ∧ n.pair = some x.2) (gs : List (K → V → V)) :
    ∃ it' m', RBTree.Iter.calls nf gs ⟨(xs.map Prod.fst).head?.getD anchor, anchor⟩ m =
        .ok (answers gs.length (xs.map Prod.snd), it', m') ∧
      SameLinks m m' ∧
      (xs.map fun x => (m'.node x.1).bind (·.pair)) = (alter gs (xs.map Prod.snd)).map some ∧
      (∀ p, p ∉ xs.map Prod.fst → m'.node p = m.node p) ∧
      m'.reg = m.reg ∧ m'.link = m.link ∧ m'.dropped = m.dropped := by
  induction gs generalizing xs m with
  | nil =>
    refine ⟨_, m, rfl, .refl m, ?_, fun _ _ => rfl, rfl, rfl, rfl⟩
    simp only [alter, List.map_map]
    refine List.map_congr_left fun x hx => ?_
    obtain ⟨n, hn, h⟩ := hp x hx
    simp [hn, h]
  | cons g gs ih =>
    cases xs with
    | nil =>
      refine ⟨⟨anchor, anchor⟩, m, ?_, .refl m, rfl, fun _ _ => rfl, rfl, rfl, rfl⟩
      rw [List.map_nil, List.map_nil, answers_nil, ← List.map_const']
      exact calls_end (it := ⟨anchor, anchor⟩) _ (.inl rfl)
    | cons x xs =>
      obtain ⟨n, hn, hpair⟩ := hp x (by simp)
      have hx0 := h0 x (by simp)
      have hxa : x.1 ≠ anchor := by rintro rfl; exact ha (by simp)
      have hnext : nodeNext nf m x.1 = .ok ((xs.map Prod.fst).head?.getD anchor) := by
        cases xs with
        | nil => exact hs
        | cons y xs => exact hs.1
      have hs' : Succ nf m (.ok anchor) (xs.map Prod.fst) := by
        cases xs with
        | nil => trivial
        | cons y xs => exact hs.2
      rw [List.map_cons, List.nodup_cons] at hnd
      obtain ⟨m1, e1, l1, e2, e3, e4, e5, e6⟩ := setPair_ok hn (x.2.1, g x.2.1 x.2.2)
      have hne : ∀ y ∈ xs, y.1 ≠ x.1 := fun y hy he => hnd.1 (he ▸ List.mem_map_of_mem hy)
      obtain ⟨it', m2, r1, l2, c1, c2, c3, c4, c5⟩ := ih (m := m1) (xs := xs) (l1.succ hs')
        (fun h => ha (by simp only [List.map_cons, List.mem_cons]; exact .inr h))
        (fun y hy => h0 y (by simp [hy])) hnd.2
        (fun y hy => by rw [e3 _ (hne y hy)]; exact hp y (by simp [hy]))
      refine ⟨it', m2, ?_, l1.trans l2, ?_, ?_, c3.trans e4, c4.trans e5, c5.trans e6⟩
      · rw [List.head?_map] at r1
        simp [RBTree.Iter.calls, RBTree.Iter.next, hxa, hx0, hnext, nodePair, NMem.get_some hn,
          hpair, initd, e1, r1, answers_succ]
      · simp only [List.map_cons, alter, c1, c2 _ hnd.1, e2]
        rfl
      · intro p hp
        simp only [List.map_cons, List.mem_cons, not_or] at hp
        rw [c2 p hp.2, e3 p hp.1]

/-- A tree whose entries change in place, each in its own way, keeps its shape. -/
theorem TreeAt.changedAt {f : Nat × K × V → K × V} {m m' : TMem K V} {par p : Nat}
    {t : Tree (Nat × K × V)} (h : TreeAt m par t p) (hl : SameLinks m m')
    (ht : ∀ x ∈ t.inorder, ∃ n, m'.node x.1 = some n ∧ n.pair = some (f x)) :
    TreeAt m' par (t.map fun x => (x.1, f x)) p := by
  induction t generalizing par p with
  | nil => exact h
  | node l x r ih1 ih2 =>
    obtain ⟨b, e⟩ := x
    obtain ⟨rfl, h0, n, hn, h1, h2, h3, h4⟩ := h
    simp only [Tree.inorder, List.mem_append, List.mem_cons] at ht
    obtain ⟨n', hn', hp'⟩ := ht (p, e) (by simp)
    rcases hl p with ⟨g1, g2⟩ | ⟨k, k', g1, g2, g3, g4, g5⟩
    · rw [hn] at g1; cases g1
    · simp only at hn'
      rw [hn'] at g2
      rw [hn] at g1
      obtain rfl := Option.some.inj g1
      obtain rfl := Option.some.inj g2
      refine ⟨rfl, h0, n', hn', hp', by rw [g5]; exact h2, ?_, ?_⟩
      · rw [g4]; exact ih1 h3 (fun x hx => ht x (.inl hx))
      · rw [g3]; exact ih2 h4 (fun x hx => ht x (.inr (.inr hx)))

theorem addrs_mapAt (f : Nat × K × V → K × V) (t : Tree (Nat × K × V)) :
    nodeAddrs (t.map fun x => (x.1, f x)) = nodeAddrs t := by
  simp [nodeAddrs, inorder_map]

theorem shape_mapAt (f : Nat × K × V → K × V) (t : Tree (Nat × K × V)) :
    (t.map fun x => (x.1, f x)).map Prod.fst = t.map Prod.fst := by
  induction t with
  | nil => rfl
  | node a x b i1 i2 => simp [Tree.map, i1, i2]

theorem TreeRep.changedAt {T : RBTree σ} {f : Nat × K × V → K × V} {m m' : TMem K V}
    {t : Tree (Nat × K × V)} (h : TreeRep T m t) (hl : SameLinks m m')
    (ht : ∀ x ∈ t.inorder, ∃ n, m'.node x.1 = some n ∧ n.pair = some (f x)) :
    TreeRep T m' (t.map fun x => (x.1, f x)) := by
  obtain ⟨n, r, hn, h1, h2, h3, h4, h5⟩ := h.anchor
  have hnil : (t.map fun x => (x.1, f x)) = .nil ↔ t = .nil := by
    cases t with
    | nil => simp [Tree.map]
    | node => simp [Tree.map]
  refine ⟨?_, h.nonnull, by rw [addrs_mapAt]; exact h.nodup, by rw [addrs_mapAt]; exact h.apart,
    by rw [count_map]; exact h.size⟩
  rcases hl T.anchor with ⟨g1, g2⟩ | ⟨k, k', g1, g2, g3, g4, g5⟩
  · rw [hn] at g1; cases g1
  · rw [hn] at g1
    obtain rfl := Option.some.inj g1
    refine ⟨k', r, g2, by rw [g5]; exact h1, by rw [g5]; exact h2, h3.changedAt hl ht, ?_, ?_⟩
    · rw [addrs_mapAt, g3, g4]; intro ht; exact h4 (fun e => ht (hnil.2 e))
    · rw [g3]; intro ht; exact h5 (hnil.1 ht)

theorem TreeRep.look {T : RBTree σ} {m : TMem K V} {t : Tree (Nat × K × V)} (h : TreeRep T m t)
    {f : Nat} (hf : t.count + 2 ≤ f) (n : Nat) :
    ∃ it it', T.iter m = .ok it ∧ it.look f n m = .ok (answers n (entries t), it') := by
  obtain ⟨nd, hn, h1, h2⟩ := h.first
  refine ⟨⟨nd.right, T.anchor⟩, ?_⟩
  have hi : T.iter m = .ok ⟨nd.right, T.anchor⟩ := by
    simp [RBTree.iter, RBTree.first, NMem.get_some hn]
  by_cases ht : t = .nil
  · subst ht
    exact ⟨_, hi, by rw [look_end _ (h2 rfl).symm, entries_nil, answers_nil]⟩
  · obtain ⟨n', r, hn', _, _, ha, _⟩ := h.anchor
    obtain ⟨it', e⟩ := look_ok (xs := t.inorder) (h.succ hf) h.apart
      (fun x hx => ha.ne_zero (List.mem_map_of_mem hx)) (fun x hx => ha.pair hx) n
    rw [h1 ht] at hi ⊢
    exact ⟨it', hi, e⟩

theorem TreeRep.calls {T : RBTree σ} {m : TMem K V} {t : Tree (Nat × K × V)} (h : TreeRep T m t)
    {f : Nat} (hf : t.count + 2 ≤ f) (gs : List (K → V → V)) :
    ∃ it it' m' t', T.iter m = .ok it ∧
      it.calls f gs m = .ok (answers gs.length (entries t), it', m') ∧
      TreeRep T m' t' ∧ entries t' = alter gs (entries t) ∧
      t'.map Prod.fst = t.map Prod.fst ∧
      (∀ p, p ∉ nodeAddrs t → m'.node p = m.node p) ∧
      m'.reg = m.reg ∧ m'.link = m.link ∧ m'.dropped = m.dropped := by
  obtain ⟨nd, hn, h1, h2⟩ := h.first
  have hi : T.iter m = .ok ⟨nd.right, T.anchor⟩ := by
    simp [RBTree.iter, RBTree.first, NMem.get_some hn]
  by_cases ht : t = .nil
  · subst ht
    refine ⟨_, ⟨nd.right, T.anchor⟩, m, .nil, hi, ?_, h, ?_, rfl, fun _ _ => rfl, rfl, rfl, rfl⟩
    · rw [calls_end _ (h2 rfl).symm, entries_nil, answers_nil, List.map_const']
    · cases gs <;> rfl
  · obtain ⟨n', r, hn', _, _, ha, _⟩ := h.anchor
    obtain ⟨it', m', e, l, c1, c2, c3, c4, c5⟩ := calls_ok (xs := t.inorder) (h.succ hf) h.apart
      (fun x hx => ha.ne_zero (List.mem_map_of_mem hx)) h.nodup (fun x hx => ha.pair hx) gs
    rw [h1 ht] at hi
    let F : Nat × K × V → K × V := fun x => ((m'.node x.1).bind (·.pair)).getD x.2
    have hF : ∀ x ∈ t.inorder, (m'.node x.1).bind (·.pair) = some (F x) := by
      intro x hx
      have : (m'.node x.1).bind (·.pair) ∈ (alter gs (t.inorder.map Prod.snd)).map some := by
        rw [← c1]; exact List.mem_map_of_mem hx
      obtain ⟨y, _, hy⟩ := List.mem_map.1 this
      simp only [F, ← hy, Option.getD_some]
    refine ⟨_, it', m', t.map fun x => (x.1, F x), hi, e, h.changedAt l ?_, ?_, ?_, c2, c3, c4, c5⟩
    · intro x hx
      have := hF x hx
      cases hq : m'.node x.1 with
      | none => rw [hq] at this; cases this
      | some n => rw [hq] at this; exact ⟨n, rfl, this⟩
    · have hmap : t.inorder.map (fun x => some (F x)) =
          (alter gs (t.inorder.map Prod.snd)).map some := by
        rw [← c1]
        exact List.map_congr_left fun x hx => (hF x hx).symm
      have : (t.inorder.map F).map some = (alter gs (t.inorder.map Prod.snd)).map some := by
        rw [← hmap, List.map_map]; rfl
      have := List.map_injective_iff.2 (fun _ _ h => Option.some.inj h) this
      simp only [entries, inorder_map, List.map_map]
      exact this
    · exact shape_mapAt F t

end Verif
