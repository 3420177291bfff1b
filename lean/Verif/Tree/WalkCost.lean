import Verif.Tree.Iter
import Verif.Tree.Cost

/-!
# The links a loop over a tree follows

The iterator of `Tree/Model.lean` again, returning also how often it went from a node to a child or
to the parent; `nodeNextT_fst` and `RBTree.Iter.nextT_fst` say that it is the same otherwise.
-/

set_option autoImplicit false

namespace Verif
open Spec

variable {K V σ : Type}

/-- The loop looking for the left-most node (src/internal/rb_tree/node.rs:208-210), with the number
of links followed. -/
def leftmostT : Nat → TMem K V → Nat → Exec (Nat × Nat)
  | 0, _, _ => .error .ub
  | fuel + 1, m, p => do
    let n ← m.get p
    if n.left ≠ 0 then do
      let (r, h) ← leftmostT fuel m n.left
      .ok (r, h + 1)
    else .ok (p, 0)

/-- The loop climbing while `self` is a right child (src/internal/rb_tree/node.rs:218-223),
likewise. -/
def climbT : Nat → TMem K V → Nat → Nat → Exec ((Nat × Nat) × Nat)
  | 0, _, _, _ => .error .ub
  | fuel + 1, m, self, parent => do
    let n ← m.get parent
    if self = n.right then do
      let _ ← m.get n.parent.addr
      let (r, h) ← climbT fuel m parent n.parent.addr
      .ok (r, h + 1)
    else .ok ((self, parent), 0)

/-- `next` and `next_mut` (src/internal/rb_tree/node.rs:204-233), likewise. -/
def nodeNextT (fuel : Nat) (m : TMem K V) (self : Nat) : Exec (Nat × Nat) := do
  let n ← m.get self
  if n.right ≠ 0 then do
    let (r, h) ← leftmostT fuel m n.right
    .ok (r, h + 1)
  else do
    let _ ← m.get n.parent.addr
    let ((self, parent), h) ← climbT fuel m self n.parent.addr
    let n ← m.get self
    if n.right ≠ parent then .ok (parent, h + 1) else .ok (self, h + 1)

/-- `Iter::next` (src/internal/rb_tree/iter.rs:21-31), `IterMut::next` (37-47), likewise. -/
def RBTree.Iter.nextT (fuel : Nat) (it : Iter) (m : TMem K V) :
    Exec ((Option (Nat × K × V) × Iter) × Nat) := do
  if it.node = it.anchor then .ok ((none, it), 0)
  else if it.node = 0 then .ok ((none, it), 0)
  else do
    let (nx, h) ← nodeNextT fuel m it.node
    let e ← nodePair m it.node
    .ok ((some (it.node, e), { it with node := nx }), h)

/-- Everything an iterator yields until it returns `None`, each entry with the links followed to
get past it. -/
def RBTree.Iter.drainT (nf : Nat) : Nat → Iter → TMem K V → Exec (List ((K × V) × Nat))
  | 0, _, _ => .error .ub
  | fuel + 1, it, m => do
    match ← it.nextT nf m with
    | ((none, _), _) => .ok []
    | ((some (_, e), it), h) => .ok ((e, h) :: (← it.drainT nf fuel m))

/-- The loop `for e in map.iter()` (src/internal/rb_tree/mod.rs:167-171, src/map/mod.rs:120-122). -/
def RBTree.walkT (fuel : Nat) (t : RBTree σ) (m : TMem K V) : Exec (List ((K × V) × Nat)) := do
  (← t.iter m).drainT fuel fuel m

/-! ## The same otherwise -/

theorem leftmostT_fst (m : TMem K V) : ∀ (f p : Nat),
    (leftmostT f m p).map Prod.fst = leftmost f m p := by
  intro f
  induction f with
  | zero => intro p; rfl
  | succ f ih =>
    intro p
    unfold leftmostT leftmost
    cases m.get p with
    | error e => rfl
    | ok n =>
      simp only [Exec.ok_bind]
      by_cases h0 : n.left ≠ 0
      · rw [if_pos h0, if_pos h0, ← ih]
        cases leftmostT f m n.left <;> rfl
      · rw [if_neg h0, if_neg h0]; rfl

theorem climbT_fst (m : TMem K V) : ∀ (f s p : Nat),
    (climbT f m s p).map Prod.fst = climb f m s p := by
  intro f
  induction f with
  | zero => intro s p; rfl
  | succ f ih =>
    intro s p
    unfold climbT climb
    cases m.get p with
    | error e => rfl
    | ok n =>
      simp only [Exec.ok_bind]
      by_cases h0 : s = n.right
      · rw [if_pos h0, if_pos h0, ← ih]
        cases m.get n.parent.addr with
        | error e => rfl
        | ok n' =>
          simp only [Exec.ok_bind]
          cases climbT f m p n.parent.addr <;> rfl
      · rw [if_neg h0, if_neg h0]; rfl

theorem nodeNextT_fst (f : Nat) (m : TMem K V) (p : Nat) :
    (nodeNextT f m p).map Prod.fst = nodeNext f m p := by
  unfold nodeNextT nodeNext
  cases m.get p with
  | error e => rfl
  | ok n =>
    simp only [Exec.ok_bind]
    by_cases h0 : n.right ≠ 0
    · rw [if_pos h0, if_pos h0, ← leftmostT_fst]
      cases leftmostT f m n.right <;> rfl
    · rw [if_neg h0, if_neg h0, ← climbT_fst]
      cases m.get n.parent.addr with
      | error e => rfl
      | ok n' =>
        simp only [Exec.ok_bind]
        cases climbT f m p n.parent.addr with
        | error e => rfl
        | ok r =>
          obtain ⟨⟨s, q⟩, h⟩ := r
          simp only [Exec.ok_bind, Except.map]
          cases m.get s with
          | error e => rfl
          | ok n'' =>
            simp only [Exec.ok_bind]
            by_cases h1 : n''.right ≠ q
            · rw [if_pos h1, if_pos h1]
            · rw [if_neg h1, if_neg h1]

theorem RBTree.Iter.nextT_fst (f : Nat) (it : Iter) (m : TMem K V) :
    (it.nextT f m).map Prod.fst = it.next f m := by
  unfold RBTree.Iter.nextT RBTree.Iter.next
  by_cases h0 : it.node = it.anchor
  · rw [if_pos h0, if_pos h0]; rfl
  · rw [if_neg h0, if_neg h0]
    by_cases h1 : it.node = 0
    · rw [if_pos h1, if_pos h1]; rfl
    · rw [if_neg h1, if_neg h1, ← nodeNextT_fst]
      cases nodeNextT f m it.node with
      | error e => rfl
      | ok r =>
        simp only [Exec.ok_bind, Except.map]
        cases nodePair m it.node <;> rfl

/-! ## How many links -/

/-- Links from the root down to the left-most node. -/
def leftLinks {α : Type} : Tree α → Nat
  | .nil => 0
  | .node .nil _ _ => 0
  | .node l _ _ => leftLinks l + 1

theorem leftLinks_le {α : Type} (t : Tree α) (h : t ≠ .nil) : leftLinks t + 1 ≤ t.height := by
  induction t with
  | nil => exact absurd rfl h
  | node l x r ih _ =>
    cases l with
    | nil => simp only [leftLinks, Tree.height]; omega
    | node l' x' r' =>
      have := ih (by simp)
      simp only [leftLinks, Tree.height] at this ⊢
      omega

theorem leftmostT_ok {m : TMem K V} {par p : Nat} {t : Tree (Nat × K × V)} (h : TreeAt m par t p)
    (hp : p ≠ 0) {f : Nat} (hf : t.count ≤ f) :
    ∃ a, (nodeAddrs t).head? = some a ∧ leftmostT f m p = .ok (a, leftLinks t) := by
  induction t generalizing par p f with
  | nil => exact absurd h hp
  | node l x r ih1 _ =>
    obtain ⟨b, e⟩ := x
    obtain ⟨rfl, h0, n, hn, h1, h2, hl, hr⟩ := h
    simp only [Tree.count] at hf
    obtain ⟨f, rfl⟩ : ∃ g, f = g + 1 := ⟨f - 1, by omega⟩
    by_cases hz : n.left = 0
    · have hnil := hl.nil_iff.1 hz
      subst hnil
      exact ⟨p, by simp, by simp [leftmostT, NMem.get_some hn, hz, leftLinks]⟩
    · obtain ⟨a, ha, hr⟩ := ih1 hl hz (f := f) (by omega)
      refine ⟨a, by simp [List.head?_append, ha], ?_⟩
      have hne : l ≠ .nil := fun e => hz (hl.nil_iff.2 e)
      cases l with
      | nil => exact absurd rfl hne
      | node l' x' r' => simp [leftmostT, NMem.get_some hn, hz, hr, leftLinks]

/-- What `nodeNextT` does once it is known that there is no right child. -/
def upT (f : Nat) (m : TMem K V) (self parent : Nat) : Exec (Nat × Nat) := do
  let _ ← m.get parent
  let ((self, parent), h) ← climbT f m self parent
  let n ← m.get self
  if n.right ≠ parent then .ok (parent, h + 1) else .ok (self, h + 1)

/-- Every address of the list is followed by the next, for the links listed, and the last one by
`e`. -/
def SuccT (f : Nat) (m : TMem K V) (e : Nat) : List Nat → List Nat → Prop
  | [], hs => hs = []
  | [x], hs => ∃ h, hs = [h] ∧ nodeNextT f m x = .ok (e, h)
  | x :: y :: l, hs => ∃ h hs', hs = h :: hs' ∧ nodeNextT f m x = .ok (y, h) ∧
      SuccT f m e (y :: l) hs'

theorem SuccT.append {f : Nat} {m : TMem K V} {e y : Nat} : ∀ {l l' hs hs' : List Nat},
    SuccT f m y l hs → SuccT f m e (y :: l') hs' → SuccT f m e (l ++ y :: l') (hs ++ hs') := by
  intro l
  induction l with
  | nil => intro l' hs hs' h1 h2; cases h1; exact h2
  | cons x l ih =>
    intro l' hs hs' h1 h2
    cases l with
    | nil =>
      obtain ⟨h, rfl, h1⟩ := h1
      exact ⟨h, hs', rfl, h1, h2⟩
    | cons z l =>
      obtain ⟨h, hs1, rfl, h1, h3⟩ := h1
      exact ⟨h, hs1 ++ hs', rfl, h1, ih h3 h2⟩

theorem SuccT.cons {f : Nat} {m : TMem K V} {e x y h : Nat} {l hs : List Nat}
    (h1 : nodeNextT f m x = .ok (y, h)) (hy : l.head? = some y) (h2 : SuccT f m e l hs) :
    SuccT f m e (x :: l) (h :: hs) := by
  cases l with
  | nil => simp at hy
  | cons z l =>
    simp only [List.head?_cons, Option.some.injEq] at hy
    subst hy
    exact ⟨h, hs, rfl, h1, h2⟩

/-- The links followed inside a subtree, given what climbing out of it takes. -/
theorem TreeAt.succT {m : TMem K V} {par p d e u : Nat} {t : Tree (Nat × K × V)}
    (h : TreeAt m par t p) (hnd : (nodeAddrs t).Nodup) (ht : t ≠ .nil)
    (hup : ∀ f, d ≤ f → upT f m p par = .ok (e, u)) {f : Nat} (hf : d + t.count ≤ f) :
    ∃ hs, SuccT f m e (nodeAddrs t) hs ∧ hs.sum + leftLinks t + 2 = 2 * t.count + u ∧
      ∀ x ∈ hs, x ≤ t.height + u := by
  induction t generalizing par p e d u f with
  | nil => exact absurd rfl ht
  | node l x r ih1 ih2 =>
    obtain ⟨b, kv⟩ := x
    have h' := h
    obtain ⟨rfl, h0, n, hn, h1, h2, hl, hr⟩ := h
    simp only [Tree.count] at hf
    rw [nodeAddrs_node] at hnd ⊢
    simp only at hnd ⊢
    obtain ⟨nd1, nd2, nd3⟩ := List.nodup_append.1 hnd
    obtain ⟨nd4, nd5⟩ := List.nodup_cons.1 nd2
    -- the node itself and the right subtree
    have hright : ∃ hs, SuccT f m e (p :: nodeAddrs r) hs ∧ hs.sum = 2 * r.count + u ∧
        ∀ x ∈ hs, x ≤ r.height + 1 + u := by
      by_cases hz : n.right = 0
      · have hnil := hr.nil_iff.1 hz
        subst hnil
        have := hup f (by omega)
        unfold upT at this
        refine ⟨[u], ⟨u, rfl, ?_⟩, by simp [Tree.count], by simp [Tree.height]⟩
        simp only [nodeNextT, NMem.get_some hn, Exec.ok_bind, hz, h2,
          ne_eq, not_true_eq_false, if_true, if_false]
        exact this
      · have hne : r ≠ .nil := fun e => hz (hr.nil_iff.2 e)
        obtain ⟨y, hy1, hy2⟩ := leftmostT_ok hr hz (f := f) (by omega)
        obtain ⟨hs, e1, e2, e3⟩ := ih2 (d := d + 1) (u := u + 1) (e := e) (f := f) hr nd5 hne (by
          intro f hf
          obtain ⟨f, rfl⟩ : ∃ g, f = g + 1 := ⟨f - 1, by omega⟩
          have := hup f (by omega)
          unfold upT at this
          simp only [upT, climbT, NMem.get_some hn, Exec.ok_bind, if_true, h2]
          cases hg : m.get par with
          | error e => rw [hg] at this; simp at this
          | ok np =>
            rw [hg] at this
            simp only [Exec.ok_bind] at this ⊢
            cases hc : climbT f m p par with
            | error e => rw [hc] at this; simp at this
            | ok c =>
              obtain ⟨⟨s, q⟩, k⟩ := c
              rw [hc] at this
              simp only [Exec.ok_bind] at this ⊢
              cases hgs : m.get s with
              | error e => rw [hgs] at this; simp at this
              | ok ns =>
                rw [hgs] at this
                simp only [Exec.ok_bind] at this ⊢
                by_cases hq : ns.right ≠ q
                · rw [if_pos hq] at this ⊢
                  simp only [Except.ok.injEq, Prod.mk.injEq] at this ⊢
                  exact ⟨this.1, by omega⟩
                · rw [if_neg hq] at this ⊢
                  simp only [Except.ok.injEq, Prod.mk.injEq] at this ⊢
                  exact ⟨this.1, by omega⟩) (by omega)
        have hlk := leftLinks_le r hne
        refine ⟨(leftLinks r + 1) :: hs, SuccT.cons ?_ hy1 e1, ?_, ?_⟩
        · simp [nodeNextT, NMem.get_some hn, hz, hy2]
        · simp only [List.sum_cons]; omega
        · intro x hx
          rcases List.mem_cons.1 hx with rfl | hx
          · omega
          · have := e3 x hx; omega
    obtain ⟨hsr, r1, r2, r3⟩ := hright
    by_cases hln : l = .nil
    · subst hln
      refine ⟨hsr, by simpa using r1, ?_, ?_⟩
      · simp only [leftLinks, Tree.count]; omega
      · intro x hx
        have := r3 x hx
        simp only [Tree.height]
        omega
    · have hz : n.left ≠ 0 := fun e => hln (hl.nil_iff.1 e)
      obtain ⟨hsl, l1, l2, l3⟩ := ih1 (d := 1) (u := 1) (e := p) (f := f) hl nd1 hln (by
        intro f hf
        obtain ⟨f, rfl⟩ : ∃ g, f = g + 1 := ⟨f - 1, by omega⟩
        have hml := hl.root_mem hz
        have hne : n.left ≠ n.right := by
          intro he
          have := hr.root_mem (by rw [← he]; exact hz)
          rw [← he] at this
          exact nd3 _ hml _ (by simp [this]) rfl
        obtain ⟨nl, hnl⟩ := hl.live hml
        have hright : nl.right ≠ p := by
          cases l with
          | nil => simp at hml
          | node l' x' r' =>
            obtain ⟨b', kv'⟩ := x'
            obtain ⟨rfl, h0', n', hn', h1', h2', hl', hr'⟩ := hl
            rw [hnl] at hn'
            obtain rfl := Option.some.inj hn'
            intro he
            have := hr'.root_mem (by rw [he]; exact h0)
            rw [he] at this
            exact nd3 p (by simp [this]) p (by simp) rfl
        simp [upT, climbT, NMem.get_some hn, hne, NMem.get_some hnl, hright]) (by omega)
      refine ⟨hsl ++ hsr, l1.append r1, ?_, ?_⟩
      · have hlk : leftLinks (.node l (p, kv) r) = leftLinks l + 1 := by
          cases l with
          | nil => exact absurd rfl hln
          | node l' x' r' => rfl
        rw [hlk, List.sum_append]
        simp only [Tree.count]
        omega
      · intro x hx
        simp only [Tree.height]
        rcases List.mem_append.1 hx with hx | hx
        · have := l3 x hx; omega
        · have := r3 x hx; omega

/-- Climbing out of the root ends at the anchor. -/
theorem upT_anchor {m : TMem K V} {anchor p : Nat} {n : TNode K V} {t : Tree (Nat × K × V)}
    (h : TreeAt m anchor t p) (hn : m.node anchor = some n)
    (hroot : n.parent.addr = p) (h0 : anchor ≠ 0) (ha : anchor ∉ nodeAddrs t) (ht : t ≠ .nil) :
    ∀ f, 2 ≤ f → upT f m p anchor = .ok (anchor, if p = n.right then 2 else 1) := by
  intro f hf
  obtain ⟨f, rfl⟩ : ∃ g, f = g + 2 := ⟨f - 2, by omega⟩
  cases t with
  | nil => exact absurd rfl ht
  | node l x r =>
    obtain ⟨b, e⟩ := x
    obtain ⟨rfl, _, np, hnp, _, _, hl, hr⟩ := h
    have hne : np.right ≠ anchor := by
      intro he
      have := hr.root_mem (by rw [he]; exact h0)
      rw [he] at this
      exact ha (by simp [this])
    by_cases hb : p = n.right
    · subst hb
      simp [upT, climbT, NMem.get_some hn, hroot, NMem.get_some hnp, Ne.symm hne]
    · simp [upT, climbT, NMem.get_some hn, hb, NMem.get_some hnp, hne]

theorem drainT_ok {m : TMem K V} {anchor nf : Nat} : ∀ {xs : List (Nat × K × V)} {hs : List Nat},
    SuccT nf m anchor (xs.map Prod.fst) hs → anchor ∉ xs.map Prod.fst →
    (∀ x ∈ xs, x.1 ≠ 0) → (∀ x ∈ xs, ∃ n, m.node x.1 = some n ∧ n.pair = some x.2) →
    ∀ {f : Nat}, xs.length < f →
    RBTree.Iter.drainT nf f ⟨(xs.map Prod.fst).head?.getD anchor, anchor⟩ m =
      .ok ((xs.map Prod.snd).zip hs) ∧ hs.length = xs.length := by
  intro xs
  induction xs with
  | nil =>
    intro hs h1 _ _ _ f hf
    cases h1
    obtain ⟨f, rfl⟩ : ∃ g, f = g + 1 := ⟨f - 1, by omega⟩
    simp [RBTree.Iter.drainT, RBTree.Iter.nextT]
  | cons x xs ih =>
    intro hs h1 ha h0 hp f hf
    obtain ⟨f, rfl⟩ : ∃ g, f = g + 1 := ⟨f - 1, by omega⟩
    obtain ⟨n, hn, hpair⟩ := hp x (by simp)
    have hx0 := h0 x (by simp)
    have hxa : x.1 ≠ anchor := by rintro rfl; exact ha (by simp)
    have hstep : ∃ h hs', hs = h :: hs' ∧
        nodeNextT nf m x.1 = .ok ((xs.map Prod.fst).head?.getD anchor, h) ∧
        SuccT nf m anchor (xs.map Prod.fst) hs' := by
      cases xs with
      | nil =>
        obtain ⟨h, rfl, h1⟩ := h1
        exact ⟨h, [], rfl, h1, rfl⟩
      | cons y xs => exact h1
    obtain ⟨h, hs', rfl, hnext, hs2⟩ := hstep
    obtain ⟨g1, g2⟩ := ih hs2 (fun h => ha (by simp only [List.map_cons, List.mem_cons]; exact .inr h))
      (fun y hy => h0 y (by simp [hy])) (fun y hy => hp y (by simp [hy])) (f := f)
      (by simp at hf; omega)
    rw [List.head?_map] at g1
    refine ⟨?_, by simp [g2]⟩
    simp [RBTree.Iter.drainT, RBTree.Iter.nextT, hxa, hx0, hnext, nodePair, NMem.get_some hn, hpair,
      initd, g1]

theorem TreeRep.walkT {T : RBTree σ} {m : TMem K V} {t : Tree (Nat × K × V)} (h : TreeRep T m t)
    {f : Nat} (hf : t.count + 2 ≤ f) : ∃ hs : List Nat, T.walkT f m = .ok ((entries t).zip hs) ∧
      hs.length = t.count ∧ hs.sum ≤ 2 * t.count ∧ ∀ x ∈ hs, x ≤ t.height + 2 := by
  by_cases ht : t = .nil
  · subst ht
    obtain ⟨n, hn, h1, h2⟩ := h.first
    obtain ⟨f, rfl⟩ : ∃ g, f = g + 1 := ⟨f - 1, by omega⟩
    refine ⟨[], ?_, rfl, Nat.zero_le _, by simp⟩
    rcases h2 rfl with h2 | h2 <;>
      simp [RBTree.walkT, RBTree.iter, RBTree.first, NMem.get_some hn, RBTree.Iter.drainT,
        RBTree.Iter.nextT, h2, Ne.symm h.nonnull]
  · obtain ⟨n, r, hn, _, hroot, ha, hbe, _⟩ := h.anchor
    obtain ⟨hb, _⟩ := hbe ht
    obtain ⟨hs, e1, e2, e3⟩ := ha.succT h.nodup ht
      (upT_anchor ha hn hroot h.nonnull h.apart ht) (f := f) (by omega)
    obtain ⟨g1, g2⟩ := drainT_ok (xs := t.inorder) e1 h.apart
      (fun x hx => ha.ne_zero (List.mem_map_of_mem hx)) (fun x hx => ha.pair hx) (f := f)
      (by rw [length_inorder]; omega)
    refine ⟨hs, ?_, by rw [g2, length_inorder], ?_, ?_⟩
    · unfold nodeAddrs at hb
      rw [hb] at g1
      simp only [RBTree.walkT, RBTree.iter, RBTree.first, NMem.get_some hn, Exec.ok_bind]
      exact g1
    · split at e2 <;> omega
    · intro x hx
      have := e3 x hx
      split at this <;> omega

end Verif
