import Verif.Nested.TreeProofs
import Verif.Nested.TextProofs
import Verif.Props.Tree
import Verif.Props.Nested
import Verif.Props.NestedText

/-!
# C160: ordered maps to vectors and strings

A map that was handed over, its values being vectors or strings (`Map<K, Vector<T>>`,
`Map<K, String>`).  `Pile fits w m vs` (Nested/Pile.lean) says that memory `m` is `w` and the blocks of
the vectors `vs`, each having a block of its own or none.
-/

set_option autoImplicit false

namespace Verif
open Spec

variable {α K : Type}

/-- After calls, what is left of the tree in memory can be dropped as before. -/
theorem HeapNodes.after {V : Type} {m m' : TMem K V} {size align : Nat} {T : RBTree Unit}
    {t t' : Spec.Tree (Nat × K × V)} (h : TreeRep T m t) (h' : TreeRep T m' t')
    (hb : HeapNodes m size align (nodeAddrs t)) (ha : nodeAddrs t' = nodeAddrs t)
    (hn : ∀ p, p ∉ nodeAddrs t → m'.node p = m.node p) (hr : m'.reg = m.reg) :
    HeapNodes m' size align (nodeAddrs t') := by
  obtain ⟨_, _, _, _, _, h3, _⟩ := h.anchor
  obtain ⟨_, _, _, _, _, h3', _⟩ := h'.anchor
  have hiff : ∀ q, m'.node q = none ↔ m.node q = none := by
    intro q
    by_cases hq : q ∈ nodeAddrs t
    · obtain ⟨n, e⟩ := h3.live hq
      obtain ⟨n', e'⟩ := h3'.live (by rw [ha]; exact hq)
      simp [e, e']
    · rw [hn q hq]
  rw [ha]
  exact ⟨⟨by rw [hr]; exact hb.wf.disj, fun q hq => by
      rw [hr]; exact hb.wf.cover q (fun hc => hq ((hiff q).2 hc)), by rw [hr]; exact hb.wf.null⟩,
    by rw [hr]; exact hb.reg, fun p hp q h1 h2 => (hiff q).2 (hb.solid p hp q h1 h2), hb.aligned⟩

theorem Pile.all_free_iff {fits : Nat → Nat → Region → Nat → Prop} {w : World α} {m : Mem α}
    {vs : List Vec} (h : Pile fits w m vs) : m.live = w ↔ ∀ v ∈ vs, v = Vec.new := by
  constructor
  · intro he v hv
    rcases h.holds v hv with h1 | ⟨b, blk, cap, xs, e1, _, _, _, _, rfl⟩
    · exact h1
    · exfalso
      have hb : b ∈ vs.flatMap Vec.blocks := List.mem_flatMap.2 ⟨_, hv, by simp [Vec.blocks]⟩
      have := h.rest b
      rw [if_pos hb, ← he, e1] at this
      cases this
  · intro hall
    funext b
    have hb : vs.flatMap Vec.blocks = [] := by
      rw [List.flatMap_eq_nil_iff]
      intro v hv
      rw [hall v hv]
      rfl
    have := h.rest b
    rw [hb] at this
    simpa using this.symm

/-- What happens to the nodes and to the values at the end of the map. -/
theorem treeOuter_finish {E : TEnv K Vec Unit} {P : Placer (TNode K Vec) (K ⊕ Vec)}
    {u : TNode K Vec} (hE : E.A = defaultNAlloc P u true) (hsz : 0 < E.size) {T : RBTree Unit}
    {mo mo' : TMem K Vec} {t : Spec.Tree (Nat × K × Vec)} (h : TreeRep T mo t)
    (hb : HeapNodes mo E.size E.align (nodeAddrs t)) {f : Nat} {st : List (K × Vec)}
    (hi : TreeOuterInv E f T mo (nodeAddrs t) (T, mo') st) (A : Allocator α) (nd : Bool) (m : Mem α) :
    T.toList f mo' = .ok st ∧ ∃ mo'', (treeOuter E f).finish A nd (T, mo') m = .ok ((T, mo''), m) ∧
      (∀ q, mo''.reg q = if q ∈ nodeAddrs t then none else mo.reg q) ∧
      (∀ q, mo''.node q = if q ∈ nodeAddrs t then none else mo.node q) := by
  obtain ⟨_, t', h1, h2, h3, h4, h5, h6, h7, h8, h9⟩ := hi
  subst h2
  refine ⟨h1.toList h5, ?_⟩
  have hb' := HeapNodes.after h h1 hb h4 h6 h7
  obtain ⟨mo'', e1, e2, e3, e4⟩ := h1.freeNodes_default hE hsz hb' (f := f) (by omega)
  refine ⟨mo'', ?_, ?_, ?_⟩
  · have hd : (treeOuter E f).drop (T, mo') = .ok (T, mo'') := by
      simp [treeOuter, RBTree.drop, e1]
    simp only [Outer.finish, hd]
    change (dropAll A nd (((treeOuter E f).dropped (T, mo'')).drop
      ((treeOuter E f).dropped (T, mo')).length) m >>= fun m => Except.ok ((T, mo''), m)) = _
    have hz : ((treeOuter E f).dropped (T, mo'')).drop ((treeOuter E f).dropped (T, mo')).length = [] := by
      simp [treeOuter, e4]
    rw [hz]
    rfl
  · intro q
    rw [e2, h4, h7]
  · intro q
    rw [e3, h4]
    split_ifs with hq
    · rfl
    · exact h6 q hq

/-- C160 for `Map<K, Vector<T>>`.  A program that calls the map, reads the vectors it lends, and calls
vectors inside through `&mut`, observes exactly what it would on an increasing list of keys with
sequences, and afterwards the map holds the resulting ones.  Dropping the map then gives back its nodes,
but leaves the memory of the vectors as it is: all of it is given back exactly if no vector has any.
Missing: that it is in all cases. -/
theorem C160_map_to_vectors_partial (R : RawAlloc α) {E : TEnv K Vec Unit} (hw : StrictWeak E.lt)
    {P : Placer (TNode K Vec) (K ⊕ Vec)} {u : TNode K Vec} (hE : E.A = defaultNAlloc P u true)
    (hsz : 0 < E.size) {T : RBTree Unit} {mo : TMem K Vec} {t : Spec.Tree (Nat × K × Vec)}
    (h : TreeRep T mo t) (ho : t.Search fun a b => E.lt a.2.1 b.2.1)
    (hb : HeapNodes mo E.size E.align (nodeAddrs t)) {w : World α} {m : Mem α}
    (hv : Pile defaultFits w m ((entries t).map Prod.snd)) (nd : Bool)
    (is : List (NestItem (Kind.ordered E.lt) α))
    (hin : nd = true → ∀ i ∈ is, ∀ op ∈ i.scripts, op.isSlice = false)
    {f : Nat} (hf : t.count + 2 ≤ f) :
    match NestItem.run is ((entries t).map fun p => (p.1, contents m p.2)) with
    | .error e => (treeOuter E f).run (defaultAllocator R) nd is (T, mo) m = .error e
    | .ok (os, xss) => ∃ mo' m' mo'' drops, ∃ es : List (K × Vec),
        (treeOuter E f).run (defaultAllocator R) nd is (T, mo) m = .ok (os, (T, mo'), m') ∧
        T.toList f mo' = .ok es ∧ (es.map fun p => (p.1, contents m' p.2)) = xss ∧
        m'.dropped = m.dropped ++ drops ∧
        (nd = true → (NestItem.movedIn is os ++ (entries t).flatMap fun p => contents m p.2).Perm
          (NestOut.movedOut os ++ drops ++ es.flatMap fun p => contents m' p.2)) ∧
        (treeOuter E f).finish (defaultAllocator R) nd (T, mo') m' = .ok ((T, mo''), m') ∧
        (∀ q, mo''.reg q = if q ∈ nodeAddrs t then none else mo.reg q) ∧
        (∀ q, mo''.node q = if q ∈ nodeAddrs t then none else mo.node q) ∧
        (m'.live = w ↔ ∀ p ∈ es, p.2 = Vec.new) := by
  have h0 : TreeOuterInv E f T mo (nodeAddrs t) (T, mo) (entries t) :=
    ⟨rfl, t, h, rfl, search_increasing hw ho, rfl, hf, fun _ _ => rfl, rfl, rfl, rfl⟩
  have hr := Outer.run_ok (KindLaw.ordered E.lt) (treeOuter_calls hw f T mo (nodeAddrs t))
    (defaultAllocator_lawful R) nd is (fun i _ => by cases i <;> trivial) hin (Nat.le_refl _)
    (st := entries t) h0 hv
  have hst : (Kind.ordered E.lt).mapSt (contents m) (entries t) =
      (entries t).map fun p => (p.1, contents m p.2) := rfl
  rw [hst] at hr
  cases hs : NestItem.run is ((entries t).map fun p => (p.1, contents m p.2)) with
  | error e => rw [hs] at hr; exact hr
  | ok q =>
    obtain ⟨os, xss⟩ := q
    rw [hs] at hr
    obtain ⟨⟨T', mo'⟩, es, m', ds, e1, ⟨n', e2⟩, e3, e4, e5, e6⟩ := hr
    obtain rfl : T' = T := e2.1
    obtain ⟨g1, mo'', g2, g3, g4⟩ := treeOuter_finish hE hsz h hb e2 (defaultAllocator R) nd m'
    refine ⟨mo', m', mo'', ds, es, e1, g1, e4.symm, e5, ?_, g2, g3, g4, ?_⟩
    · intro hn
      have e7 := e6 hn
      have q1 : ((Kind.ordered E.lt).elems (entries t)).flatMap (contents m) =
          (entries t).flatMap fun p => contents m p.2 := List.flatMap_map ..
      have q2 : ((Kind.ordered E.lt).elems es).flatMap (contents m') =
          List.flatMap (fun p : K × Vec => contents m' p.2) es := List.flatMap_map ..
      rw [q1, q2] at e7
      exact e7
    · rw [e3.all_free_iff]
      exact List.forall_mem_map

/-- C160 for `Map<K, String>`, as for vectors, on an increasing list of keys with sequences of bytes.
Missing: that the memory of the strings is given back. -/
theorem C160_map_to_strings_partial (R : RawAlloc UInt8) {E : TEnv K Vec Unit} (hw : StrictWeak E.lt)
    {P : Placer (TNode K Vec) (K ⊕ Vec)} {u : TNode K Vec} (hE : E.A = defaultNAlloc P u true)
    (hsz : 0 < E.size) {T : RBTree Unit} {mo : TMem K Vec} {t : Spec.Tree (Nat × K × Vec)}
    (h : TreeRep T mo t) (ho : t.Search fun a b => E.lt a.2.1 b.2.1)
    (hb : HeapNodes mo E.size E.align (nodeAddrs t)) {w : World UInt8} {m : Mem UInt8}
    (hv : Pile nullFits w m ((entries t).map Prod.snd))
    (is : List (TextItem (Kind.ordered E.lt))) {f : Nat} (hf : t.count + 2 ≤ f) :
    match TextItem.run is ((entries t).map fun p => (p.1, contents m p.2)) with
    | .error e => (treeOuter E f).runT (strAlloc R) is (T, mo) m = .error e
    | .ok (os, bss) => ∃ mo' m' mo'', ∃ es : List (K × Vec),
        (treeOuter E f).runT (strAlloc R) is (T, mo) m = .ok (os, (T, mo'), m') ∧
        T.toList f mo' = .ok es ∧ (es.map fun p => (p.1, contents m' p.2)) = bss ∧
        (treeOuter E f).finish (strAlloc R) false (T, mo') m' = .ok ((T, mo''), m') ∧
        (∀ q, mo''.reg q = if q ∈ nodeAddrs t then none else mo.reg q) ∧
        (∀ q, mo''.node q = if q ∈ nodeAddrs t then none else mo.node q) ∧
        (m'.live = w ↔ ∀ p ∈ es, p.2 = Vec.new) := by
  have h0 : TreeOuterInv E f T mo (nodeAddrs t) (T, mo) (entries t) :=
    ⟨rfl, t, h, rfl, search_increasing hw ho, rfl, hf, fun _ _ => rfl, rfl, rfl, rfl⟩
  have hr := Outer.runT_ok (KindLaw.ordered E.lt) (treeOuter_calls hw f T mo (nodeAddrs t))
    R is (fun i _ => by cases i <;> trivial) (Nat.le_refl _) (st := entries t) h0 hv
  have hst : (Kind.ordered E.lt).mapSt (contents m) (entries t) =
      (entries t).map fun p => (p.1, contents m p.2) := rfl
  rw [hst] at hr
  cases hs : TextItem.run is ((entries t).map fun p => (p.1, contents m p.2)) with
  | error e => rw [hs] at hr; exact hr
  | ok q =>
    obtain ⟨os, bss⟩ := q
    rw [hs] at hr
    obtain ⟨⟨T', mo'⟩, es, m', e1, ⟨n', e2⟩, e3, e4⟩ := hr
    obtain rfl : T' = T := e2.1
    obtain ⟨g1, mo'', g2, g3, g4⟩ := treeOuter_finish hE hsz h hb e2 (strAlloc R) false m'
    refine ⟨mo', m', mo'', es, e1, g1, e4.symm, g2, g3, g4, ?_⟩
    rw [e3.all_free_iff]
    exact List.forall_mem_map

/-! ### An example: two keys, to a vector of two numbers and an empty one -/

def exampleValTree : Spec.Tree (Nat × Nat × Vec) :=
  .node .nil (128, 5, ⟨.loc 0 0, .loc 0 2, .loc 0 3⟩) (.node .nil (192, 9, Vec.new) .nil)

def exampleValObj : RBTree Unit := ⟨64, 2, ()⟩

/-- The tree in memory; the object is at 64. -/
def exampleValNodes : TMem Nat Vec where
  node q :=
    if q = 64 then some ⟨128, 192, 128, none⟩
    else if q = 128 then some ⟨192, 0, 65, some (5, ⟨.loc 0 0, .loc 0 2, .loc 0 3⟩)⟩
    else if q = 192 then some ⟨0, 0, 128, some (9, Vec.new)⟩
    else none
  link _ := none
  reg q :=
    if q = 64 then some ⟨48, 8, false⟩
    else if q = 128 ∨ q = 192 then some ⟨64, 8, true⟩
    else none
  top := 400
  top_ok := by
    intro a r h
    split at h
    · cases h; simp; omega
    · split at h
      · cases h; simp; omega
      · cases h
  dropped := []

/-- The memory of the vectors: block 0 has room for `size` elements, two of which are set. -/
def exampleVals {α : Type} (size : Nat) (x y : α) : Mem α :=
  ⟨fun b => if b = 0 then some ⟨size, .heap, fun i => if i = 0 then some x else if i = 1 then some y else none⟩
    else none, 1, fun b hb => by simp; omega, [], 0, 0⟩

def exampleValEnv : TEnv Nat Vec Unit :=
  ⟨fun a b => decide (a < b), 64, 8, defaultNAlloc Placer.bump TNode.uninit true⟩

theorem exampleVal_rep : TreeRep exampleValObj exampleValNodes exampleValTree := by
  refine ⟨⟨⟨128, 192, 128, none⟩, 128, rfl, by decide, by decide, ?_, ?_, ?_⟩, by decide,
    by decide, by decide, rfl⟩
  · exact ⟨rfl, by decide, _, rfl, rfl, by decide, rfl,
      ⟨rfl, by decide, _, rfl, rfl, by decide, rfl, rfl⟩⟩
  · intro _; exact ⟨by decide, by decide⟩
  · intro h; cases h

theorem exampleVal_heap : HeapNodes exampleValNodes 64 8 (nodeAddrs exampleValTree) := by
  have hreg : ∀ a r, exampleValNodes.reg a = some r →
      (a = 64 ∧ r.size = 48) ∨ ((a = 128 ∨ a = 192) ∧ r.size = 64) := by
    intro a r h
    simp only [exampleValNodes] at h
    split at h
    · rename_i h1; cases h; exact .inl ⟨h1, rfl⟩
    · split at h
      · rename_i h2; cases h; exact .inr ⟨h2, rfl⟩
      · cases h
  have hnode : ∀ q, exampleValNodes.node q ≠ none → q = 64 ∨ q = 128 ∨ q = 192 := by
    intro q h
    by_contra hc
    simp only [not_or] at hc
    exact h (by simp [exampleValNodes, hc])
  have hmem : ∀ p ∈ nodeAddrs exampleValTree, p = 128 ∨ p = 192 := by
    have he : nodeAddrs exampleValTree = [128, 192] := rfl
    rw [he]
    intro p hp
    simpa using hp
  refine ⟨⟨?_, ?_, ?_⟩, ?_, ?_, ?_⟩
  · intro a b r r' h1 h2 hne
    have := hreg a r h1
    have := hreg b r' h2
    omega
  · intro q hq
    rcases hnode q hq with rfl | rfl | rfl
    · exact ⟨64, ⟨48, 8, false⟩, rfl, by omega, by simp⟩
    · exact ⟨128, ⟨64, 8, true⟩, rfl, by omega, by simp⟩
    · exact ⟨192, ⟨64, 8, true⟩, rfl, by omega, by simp⟩
  · intro a r h
    have := hreg a r h
    omega
  · intro p hp
    rcases hmem p hp with rfl | rfl <;> rfl
  · intro p hp q h1 h2
    have := hmem p hp
    by_contra hc
    have := hnode q hc
    omega
  · intro p hp _
    rcases hmem p hp with rfl | rfl <;> decide

theorem exampleVal_pile {α : Type} {fits : Nat → Nat → Region → Nat → Prop} {size : Nat}
    (h3 : 3 ≤ size) (hfit : fits 0 size .heap 3) (x y : α) :
    Pile fits (Mem.empty (α := α)).live (exampleVals size x y) ((entries exampleValTree).map Prod.snd) := by
  have he : (entries exampleValTree).map Prod.snd = [⟨.loc 0 0, .loc 0 2, .loc 0 3⟩, Vec.new] := rfl
  rw [he]
  refine ⟨?_, by decide, ?_⟩
  · intro v hv
    simp only [List.mem_cons, List.not_mem_nil, or_false] at hv
    rcases hv with rfl | rfl
    · refine .inr ⟨0, _, 3, [x, y], rfl, hfit, h3, by simp, ?_, rfl⟩
      intro i hi
      match i, hi with
      | 0, _ => rfl
      | 1, _ => rfl
    · exact .inl rfl
  · intro b
    by_cases hb : b = 0
    · subst hb; rfl
    · simp [Vec.blocks, Vec.new, exampleVals, Mem.empty, hb]

/-- A program that reads the map and works on the vectors in it. -/
def nestTreeProgram (lt : Nat → Nat → Bool) : List (NestItem (Kind.ordered lt) Nat) :=
  [.call (.get 5), .inside (5 : Nat) [.push 30, .push 40, .remove 0], .inside (9 : Nat) [.push 7],
    .inside (6 : Nat) [.push 8], .call .iter, .call (.contains 6), .call (.get 9)]

/-- What a program sees of the vectors in the map. -/
def TreeOut.seen {K V : Type} (r : TreeOut K V) : List V := r.vals

/-- The hypotheses hold of the example, and both vectors are leaked: afterwards blocks 0 (moved to 1 when
the vector grew) and 2 are still there. -/
example : TreeRep exampleValObj exampleValNodes exampleValTree ∧
    (exampleValTree.Search fun a b => exampleValEnv.lt a.2.1 b.2.1) ∧
    HeapNodes exampleValNodes exampleValEnv.size exampleValEnv.align (nodeAddrs exampleValTree) ∧
    Pile defaultFits (Mem.empty (α := Nat)).live (exampleVals 3 10 20)
      ((entries exampleValTree).map Prod.snd) ∧
    (∀ i ∈ nestTreeProgram exampleValEnv.lt, ∀ op ∈ i.scripts, op.isSlice = false) ∧
    (do
      let (os, s, m) ← (treeOuter exampleValEnv 4).run (defaultAllocator RawAlloc.bump) true
        (nestTreeProgram exampleValEnv.lt) (exampleValObj, exampleValNodes) (exampleVals 3 10 20)
      let (s, m') ← (treeOuter exampleValEnv 4).finish (defaultAllocator RawAlloc.bump) true s m
      .ok (os.map (NestOut.numbers TreeOut.seen), m'.dropped, (List.range 4).map fun b => (m'.live b).isSome,
        [64, 128, 192].map fun p => (s.2.reg p).isSome)) =
    (.ok ([[[10, 20]], [[10]], [[]], [], [[20, 30, 40], [7]], [], [[7]]], [],
      [false, true, true, false], [true, false, false]) :
      Exec (List (List (List Nat)) × List Nat × List Bool × List Bool)) := by
  refine ⟨exampleVal_rep, ?_, exampleVal_heap, exampleVal_pile (by omega) ⟨rfl, rfl⟩ 10 20, by decide, by decide +kernel⟩
  simp [Spec.Tree.Search, exampleValTree, exampleValEnv, Spec.Tree.inorder]

def textTreeProgram (lt : Nat → Nat → Bool) : List (TextItem (Kind.ordered lt)) :=
  [.call (.get 5), .inside (5 : Nat) [.push 'c', .pop, .insert 1 'd'], .inside (9 : Nat) [.assign ['e']],
    .inside (6 : Nat) [.push 'f'], .call .iter, .call .len]

example : Pile nullFits (Mem.empty (α := UInt8)).live (exampleVals 4 0x61 0x62)
      ((entries exampleValTree).map Prod.snd) ∧
    (do
      let (os, s, m) ← (treeOuter exampleValEnv 4).runT (strAlloc RawAlloc.bump)
        (textTreeProgram exampleValEnv.lt) (exampleValObj, exampleValNodes) (exampleVals 4 0x61 0x62)
      let (_, m') ← (treeOuter exampleValEnv 4).finish (strAlloc RawAlloc.bump) false s m
      .ok (os.map (TextOut.seen TreeOut.seen), (List.range 4).map fun b => (m'.live b).isSome)) =
    (.ok ([([[0x61, 0x62]], []), ([], [.unit, .char (some 'c'), .unit]), ([], [.unit]), ([], []),
      ([[0x61, 0x64, 0x62], [0x65]], []), ([], [])], [true, true, false, false]) :
      Exec (List (List (List UInt8) × List StrOut) × List Bool)) := by
  exact ⟨exampleVal_pile (by omega) ⟨rfl, rfl⟩ _ _, by decide +kernel⟩

end Verif
