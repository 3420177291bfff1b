import Verif.Tree.Fixed
import Verif.Props.Tree
import Verif.Props.Pool

/-!
# Properties of `FixedMap` and `FixedMapWithOverflow` (C69)

`size` and `align` are the layout of a node, `s` the address of the object, `buf` that of its
buffer of `n` nodes.
-/

set_option autoImplicit false

namespace Verif
open Spec

variable {K V : Type} {size align s buf n : Nat}

/-- Memory in which the object of a fixed map is at `s` and its inline buffer of `n` nodes, aligned
for nodes, at `buf`. -/
structure FixedMapObj (m0 : TMem K V) (size align s buf n : Nat) : Prop where
  pow : ∃ k, align = 2 ^ k
  dvd : align ∣ size
  word : 8 ≤ size
  anchor : ∃ a, m0.node s = some a
  s0 : s ≠ 0
  before : s < buf
  aligned : align ∣ buf
  addr : buf + align ≤ 2 ^ 64
  free : ∀ q, buf ≤ q → q < buf + n * size → m0.node q = none

theorem FixedMapObj.room {m0 : TMem K V} (h : FixedMapObj m0 size align s buf n) :
    roundUp align buf = buf ∧ roomFor size align buf (n * size) = n := by
  obtain ⟨k, hk⟩ := h.pow
  have hpos : 0 < align := by rw [hk]; exact Nat.pos_of_ne_zero (by simp)
  have hru := roundUp_of_dvd hpos h.aligned
  refine ⟨hru, ?_⟩
  have := h.word
  unfold roomFor
  rw [hru, Nat.add_sub_cancel_left, Nat.mul_div_cancel _ (by omega)]

/-- `t` is empty for every observer. -/
structure EmptyMap {σ : Type} (E : TEnv K V σ) (T : RBTree σ) (m : TMem K V) : Prop where
  len : T.len = 0
  isEmpty : T.isEmpty = true
  get : ∀ f k, 0 < f → T.get E f k m = .ok none
  contains : ∀ f k, 0 < f → T.containsKey E f k m = .ok false
  iter : ∀ f, 0 < f → T.toList f m = .ok []
  iterMut : ∀ f g, 0 < f → T.forEachMut g f m = .ok ([], m)
  drop : ∀ f, T.drop E f m = .ok (T.al, m)

theorem fixedMapNew_ok {σ : Type} {E : TEnv K V σ} {dflt al : σ} {init : Nat → Nat → Exec σ}
    {m0 : TMem K V} (h : FixedMapObj m0 size align s buf n) (hi : init buf (n * size) = .ok al) :
    ∃ T m, fixedMapNew dflt init size s buf n m0 = .ok (T, m) ∧ T.al = al ∧ EmptyMap E T m ∧
      TreeRep T m .nil ∧ (∀ p, p ≠ s → m.node p = m0.node p) ∧ m.reg = m0.reg ∧ m.link = m0.link := by
  obtain ⟨a, ha⟩ := h.anchor
  have hn := h.s0
  refine ⟨⟨s, 0, al⟩, { m0 with
    node := Function.update m0.node s (some { a with right := 0, left := 0, parent := 0 }) },
    ?_, rfl, ?_, ?_, ?_, rfl, rfl⟩
  · simp [fixedMapNew, RBTree.newIn, NMem.modify_some ha, hi]
  · refine ⟨rfl, rfl, ?_, ?_, ?_, ?_, ?_⟩
    · intro f k hf
      obtain ⟨f, rfl⟩ : ∃ g, f = g + 1 := ⟨f - 1, by omega⟩
      simp [RBTree.get, RBTree.find, RBTree.root, NMem.get, RBTree.findLoop]
    · intro f k hf
      obtain ⟨f, rfl⟩ : ∃ g, f = g + 1 := ⟨f - 1, by omega⟩
      simp [RBTree.containsKey, RBTree.get, RBTree.find, RBTree.root, NMem.get, RBTree.findLoop]
    · intro f hf
      obtain ⟨f, rfl⟩ : ∃ g, f = g + 1 := ⟨f - 1, by omega⟩
      simp [RBTree.toList, RBTree.iter, RBTree.first, NMem.get, RBTree.Iter.drain,
        RBTree.Iter.next]
    · intro f g hf
      obtain ⟨f, rfl⟩ : ∃ g, f = g + 1 := ⟨f - 1, by omega⟩
      simp [RBTree.forEachMut, RBTree.iter, RBTree.first, NMem.get, RBTree.Iter.drainMut,
        RBTree.Iter.next]
    · intro f
      simp [RBTree.drop, RBTree.freeNodes, RBTree.root, NMem.get]
  · exact ⟨⟨{ a with right := 0, left := 0, parent := 0 }, 0, by simp,
      show (0 : PWord).toNat = 0 by decide, show PWord.addr 0 = 0 by decide, rfl,
      fun h => absurd rfl h, fun _ => .inl rfl⟩, hn, by simp, by simp, rfl⟩
  · intro p hp; simp [hp]

/-- C69.  A new `FixedMap` is empty for every observer.  Its pool is made of exactly the `n` node
slots of the inline buffer: whatever nodes are taken and given back, those in use are distinct
aligned slots of the buffer that do not overlap, `can_allocate` tells whether fewer than `n` are
in use, and nothing outside the buffer changes. -/
theorem C69_fixed_map_new {E : TEnv K V Pool} (u : TNode K V) {m0 : TMem K V}
    (h : FixedMapObj m0 size align s buf n) :
    ∃ T m, fixedMapPlain size align s buf n m0 = .ok (T, m) ∧ EmptyMap E T m ∧
      (∀ p, p ≠ s → m.node p = m0.node p) ∧
      ∀ ops : List PoolOp, ∃ os pool m' live,
        poolRun (poolNAlloc u size align) size align ops (T.al, m, []) =
          .ok (os, pool, m', live) ∧
        live.length ≤ n ∧ pool.canAllocate = decide (live.length < n) ∧ live.Nodup ∧
        (∀ p ∈ live, align ∣ p ∧ buf ≤ p ∧ p + size ≤ buf + n * size) ∧
        (∀ p ∈ live, ∀ q ∈ live, p ≠ q → p + size ≤ q ∨ q + size ≤ p) ∧
        (∀ q, ¬ (buf ≤ q ∧ q < buf + n * size) → m'.node q = m.node q) := by
  obtain ⟨hru, hroom⟩ := h.room
  obtain ⟨al, hal⟩ := Pool.init_total (len := n * size) h.pow h.addr h.word (by rw [hru]; omega)
  obtain ⟨T, m, h1, h2, h3, _, h5, _⟩ := fixedMapNew_ok (E := E) (dflt := Pool.default) h hal
  refine ⟨T, m, h1, h3, h5, fun ops => ?_⟩
  have hb := h.before
  have hfree : ∀ q, buf ≤ q → q < buf + n * size → m.node q = none := by
    intro q h1 h2
    rw [h5 q (by omega)]
    exact h.free q h1 h2
  have hi := PoolInv.init hal (by omega) hfree
  rw [hru, hroom] at hi
  obtain ⟨os, pool, m', live, fs, k, e1, e2, _, _, e5, _⟩ := pool_run (align := align) u ops hi
  rw [h2]
  refine ⟨os, pool, m', live, e1, ?_, e2.canAllocate, (List.nodup_append.1 e2.nodup).1, ?_,
    fun p hp q hq => e2.disjoint hp hq, e5⟩
  · have := e2.length; have := e2.le; omega
  · intro p hp
    have hbd := e2.bounds (List.mem_append_left fs hp)
    refine ⟨?_, hbd.1, hbd.2⟩
    obtain ⟨i, _, rfl⟩ := e2.slot (List.mem_append_left fs hp)
    exact Nat.dvd_add h.aligned (Nat.dvd_mul_left_of_dvd h.dvd i)

/-- C69.  A new `FixedMapWithOverflow` is empty for every observer.  Whatever nodes are taken and
given back, a node taken is a slot of the buffer exactly if not all `n` slots are in use, and then
no memory is allocated; otherwise it is a new block.  (`r` is the extent of the object, which ends
with a padding node after the buffer.) -/
theorem C69_fixed_map_overflow_new {E : TEnv K V OPool} (P : Placer (TNode K V) (K ⊕ V))
    (u : TNode K V) {m0 : TMem K V} (h : FixedMapObj m0 size align s buf n) (hwf : m0.WF)
    {r : Range} (hr : m0.reg s = some r) (hend : buf + n * size + size ≤ s + r.size) :
    ∃ T m, fixedMapOverflow size align s buf n m0 = .ok (T, m) ∧ EmptyMap E T m ∧
      (∀ p, p ≠ s → m.node p = m0.node p) ∧
      ∀ ops : List PoolOp, ∃ os pool m' live,
        poolRun (opoolNAlloc u size align (defaultNAlloc P u false)) size align ops (T.al, m, []) =
          .ok (os, pool, m', live) ∧
        ∃ p pool2 m2, (opoolNAlloc u size align (defaultNAlloc P u false)).alloc size align pool m' =
            .ok (p, pool2, m2) ∧ p ≠ 0 ∧ p ∉ live ∧
          ((buf ≤ p ∧ p < buf + n * size) ↔
            live.countP (fun q => decide (buf ≤ q ∧ q < buf + n * size)) < n) ∧
          ((buf ≤ p ∧ p < buf + n * size) → align ∣ p ∧ m2.reg = m'.reg) ∧
          (¬ (buf ≤ p ∧ p < buf + n * size) → m'.reg p = none ∧
            m2.reg p = some ⟨size, align, true⟩) := by
  obtain ⟨hru, hroom⟩ := h.room
  obtain ⟨pl, hpl⟩ := Pool.init_total (len := n * size) h.pow h.addr h.word (by rw [hru]; omega)
  have hal : OPool.init size align buf (n * size) = .ok ⟨pl, buf⟩ := by simp [OPool.init, hpl]
  obtain ⟨T, m, h1, h2, h3, h4, h5, h6, _⟩ :=
    fixedMapNew_ok (E := E) (dflt := OPool.withAllocator) h hal
  refine ⟨T, m, h1, h3, h5, fun ops => ?_⟩
  have hb := h.before
  have hw := h.word
  have hfree : ∀ q, buf ≤ q → q < buf + n * size → m.node q = none := by
    intro q h1 h2
    rw [h5 q (by omega)]
    exact h.free q h1 h2
  have hwf' : m.WF := by
    refine ⟨by rw [h6]; exact hwf.disj, ?_, by rw [h6]; exact hwf.null⟩
    intro q hq
    rw [h6]
    apply hwf.cover
    by_cases hqs : q = s
    · obtain ⟨a, ha⟩ := h.anchor
      rw [hqs, ha]; simp
    · rwa [h5 q hqs] at hq
  have hr' : m.reg s = some r := by rw [h6]; exact hr
  have hend' : roundUp align buf + roomFor size align buf (n * size) * size < s + r.size := by
    rw [hru, hroom]; omega
  obtain ⟨os, pool, m', live, e1, _⟩ :=
    opool_history P u hal (by omega) hwf' hfree hr' (by omega) hend' ops
  have key := (C43_overflow_routes_partial P u (by omega) hwf' hfree hr' (by omega) hend' e1).1
  obtain ⟨p, pool2, m2, k1, k2, k3, k4, k5, k6⟩ := key
  have hslots : inSlots size align buf (n * size) = fun p => buf ≤ p ∧ p < buf + n * size := by
    funext q; unfold inSlots; rw [hru, hroom]
  have e1' : poolRun (opoolNAlloc u size align (defaultNAlloc P u false)) size align ops
      (T.al, m, []) = .ok (os, pool, m', live) := by
    unfold opoolHistory at e1
    rw [hal] at e1
    rw [h2]; exact e1
  rw [hroom] at k4
  have hcount : live.countP (inSlots size align buf (n * size)) =
      live.countP (fun q => decide (buf ≤ q ∧ q < buf + n * size)) := by
    congr 1
    funext q
    exact decide_eq_decide.2 (by rw [hslots])
  rw [hcount] at k4
  simp only [hslots] at k4 k5 k6
  refine ⟨os, pool, m', live, e1', p, pool2, m2, k1, k2, k3, k4, ?_, fun e => ⟨(k6 e).1, (k6 e).2.1⟩⟩
  intro e
  obtain ⟨hreg, i, _, hi⟩ := k5 e
  refine ⟨?_, hreg⟩
  rw [hi, hru]
  exact Nat.dvd_add h.aligned (Nat.dvd_mul_left_of_dvd h.dvd i)

/-- C69.  Dropping a `FixedMap` that holds any tree of pool nodes gives every node back to the
pool, which is then as good as new: again `n` nodes can be taken. -/
theorem C69_fixed_map_drop {E : TEnv K V Pool} {u : TNode K V}
    (hE : E.A = poolNAlloc u E.size align) {T : RBTree Pool} {m : TMem K V}
    {t : Tree (Nat × K × V)} {fs : List Nat} {k : Nat} (h : TreeRep T m t)
    (hi : PoolInv buf E.size n T.al m (nodeAddrs t) fs k) {f : Nat} (hf : t.count ≤ f) :
    ∃ pool m' fs' k', T.drop E f m = .ok (pool, m') ∧ PoolInv buf E.size n pool m' [] fs' k' ∧
      pool.canAllocate = decide (0 < n) := by
  have L := poolNAlloc_free (D := K ⊕ V) u buf E.size align n E.size E.align
  rw [← hE] at L
  obtain ⟨_, a', m', _, g2, _, _, _, fs', k', g6⟩ := h.freeNodes L (qs := [])
    (show ∃ fs k, PoolInv buf E.size n T.al m (nodeAddrs t ++ []) fs k by
      rw [List.append_nil]; exact ⟨fs, k, hi⟩) hf
  exact ⟨a', m', fs', k', by simp [RBTree.drop, g2], g6, g6.canAllocate⟩

/-- Memory for a fixed map of two nodes of 40 bytes at 64. -/
def exampleFixedMapMem : TMem Nat Nat where
  node q := if q = 64 then some ⟨1, 2, 3, none⟩ else none
  link _ := none
  reg q := if q = 64 then some ⟨200, 8, false⟩ else none
  top := 264
  top_ok := by
    intro a r h
    split at h
    · cases h; subst_vars; decide
    · cases h
  dropped := []

/-- The hypotheses of C69 hold of it. -/
example : FixedMapObj exampleFixedMapMem 40 8 64 136 2 ∧ exampleFixedMapMem.WF ∧
    exampleFixedMapMem.reg 64 = some ⟨200, 8, false⟩ ∧ 136 + 2 * 40 + 40 ≤ 64 + 200 := by
  have hn : ∀ q, exampleFixedMapMem.node q ≠ none → q = 64 := by
    intro q h
    by_contra hc
    exact h (by simp [exampleFixedMapMem, hc])
  have hr : ∀ q r, exampleFixedMapMem.reg q = some r → q = 64 := by
    intro q r h
    by_contra hc
    simp [exampleFixedMapMem, hc] at h
  refine ⟨⟨⟨3, rfl⟩, by decide, by decide, ⟨_, rfl⟩, by decide, by decide, by decide, by decide, ?_⟩,
    ⟨?_, ?_, ?_⟩, rfl, by decide⟩
  · intro q h1 _
    by_contra hc
    have := hn q hc
    omega
  · intro a b r r' h1 h2 hne
    have := hr a r h1
    have := hr b r' h2
    omega
  · intro q hq
    have := hn q hq
    subst this
    exact ⟨64, ⟨200, 8, false⟩, rfl, by omega, by simp⟩
  · intro a r h
    have := hr a r h
    omega

/-- And a run: three nodes taken from the plain map's pool of two, and from the one with
overflow. -/
example :
    (do
      let (t, m) ← fixedMapPlain (K := Nat) (V := Nat) 40 8 64 136 2 exampleFixedMapMem
      let (os, _) ← poolRun (poolNAlloc TNode.uninit 40 8) 40 8 [.alloc, .alloc, .alloc]
        (t.al, m, [])
      .ok os) = (.ok [136, 176, 0] : Exec _) ∧
    (do
      let (t, m) ← fixedMapOverflow (K := Nat) (V := Nat) 40 8 64 136 2 exampleFixedMapMem
      let (os, _) ← poolRun (opoolNAlloc TNode.uninit 40 8
        (defaultNAlloc Placer.bump TNode.uninit false)) 40 8 [.alloc, .alloc, .alloc] (t.al, m, [])
      .ok (os.map fun p => decide (p < 264))) = (.ok [true, true, false] : Exec _) :=
  ⟨by decide +kernel, by decide +kernel⟩

/-- The same object holding two entries in its two nodes. -/
def exampleFixedTreeMem : TMem Nat Nat where
  node q :=
    if q = 64 then some ⟨136, 176, 136, none⟩
    else if q = 136 then some ⟨176, 0, 65, some (1, 10)⟩
    else if q = 176 then some ⟨0, 0, 136, some (2, 20)⟩
    else none
  link _ := none
  reg q := if q = 64 then some ⟨200, 8, false⟩ else none
  top := 264
  top_ok := by
    intro a r h
    split at h
    · cases h; subst_vars; decide
    · cases h
  dropped := []

/-- The hypotheses of `C69_fixed_map_drop` hold of it. -/
example :
    let t : Tree (Nat × Nat × Nat) := .node .nil (136, 1, 10) (.node .nil (176, 2, 20) .nil)
    let T : RBTree Pool := ⟨64, 2, ⟨0, 216, 216⟩⟩
    TreeRep T exampleFixedTreeMem t ∧ PoolInv 136 40 2 T.al exampleFixedTreeMem (nodeAddrs t) [] 2 := by
  refine ⟨⟨⟨⟨136, 176, 136, none⟩, 136, rfl, by decide, by decide, ?_, ?_, ?_⟩, by decide,
    by decide, by decide, rfl⟩, ⟨by decide, by decide, by decide, rfl, rfl, rfl, ?_, ?_, ?_⟩⟩
  · exact ⟨rfl, by decide, _, rfl, rfl, by decide, rfl,
      ⟨rfl, by decide, _, rfl, rfl, by decide, rfl, rfl⟩⟩
  · intro _; exact ⟨by decide, by decide⟩
  · intro h; cases h
  · exact .refl _
  · intro p hp
    have he : p = 136 ∨ p = 176 := by simpa [nodeAddrs, Tree.inorder] using hp
    rcases he with rfl | rfl <;> simp [exampleFixedTreeMem]
  · intro q h1 h2 hq
    have he : ¬ (q = 136 ∨ q = 176) := by simpa [nodeAddrs, Tree.inorder] using hq
    have h3 : q ≠ 64 := by omega
    simp only [not_or] at he
    simp [exampleFixedTreeMem, h3, he]

end Verif
