import Verif.Layout.Fixed
import Verif.Props.Layout

/-!
# Layout of the fixed containers (C118)

`FixedList` and `FixedMap` declare their buffer as an array of nodes and one more node of padding;
the comments say that this should give the layout of the variant with a buffer of bytes, which is
`conformant::FixedList`.  For every size and alignment of the element types and of the overflow
allocator, and for every number of nodes.
-/

set_option autoImplicit false

namespace Verif
open Spec

/-- C118, exactly when.  A `FixedList` has the size, the alignment and the buffer offset of a
`conformant::FixedList` if and only if the elements are not aligned more strictly than the header,
that is than 8 and the overflow allocator. -/
theorem C118_fixed_list_layout_iff (T O : Lay) (hT : T.Valid) (hO : O.Valid) (N : Nat) :
    SameShape (fixedListFields T N O) (conformantListFields T N O) ↔ T.align ≤ max 8 O.align := by
  have h1 := sameShape_iff (head := listHead (overflowPoolLay O)) (node := listNode T) N
    (listHead_valid (overflowPoolLay_valid hO)) (listNode_valid hT)
    (by rw [listNode_align]; omega) (by have := listNode_size hT; omega)
  refine h1.trans ?_
  rw [listNode_align, listHead_align]
  omega

/-- C118, as far as it holds: with elements aligned to at most 8 the two lists have the same layout,
and at the same address they start with the same pool.  Missing: elements aligned more strictly;
see `C118_overaligned_differs`. -/
theorem C118_fixed_list_same_partial (T O : Lay) (hT : T.Valid) (hO : O.Valid) (N : Nat)
    (h8 : T.align ≤ 8) (a : Nat) (ha : (structLay (fixedListFields T N O)).align ∣ a)
    (hend : a + (structLay (fixedListFields T N O)).size < 2 ^ 64) :
    structLay (fixedListFields T N O) = structLay (conformantListFields T N O) ∧
    (offsets (fixedListFields T N O))[1]? = (offsets (conformantListFields T N O))[1]? ∧
    fixedListPool T N O a = conformantListPool T N O a := by
  have hs := (C118_fixed_list_layout_iff T O hT hO N).2 (by omega)
  refine ⟨hs.1, hs.2, ?_⟩
  have hh := listHead_valid (overflowPoolLay_valid hO)
  have hn := listNode_valid hT
  have h16 := listNode_size hT
  have hal : (listNode T).align ≤ (listHead (overflowPoolLay O)).align := by
    rw [listNode_align, listHead_align]; omega
  obtain ⟨s, h1, h2, h3, _, h4, _⟩ := nodeBuffered_pool N hn (by omega) ha hend hh
  have he : structLay (fixedListFields T N O) =
      structLay (byteBuffered (listHead (overflowPoolLay O)) (listNode T) N) := hs.1
  obtain ⟨s', k1, k2, k3, k4, _⟩ := byteBuffered_pool N hn (a := a) (by omega) hh
    (by rw [listHead_align]; omega) (by rw [← he]; exact ha) (by rw [← he]; exact hend)
  have ho : Spec.alignUp (listHead (overflowPoolLay O)).size (listNode T).align =
      (listHead (overflowPoolLay O)).size :=
    Spec.alignUp_eq hn.pos ((pow2_dvd hn.1 hh.1 hal).trans hh.2)
  have hd : (listNode T).align ∣ a + (listHead (overflowPoolLay O)).size := by
    refine (pow2_dvd hn.1 hh.1 hal).trans (Nat.dvd_add ?_ hh.2)
    rw [he, byteBuffered_align N hh] at ha
    exact ha
  rw [roundUp_of_dvd hn.pos hd] at k3
  rw [ho] at h1 h3
  have e1 : fixedListPool T N O a = .ok s := by
    have : (offsets (fixedListFields T N O)).getD 1 0 = (listHead (overflowPoolLay O)).size := by
      rw [List.getD_eq_getElem?_getD]
      show ((offsets (nodeBuffered _ _ _))[1]?).getD 0 = _
      rw [nodeBuffered_offset, ho]; rfl
    unfold fixedListPool
    rw [this]; exact h1
  have e2 : conformantListPool T N O a = .ok s' := by
    have : (offsets (conformantListFields T N O)).getD 1 0 =
        (listHead (overflowPoolLay O)).size := by
      rw [List.getD_eq_getElem?_getD]
      show ((offsets (byteBuffered _ (listNode T) _))[1]?).getD 0 = _
      rw [byteBuffered_offset]; rfl
    unfold conformantListPool
    rw [this]; exact k1
  rw [e1, e2]
  cases s; cases s'
  simp_all

/-- C118 fails for elements aligned to 16 or more, with an overflow allocator that is not: the
whole list is then aligned more strictly than the conformant one. -/
theorem C118_overaligned_differs (T O : Lay) (hO : O.Valid) (N : Nat)
    (h16 : 16 ≤ T.align) (h8 : O.align ≤ 8) :
    (structLay (fixedListFields T N O)).align = T.align ∧
      (structLay (conformantListFields T N O)).align = 8 := by
  constructor
  · refine (nodeBuffered_align (head := listHead (overflowPoolLay O)) (node := listNode T) N).trans ?_
    rw [listNode_align, listHead_align]
    omega
  · refine (byteBuffered_align (node := listNode T) N
      (listHead_valid (overflowPoolLay_valid hO))).trans ?_
    rw [listHead_align]
    omega

/-- C118.  Whatever the elements and wherever the list is, both lists start with a pool of exactly
`N` aligned nodes, inside the list, that ends before the list does. -/
theorem C118_fixed_list_room (T O : Lay) (hT : T.Valid) (hO : O.Valid) (N a : Nat) :
    ((structLay (fixedListFields T N O)).align ∣ a →
      a + (structLay (fixedListFields T N O)).size < 2 ^ 64 →
      ∃ s, fixedListPool T N O a = .ok s ∧ s.head = 0 ∧ (listNode T).align ∣ s.next ∧
        s.capacity = s.next + N * (listNode T).size ∧
        a + (listHead (overflowPoolLay O)).size ≤ s.next ∧
        s.capacity < a + (structLay (fixedListFields T N O)).size) ∧
    ((structLay (conformantListFields T N O)).align ∣ a →
      a + (structLay (conformantListFields T N O)).size < 2 ^ 64 →
      ∃ s, conformantListPool T N O a = .ok s ∧ s.head = 0 ∧ (listNode T).align ∣ s.next ∧
        s.capacity = s.next + N * (listNode T).size ∧
        a + (listHead (overflowPoolLay O)).size ≤ s.next ∧
        s.capacity < a + (structLay (conformantListFields T N O)).size) := by
  have hh := listHead_valid (overflowPoolLay_valid hO)
  have hn := listNode_valid hT
  have h16 := listNode_size hT
  constructor
  · intro ha hend
    obtain ⟨s, h1, h2, h3, h4, h5, h6⟩ := nodeBuffered_pool N hn (by omega) ha hend hh
    refine ⟨s, ?_, h2, h4, h5, ?_, ?_⟩
    · have : (offsets (fixedListFields T N O)).getD 1 0 =
          Spec.alignUp (listHead (overflowPoolLay O)).size (listNode T).align := by
        rw [List.getD_eq_getElem?_getD]
        show ((offsets (nodeBuffered _ _ _))[1]?).getD 0 = _
        rw [nodeBuffered_offset]; rfl
      unfold fixedListPool
      rw [this]; exact h1
    · have := le_alignUp (x := (listHead (overflowPoolLay O)).size) hn.pos
      omega
    · show _ < a + (structLay (nodeBuffered _ _ _)).size
      omega
  · intro ha hend
    obtain ⟨s, h1, h2, h3, h5, h6⟩ := byteBuffered_pool N hn (a := a) (by omega) hh
      (by rw [listHead_align]; omega) ha hend
    refine ⟨s, ?_, h2, ?_, h5, ?_, h6⟩
    · have : (offsets (conformantListFields T N O)).getD 1 0 =
          (listHead (overflowPoolLay O)).size := by
        rw [List.getD_eq_getElem?_getD]
        show ((offsets (byteBuffered _ (listNode T) _))[1]?).getD 0 = _
        rw [byteBuffered_offset]; rfl
      unfold conformantListPool
      rw [this]; exact h1
    · rw [h3]; exact dvd_roundUp _ _
    · rw [h3]; exact roundUp_ge hn.pos _

/-- C118 for `FixedMap`, against the same variant: exactly when. -/
theorem C118_fixed_map_layout_iff {K V : Lay} (T : TupleLay K V) (A C : Lay) (hA : A.Valid)
    (hC : C.Valid) (N : Nat) :
    SameShape (fixedMapFields T N A C) (byteBuffered (treeHead C A) (treeNode T) N) ↔
      T.lay.align ≤ max 8 (max C.align A.align) := by
  have h1 := sameShape_iff (head := treeHead C A) (node := treeNode T) N
    (treeHead_valid hC hA) (treeNode_valid T)
    (by rw [treeNode_align]; omega) (by have := treeNode_size T; omega)
  refine h1.trans ?_
  rw [treeNode_align, treeHead_align]
  omega

/-- C118 for `FixedMap`: the map starts with a pool of exactly `N` aligned nodes, inside the map,
that ends before the map does. -/
theorem C118_fixed_map_room {K V : Lay} (T : TupleLay K V) (A C : Lay) (hA : A.Valid)
    (hC : C.Valid) (N a : Nat) (ha : (structLay (fixedMapFields T N A C)).align ∣ a)
    (hend : a + (structLay (fixedMapFields T N A C)).size < 2 ^ 64) :
    ∃ s, fixedMapPool T N A C a = .ok s ∧ s.head = 0 ∧ (treeNode T).align ∣ s.next ∧
      s.capacity = s.next + N * (treeNode T).size ∧ a + (treeHead C A).size ≤ s.next ∧
      s.capacity < a + (structLay (fixedMapFields T N A C)).size := by
  have hh := treeHead_valid hC hA
  have hn := treeNode_valid T
  have h24 := treeNode_size T
  obtain ⟨s, h1, h2, h3, h4, h5, h6⟩ := nodeBuffered_pool N hn (by omega) ha hend hh
  refine ⟨s, ?_, h2, h4, h5, ?_, ?_⟩
  · have : (offsets (fixedMapFields T N A C)).getD 1 0 =
        Spec.alignUp (treeHead C A).size (treeNode T).align := by
      rw [List.getD_eq_getElem?_getD]
      show ((offsets (nodeBuffered _ _ _))[1]?).getD 0 = _
      rw [nodeBuffered_offset]; rfl
    unfold fixedMapPool
    rw [this]; exact h1
  · have := le_alignUp (x := (treeHead C A).size) hn.pos
    omega
  · show _ < a + (structLay (nodeBuffered _ _ _)).size
    omega

/-- Lists of three `u32` over the default allocator (one byte): 160 bytes either way, the three
nodes of 24 bytes at 64.  With elements of 32 bytes aligned to 32 they differ. -/
example : Lay.Valid ⟨4, 4⟩ ∧ Lay.Valid ⟨1, 1⟩ ∧ Lay.Valid ⟨32, 32⟩ ∧
    structLay (fixedListFields ⟨4, 4⟩ 3 ⟨1, 1⟩) = ⟨160, 8⟩ ∧
    structLay (conformantListFields ⟨4, 4⟩ 3 ⟨1, 1⟩) = ⟨160, 8⟩ ∧
    (do
      let s ← fixedListPool ⟨4, 4⟩ 3 ⟨1, 1⟩ 4096
      .ok (s.head, s.next, s.capacity)) = (.ok (0, 4160, 4232) : Exec _) ∧
    structLay (fixedListFields ⟨32, 32⟩ 3 ⟨1, 1⟩) = ⟨320, 32⟩ ∧
    structLay (conformantListFields ⟨32, 32⟩ 3 ⟨1, 1⟩) = ⟨320, 8⟩ :=
  ⟨⟨⟨2, rfl⟩, 1, rfl⟩, ⟨⟨0, rfl⟩, 1, rfl⟩, ⟨⟨5, rfl⟩, 1, rfl⟩, by decide +kernel⟩

/-- A `FixedMap` from `u32` to `u64` of two nodes over `FixedPool`, with a comparator of one byte:
the tree's header takes 64 bytes, the nodes 40 each. -/
example : (fun T : TupleLay ⟨4, 4⟩ ⟨8, 8⟩ =>
    (structLay (fixedMapFields T 2 fixedPoolLay ⟨1, 1⟩) = ⟨184, 8⟩ ∧
    (do
      let s ← fixedMapPool T 2 fixedPoolLay ⟨1, 1⟩ 4096
      .ok (s.head, s.next, s.capacity)) = (.ok (0, 4160, 4240) : Exec _)))
    (tupleInOrder ⟨⟨2, rfl⟩, 1, rfl⟩ ⟨⟨3, rfl⟩, 1, rfl⟩) := by decide +kernel

end Verif
