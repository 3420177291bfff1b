import Verif.Layout.Lemmas

/-!
# Binary compatibility of nodes and elements (C93, C94)

For every size and alignment of keys and values on a 64-bit target.  The C++ side is in
`Spec/Layout.lean`.
-/

set_option autoImplicit false

namespace Verif
open Spec

/-! ## C93 -/

theorem hashNode_align {K V : Lay} (hV : V.Valid) :
    (hashNode K V).align = (cxxHashNode K V).align := by
  have h1 : (hashNode K V).align = max K.align (max V.align 8) := maxAlign_three
  have h2 : (cxxHashNode K V).align = max (max K.align V.align) 8 := by
    show maxAlign [cxxPair K V, ptrLay] = _
    rw [maxAlign_pair (by decide)]
    show max (maxAlign [K, V]) 8 = _
    rw [maxAlign_pair hV.pos]
  rw [h1, h2, max_assoc]

/-- C93, exactly when.  A hash table node has the offsets, size and alignment of EASTL's node if
and only if the link, when placed right behind the value, is at a multiple of the alignment of
key and value. -/
theorem C93_hash_node_layout_iff (K V : Lay) (hK : K.Valid) (hV : V.Valid) :
    (hashNodeOffsets K V = cxxHashNodeOffsets K V ∧ hashNode K V = cxxHashNode K V) ↔
      max K.align V.align ∣ alignUp (alignUp K.size V.align + V.size) 8 := by
  obtain ⟨e, he⟩ : ∃ e, e = alignUp K.size V.align + V.size := ⟨_, rfl⟩
  obtain ⟨a, ha⟩ : ∃ a, a = max K.align V.align := ⟨_, rfl⟩
  have hapow : ∃ k, a = 2 ^ k := ha ▸ pow2_max hK.1 hV.1
  have hapos : 0 < a := by rw [ha]; have := hK.pos; omega
  have hpair : cxxPair K V = ⟨alignUp e a, a⟩ := by
    simp only [cxxPair, structLay, maxAlign_pair hV.pos, endFrom, alignUp_zero, Nat.zero_add, he, ha]
  have h1 : hashNodeOffsets K V = [0, alignUp K.size V.align, alignUp e 8] := by
    simp [hashNodeOffsets, offsets, offsetsFrom, ptrLay, he]
  have h2 : cxxHashNodeOffsets K V =
      [0, alignUp K.size V.align, alignUp (alignUp e a) 8] := by
    simp [cxxHashNodeOffsets, cxxPairOffsets, offsets, offsetsFrom, ptrLay, hpair]
  have h3 : hashNode K V =
      ⟨alignUp (alignUp e 8 + 8) (hashNode K V).align, (hashNode K V).align⟩ := by
    show structLay _ = _
    simp [structLay, endFrom, ptrLay, he, hashNode]
  have h4 : cxxHashNode K V =
      ⟨alignUp (alignUp (alignUp e a) 8 + 8) (cxxHashNode K V).align, (cxxHashNode K V).align⟩ := by
    show structLay _ = _
    simp [structLay, endFrom, ptrLay, hpair, cxxHashNode]
  have key : alignUp e 8 = alignUp (alignUp e a) 8 ↔ a ∣ alignUp e 8 := by
    rcases Nat.le_total a 8 with h8 | h8
    · have hd : a ∣ 8 := pow2_dvd hapow ⟨3, rfl⟩ h8
      rw [alignUp_alignUp hapos (by decide) hd]
      exact ⟨fun _ => hd.trans (alignUp_dvd e 8), fun _ => rfl⟩
    · have hd : 8 ∣ a := pow2_dvd ⟨3, rfl⟩ hapow h8
      rw [alignUp_eq (x := alignUp e a) (by decide) (hd.trans (alignUp_dvd e a))]
      constructor
      · intro h; rw [h]; exact alignUp_dvd e a
      · intro h
        apply Nat.le_antisymm
        · exact alignUp_le (by decide) (hd.trans (alignUp_dvd e a)) (le_alignUp hapos)
        · exact alignUp_le hapos h (le_alignUp (by decide))
  rw [← ha, ← he]
  constructor
  · rintro ⟨ho, _⟩
    rw [h1, h2] at ho
    simp only [List.cons.injEq, and_true, true_and] at ho
    exact key.1 ho
  · intro h
    have hk := key.2 h
    refine ⟨by rw [h1, h2, ← hk], ?_⟩
    rw [h3, h4, ← hk, hashNode_align hV]

/-- C93, the true part: nodes agree if neither key nor value needs more than 8 bytes of
alignment.  Missing: over-aligned types. -/
theorem C93_hash_node_layout_partial (K V : Lay) (hK : K.Valid) (hV : V.Valid) (h8 : K.align ≤ 8)
    (h8' : V.align ≤ 8) :
    hashNodeOffsets K V = cxxHashNodeOffsets K V ∧ hashNode K V = cxxHashNode K V := by
  rw [C93_hash_node_layout_iff K V hK hV]
  exact (pow2_dvd (pow2_max hK.1 hV.1) ⟨3, rfl⟩ (max_le h8 h8')).trans (alignUp_dvd _ 8)

/-- C93, refuted: a key aligned to 16 bytes or more with a value of at most 8 bytes.  The link of
the Rust node is where the C++ node has padding. -/
theorem C93_overaligned_key_differs (K V : Lay) (hK : K.Valid) (hV : V.Valid) (h16 : 16 ≤ K.align)
    (hpos : 0 < V.size) (h8 : V.size ≤ 8) : hashNodeOffsets K V ≠ cxxHashNodeOffsets K V := by
  intro ho
  have hVa : V.align ≤ 8 := (Nat.le_of_dvd hpos hV.2).trans h8
  have hVK : V.align ∣ K.size := (pow2_dvd hV.1 hK.1 (by omega)).trans hK.2
  have h16K : 16 ∣ K.align := pow2_dvd ⟨4, rfl⟩ hK.1 h16
  have hmax : max K.align V.align = K.align := max_eq_left (by omega)
  have hp : cxxPair K V = ⟨alignUp (K.size + V.size) K.align, K.align⟩ := by
    simp only [cxxPair, structLay, maxAlign_pair hV.pos, endFrom, alignUp_zero, Nat.zero_add,
      alignUp_eq hV.pos hVK, hmax]
  simp only [hashNodeOffsets, offsets, offsetsFrom, ptrLay, alignUp_zero, Nat.zero_add,
    alignUp_eq hV.pos hVK, cxxHashNodeOffsets, cxxPairOffsets, hp, List.cons_append,
    List.nil_append, List.cons.injEq, and_true, true_and] at ho
  have h8K : 8 ∣ K.size := (Dvd.intro 2 rfl : (8 : Nat) ∣ 16).trans (h16K.trans hK.2)
  have e1 : alignUp (K.size + V.size) 8 = K.size + 8 := by
    unfold alignUp
    obtain ⟨k, hk⟩ := h8K
    omega
  have e2 : alignUp (alignUp (K.size + V.size) K.align) 8 = alignUp (K.size + V.size) K.align :=
    alignUp_eq (by decide) ((Dvd.intro 2 rfl : (8 : Nat) ∣ 16).trans (h16K.trans (alignUp_dvd _ _)))
  rw [e1, e2] at ho
  have h3 : 16 ∣ K.size + 8 := by rw [ho]; exact h16K.trans (alignUp_dvd _ _)
  have h4 : 16 ∣ K.size := h16K.trans hK.2
  omega

/-- C93 for sets: nodes agree for every key type. -/
theorem C93_hash_set_node_layout (K : Lay) (hK : K.Valid) :
    hashNodeOffsets K unitLay = [0, K.size, (cxxSetNodeOffsets K).getD 1 0] ∧
      hashNode K unitLay = cxxSetNode K := by
  have e : alignUp K.size 1 = K.size := alignUp_eq (by decide) (one_dvd _)
  refine ⟨?_, ?_⟩
  · simp [hashNodeOffsets, cxxSetNodeOffsets, offsets, offsetsFrom, unitLay, ptrLay, e]
  · simp only [hashNode, cxxSetNode, structLay, endFrom, unitLay, ptrLay, alignUp_zero,
      Nat.zero_add, e, Nat.add_zero, maxAlign, List.map_cons, List.map_nil, List.foldr_cons,
      List.foldr_nil, Lay.mk.injEq]
    have := hK.pos
    have hm : max K.align (max 1 (max 8 1)) = max K.align (max 8 1) := by omega
    rw [hm]
    exact ⟨rfl, rfl⟩

/-- Non-vacuity of C93: `u32` and `u64`, agreeing; a 16-byte vector as key of a `u32`, not. -/
example : (⟨4, 4⟩ : Lay).Valid ∧ (⟨8, 8⟩ : Lay).Valid ∧ (⟨16, 16⟩ : Lay).Valid ∧
    hashNodeOffsets ⟨4, 4⟩ ⟨8, 8⟩ = [0, 8, 16] ∧ cxxHashNodeOffsets ⟨4, 4⟩ ⟨8, 8⟩ = [0, 8, 16] ∧
    hashNodeOffsets ⟨16, 16⟩ ⟨4, 4⟩ = [0, 16, 24] ∧
    cxxHashNodeOffsets ⟨16, 16⟩ ⟨4, 4⟩ = [0, 16, 32] ∧
    hashNode ⟨2, 2⟩ unitLay = ⟨16, 8⟩ := by
  refine ⟨⟨⟨2, rfl⟩, by decide⟩, ⟨⟨3, rfl⟩, by decide⟩, ⟨⟨4, rfl⟩, by decide⟩, ?_⟩
  decide +kernel

/-! ## C94 -/

theorem structLay_valid {K V : Lay} (hK : K.Valid) (hV : V.Valid) : (structLay [K, V]).Valid := by
  refine ⟨?_, alignUp_dvd _ _⟩
  show ∃ k, maxAlign [K, V] = 2 ^ k
  rw [maxAlign_pair hV.pos]
  exact pow2_max hK.1 hV.1

theorem structLay_end {K V : Lay} (hV : V.Valid) :
    alignUp K.size V.align + V.size ≤ (structLay [K, V]).size := by
  simp only [structLay, endFrom, alignUp_zero, Nat.zero_add]
  exact le_alignUp (by rw [maxAlign_pair hV.pos]; have := hV.pos; omega)

/-- The tuple laid out as C++ lays out a pair. -/
def tupleInOrder {K V : Lay} (hK : K.Valid) (hV : V.Valid) : TupleLay K V where
  key := 0
  val := alignUp K.size V.align
  lay := structLay [K, V]
  valid := structLay_valid hK hV
  key_aligned := dvd_zero _
  val_aligned := alignUp_dvd _ _
  align_ok := by
    show K.align ∣ maxAlign [K, V] ∧ V.align ∣ maxAlign [K, V]
    rw [maxAlign_pair hV.pos]
    exact ⟨pow2_dvd hK.1 (pow2_max hK.1 hV.1) (le_max_left _ _),
      pow2_dvd hV.1 (pow2_max hK.1 hV.1) (le_max_right _ _)⟩
  key_inside := by
    have := structLay_end (K := K) hV
    have := le_alignUp (x := K.size) hV.pos
    omega
  val_inside := structLay_end hV
  disjoint := .inl (by have := le_alignUp (x := K.size) hV.pos; omega)

/-- The tuple with its fields swapped. -/
def Spec.TupleLay.swap {K V : Lay} (T : TupleLay K V) : TupleLay V K :=
  ⟨T.val, T.key, T.lay, T.valid, T.val_aligned, T.key_aligned, T.align_ok.symm, T.val_inside,
    T.key_inside, T.disjoint.symm⟩

/-- C94, refuted.  Elements of a `VectorMap` and the entries of tree nodes are Rust tuples.  For
all key and value types that are not zero-sized Rust may choose a layout of them that is not that
of a C++ pair. -/
theorem C94_tuple_layout_unspecified (K V : Lay) (hK : K.Valid) (hV : V.Valid)
    (hpos : 0 < V.size) : ∃ T : TupleLay K V, vectorMapElemOffsets T ≠ cxxPairOffsets K V ∧
      treeNodeOffsets T ≠ cxxTreeNodeOffsets K V := by
  refine ⟨(tupleInOrder hV hK).swap, ?_, ?_⟩
  · intro h
    simp only [vectorMapElemOffsets, Spec.TupleLay.swap, tupleInOrder, cxxPairOffsets, offsets,
      offsetsFrom, alignUp_zero, List.cons.injEq] at h
    have := le_alignUp (x := V.size) hK.pos
    omega
  · intro h
    have hal : maxAlign [K, V] = maxAlign [V, K] := by
      rw [maxAlign_pair hV.pos, maxAlign_pair hK.pos, max_comm]
    simp only [treeNodeOffsets, Spec.TupleLay.swap, tupleInOrder, offsets, offsetsFrom, ptrLay,
      alignUp_zero, cxxTreeNodeOffsets, cxxPairOffsets, cxxPair, List.map_cons, List.map_nil,
      List.take_succ_cons, List.take_zero, List.cons_append, List.nil_append,
      List.getD_cons_succ, List.getD_cons_zero, structLay, List.cons.injEq, hal,
      show alignUp (0 + 8) 8 = 8 from rfl, show alignUp (8 + 8) 8 = 16 from rfl] at h
    have := le_alignUp (x := V.size) hK.pos
    omega

/-- C94, the part that is true: if the compiler lays tuples out in order, then elements of a
`VectorMap` and tree nodes have the offsets of C++, for all alignments.  Missing: a guarantee of
the order. -/
theorem C94_tuple_layout_partial (K V : Lay) (hK : K.Valid) (hV : V.Valid) :
    vectorMapElemOffsets (tupleInOrder hK hV) = cxxPairOffsets K V ∧
      treeNodeOffsets (tupleInOrder hK hV) = cxxTreeNodeOffsets K V := by
  refine ⟨?_, ?_⟩
  · simp [vectorMapElemOffsets, tupleInOrder, cxxPairOffsets, offsets, offsetsFrom]
  · simp [treeNodeOffsets, tupleInOrder, cxxTreeNodeOffsets, cxxPairOffsets, cxxPair, offsets,
      offsetsFrom, ptrLay, structLay, show alignUp 8 8 = 8 from rfl, show alignUp 16 8 = 16 from rfl]

/-- Non-vacuity of C94: a `u8` key and a `u32` value; in order, and value first. -/
example : ∃ (hK : (⟨1, 1⟩ : Lay).Valid) (hV : (⟨4, 4⟩ : Lay).Valid),
    vectorMapElemOffsets (tupleInOrder hK hV) = [0, 4] ∧
    vectorMapElemOffsets (tupleInOrder hV hK).swap = [4, 0] ∧
    treeNodeOffsets (tupleInOrder hK hV) = [0, 8, 16, 24, 28] ∧
    treeNodeOffsets (tupleInOrder hV hK).swap = [0, 8, 16, 28, 24] :=
  ⟨⟨⟨0, rfl⟩, by decide⟩, ⟨⟨2, rfl⟩, by decide⟩, rfl, rfl, rfl, rfl⟩

end Verif
