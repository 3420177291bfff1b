import Verif.Layout.Objects

/-!
# C139: binary compatibility of the container objects

For every size and alignment of allocators and comparators on a 64-bit target.  The C++ side is in
`Spec/Objects.lean`.
-/

set_option autoImplicit false

namespace Verif
open Spec

/-- C139 for vectors, exactly when: a `Vector` is laid out as the C++ vector if and only if its
allocator takes space in Rust. -/
theorem C139_vector_layout_iff (A : Lay) (hA : A.Valid) :
    SameLayout (vectorFields A) (cxxVector A) ↔ 0 < A.size := by
  have h := sameLayout_last_iff [ptrLay, ptrLay, ptrLay] hA rfl (by decide)
  refine h.trans ⟨fun h => ?_, .inl⟩
  rcases h with h | ⟨_, h⟩
  · exact h
  · exact absurd h (by decide)

/-- C139 for deques and queues: the same. -/
theorem C139_deque_layout_iff (A : Lay) (hA : A.Valid) :
    SameLayout (dequeFields A) (cxxDeque A) ↔ 0 < A.size := by
  have h := sameLayout_last_iff
    [ptrLay, u32Lay, structLay dequeIterFields, structLay dequeIterFields] hA (by decide) (by decide)
  refine h.trans ⟨fun h => ?_, .inl⟩
  rcases h with h | ⟨_, h⟩
  · exact h
  · exact absurd h (by decide)

/-- C139 for lists: an allocator without fields does no harm unless it is aligned to more than 4
bytes, because it is placed in padding. -/
theorem C139_list_layout_iff (A : Lay) (hA : A.Valid) :
    SameLayout (listFields A) (cxxList A) ↔ 0 < A.size ∨ A.align ≤ 4 := by
  have h := sameLayout_last_iff [listNodeBase, u32Lay] hA (by decide) (by decide)
  refine h.trans ⟨fun h => h.imp_right And.left, fun h => h.imp_right fun h => ⟨h, by decide⟩⟩

/-- C139 for hash maps and hash sets: as for lists. -/
theorem C139_hash_table_layout_iff (A : Lay) (hA : A.Valid) :
    SameLayout (hashTableFields A) (cxxHashTable A) ↔ 0 < A.size ∨ A.align ≤ 4 := by
  have h := sameLayout_last_iff [u8Lay, ptrLay, u32Lay, u32Lay, policyLay] hA (by decide) (by decide)
  refine h.trans ⟨fun h => h.imp_right And.left, fun h => h.imp_right fun h => ⟨h, by decide⟩⟩

/-- C139 for maps, with a comparator that is not over-aligned: the comparator must take space, and
the allocator is as in a list. -/
theorem C139_tree_layout_iff (C A : Lay) (hC : C.Valid) (h8 : C.align ≤ 8) (hA : A.Valid) :
    SameLayout (treeFields C A) (cxxTree C A) ↔ 0 < C.size ∧ (0 < A.size ∨ A.align ≤ 4) := by
  rcases Nat.eq_zero_or_pos C.size with h0 | h0
  · refine ⟨fun h => ?_, fun h => absurd h.1 (by omega)⟩
    have h1 := congrArg (fun l => l[1]?) h.1
    have hd : C.align ∣ 8 := pow2_dvd hC.1 ⟨3, rfl⟩ h8
    have hp := hC.pos
    simp only [treeFields, cxxTree, offsets, offsetsFrom, cxxClass_zero h0, alignUp_zero, h0,
      List.getElem?_cons_succ, List.getElem?_cons_zero, Option.some.injEq, Nat.zero_add, ptrLay] at h1
    have := le_alignUp (x := C.align) (a := 8) (by decide)
    omega
  · have hm : maxAlign [C, ptrLay, ptrLay, ptrLay, u32Lay] = 8 := by
      show max C.align (max 8 (max 8 (max 8 (max 4 1)))) = 8
      omega
    have he : endFrom 0 [C, ptrLay, ptrLay, ptrLay, u32Lay] = Spec.alignUp C.size 8 + 28 := by
      have hd := Spec.alignUp_dvd C.size 8
      simp only [endFrom, alignUp_zero, Nat.zero_add, ptrLay, u32Lay]
      generalize Spec.alignUp C.size 8 = x at *
      rw [Spec.alignUp_eq (x := x + 8) (by decide) (by omega),
        Spec.alignUp_eq (x := x + 8 + 8) (by decide) (by omega),
        Spec.alignUp_eq (x := x + 8 + 8 + 8) (by decide) (by omega)]
    have hd := Spec.alignUp_dvd C.size 8
    have h := sameLayout_last_iff [C, ptrLay, ptrLay, ptrLay, u32Lay] hA hm (by rw [he]; omega)
    rw [he] at h
    have e : cxxTree C A = [C, ptrLay, ptrLay, ptrLay, u32Lay] ++ [cxxClass A] := by
      rw [cxxTree, cxxClass_pos h0]; rfl
    rw [e]
    refine h.trans ⟨fun h => ⟨h0, h.imp_right And.left⟩,
      fun h => h.2.imp_right fun h => ⟨h, by omega⟩⟩

/-- C139 for vector maps, with an allocator and a comparator that are not over-aligned: both must take
space. -/
theorem C139_vector_map_layout_iff (A C : Lay) (hA : A.Valid) (hA8 : A.align ≤ 8) (hC : C.Valid)
    (hC8 : C.align ≤ 8) :
    SameLayout (vectorMapFields A C) (cxxVectorMap A C) ↔ 0 < A.size ∧ 0 < C.size := by
  have hdA : A.align ∣ 8 := pow2_dvd hA.1 ⟨3, rfl⟩ hA8
  have hdC : C.align ∣ 8 := pow2_dvd hC.1 ⟨3, rfl⟩ hC8
  have hpA := hA.pos
  have hpC := hC.pos
  rcases Nat.eq_zero_or_pos A.size with h0 | h0
  · refine ⟨fun h => ?_, fun h => absurd h.1 (by omega)⟩
    have e1 : Spec.alignUp 24 A.align = 24 := Spec.alignUp_eq hpA (hdA.trans (by decide))
    have h1 : (structLay (vectorFields A)).size = 24 := by
      have hm : max 8 (max 8 (max 8 (max A.align 1))) = 8 := by omega
      show Spec.alignUp (Spec.alignUp 24 A.align + A.size) (max 8 (max 8 (max 8 (max A.align 1)))) = 24
      rw [e1, h0, hm]; rfl
    have h2 : (structLay (cxxVector A)).size = 32 := by
      have hm : max 8 (max 8 (max 8 (max A.align 1))) = 8 := by omega
      rw [cxxVector, cxxClass_zero h0]
      show Spec.alignUp (Spec.alignUp 24 A.align + A.align) (max 8 (max 8 (max 8 (max A.align 1)))) = 32
      rw [e1, hm]
      simp only [Spec.alignUp]; omega
    have h3 := congrArg (fun l => l[1]?) h.1
    simp only [vectorMapFields, cxxVectorMap, offsets, offsetsFrom, alignUp_zero, Nat.zero_add, h1, h2,
      cxxClass_align, List.getElem?_cons_succ, List.getElem?_cons_zero, Option.some.injEq] at h3
    rw [Spec.alignUp_eq hpC (hdC.trans (by decide)),
      Spec.alignUp_eq hpC (hdC.trans (by decide))] at h3
    omega
  · have hm : (structLay (vectorFields A)).align = 8 := by
      show max 8 (max 8 (max 8 (max A.align 1))) = 8
      omega
    have hd : 8 ∣ (structLay (vectorFields A)).size := hm ▸ Spec.alignUp_dvd _ _
    have e : endFrom 0 [structLay (vectorFields A)] = (structLay (vectorFields A)).size := by
      simp [endFrom, alignUp_zero]
    have h := sameLayout_last_iff [structLay (vectorFields A)] hC
      (by show max (structLay (vectorFields A)).align 1 = 8; omega) (by rw [e]; omega)
    have ec : cxxVectorMap A C = [structLay (vectorFields A)] ++ [cxxClass C] := by
      rw [cxxVectorMap, cxxVector, cxxClass_pos h0]; rfl
    rw [ec]
    rw [e] at h
    refine h.trans ⟨fun h => ⟨h0, ?_⟩, fun h => .inl h.2⟩
    rcases h with h | ⟨_, h⟩
    · exact h
    · omega

/-- C139 for the allocator of fixed lists and maps: the overflow allocator must take space. -/
theorem C139_overflow_pool_layout_iff (O : Lay) (hO : O.Valid) :
    SameLayout (overflowPoolFields O) (cxxOverflowPool O) ↔ 0 < O.size := by
  constructor
  · rintro ⟨h, _⟩
    rcases Nat.eq_zero_or_pos O.size with h0 | h0
    · exfalso
      have h1 := congrArg (fun l => l[2]?) h
      simp only [overflowPoolFields, cxxOverflowPool, offsets, offsetsFrom, cxxClass_zero h0,
        alignUp_zero, h0, List.getElem?_cons_succ, List.getElem?_cons_zero, Option.some.injEq,
        Nat.zero_add, ptrLay, Nat.add_zero] at h1
      have hs : fixedPoolLay.size = 24 := by decide
      have hs' : (structLay [⟨8, 8⟩, ⟨8, 8⟩, ⟨8, 8⟩]).size = 24 := by decide
      rw [hs, hs'] at h1
      rcases pow2_cases hO.1 with e | e | e | h8
      · rw [e] at h1; exact absurd h1 (by decide)
      · rw [e] at h1; exact absurd h1 (by decide)
      · rw [e] at h1; exact absurd h1 (by decide)
      · have hd := h8.trans (Spec.alignUp_dvd 24 O.align)
        rw [Spec.alignUp_eq (by decide) hd,
          Spec.alignUp_eq (by decide) (Nat.dvd_add hd h8)] at h1
        have := hO.pos
        omega
    · exact h0
  · intro h
    rw [SameLayout, cxxOverflowPool, cxxClass_pos h]
    exact ⟨rfl, rfl⟩

/-- C139 for the allocator of fixed vectors: likewise. -/
theorem C139_fixed_vector_allocator_layout_iff (O : Lay) (hO : O.Valid) :
    SameLayout (fixedVectorAllocatorFields O) (cxxFixedVectorAllocator O) ↔ 0 < O.size := by
  constructor
  · rintro ⟨h, _⟩
    rcases Nat.eq_zero_or_pos O.size with h0 | h0
    · exfalso
      have h1 := congrArg (fun l => l[1]?) h
      simp only [fixedVectorAllocatorFields, cxxFixedVectorAllocator, offsets, offsetsFrom,
        cxxClass_zero h0, alignUp_zero, h0, List.getElem?_cons_succ, List.getElem?_cons_zero,
        Option.some.injEq, Nat.zero_add, ptrLay] at h1
      have := le_alignUp (x := O.align) (a := 8) (by decide)
      have := hO.pos
      omega
    · exact h0
  · intro h
    rw [SameLayout, cxxFixedVectorAllocator, cxxClass_pos h]
    exact ⟨rfl, rfl⟩

/-- C139, what the tests check for one element type, in bytes.  With the default allocator the
offsets of the fields and the size of the object, which do not depend on the types of elements, keys
and values. -/
theorem C139_default_allocator :
    defaultAllocatorLay = cxxClass ⟨0, 1⟩ ∧
    offsets (vectorFields defaultAllocatorLay) = [0, 8, 16, 24] ∧
    (structLay (vectorFields defaultAllocatorLay)).size = 32 ∧
    offsets (dequeFields defaultAllocatorLay) = [0, 8, 16, 48, 80] ∧
    (structLay (dequeFields defaultAllocatorLay)).size = 88 ∧
    offsets (listFields defaultAllocatorLay) = [0, 16, 20] ∧
    (structLay (listFields defaultAllocatorLay)).size = 24 ∧
    offsets (hashTableFields defaultAllocatorLay) = [0, 8, 16, 20, 24, 36] ∧
    (structLay (hashTableFields defaultAllocatorLay)).size = 40 ∧
    offsets (treeFields u8Lay defaultAllocatorLay) = [0, 8, 16, 24, 32, 36] ∧
    (structLay (treeFields u8Lay defaultAllocatorLay)).size = 40 ∧
    offsets (vectorMapFields defaultAllocatorLay u8Lay) = [0, 32] ∧
    (structLay (vectorMapFields defaultAllocatorLay u8Lay)).size = 40 := by
  decide

/-- C139 is false: `String`, `Set`, the allocator inside a `String` and the comparators are not
`repr(C)`.  For every layout of what they contain, Rust may place it at an offset other than 0. -/
theorem C139_wrapper_layout_unspecified (l : Lay) (hl : l.Valid) :
    ∃ W : WrapLay l, W.offset ≠ 0 ∧ W.lay ≠ l := by
  refine ⟨⟨l.align, ⟨l.align + l.size, l.align⟩, ⟨hl.1, Nat.dvd_add (Nat.dvd_refl _) hl.2⟩,
    Nat.dvd_refl _, Nat.dvd_refl _, Nat.le_refl _⟩, Nat.ne_of_gt hl.pos, fun h => ?_⟩
  have := congrArg Lay.size h
  have := hl.pos
  simp only at *
  omega

/-- C139, the part that is true: with an allocator and a comparator that take space, every container
object is laid out as in C++.  Missing: allocators and comparators without fields, and the types that
are not `repr(C)`. -/
theorem C139_layout_partial (A C : Lay) (hA : 0 < A.size) (hC : 0 < C.size) :
    SameLayout (vectorFields A) (cxxVector A) ∧ SameLayout (dequeFields A) (cxxDeque A) ∧
      SameLayout (listFields A) (cxxList A) ∧ SameLayout (hashTableFields A) (cxxHashTable A) ∧
      SameLayout (treeFields C A) (cxxTree C A) ∧
      SameLayout (vectorMapFields A C) (cxxVectorMap A C) ∧
      SameLayout (overflowPoolFields A) (cxxOverflowPool A) ∧
      SameLayout (fixedVectorAllocatorFields A) (cxxFixedVectorAllocator A) := by
  simp only [cxxVector, cxxDeque, cxxList, cxxHashTable, cxxTree, cxxVectorMap, cxxOverflowPool,
    cxxFixedVectorAllocator, cxxClass_pos hA, cxxClass_pos hC]
  exact ⟨⟨rfl, rfl⟩, ⟨rfl, rfl⟩, ⟨rfl, rfl⟩, ⟨rfl, rfl⟩, ⟨rfl, rfl⟩, ⟨rfl, rfl⟩, ⟨rfl, rfl⟩, ⟨rfl, rfl⟩⟩

/-- An allocator of two words, and one without fields. -/
example : (⟨16, 8⟩ : Lay).Valid ∧ SameLayout (vectorFields ⟨16, 8⟩) (cxxVector ⟨16, 8⟩) ∧
    (⟨0, 1⟩ : Lay).Valid ∧ ¬ SameLayout (vectorFields ⟨0, 1⟩) (cxxVector ⟨0, 1⟩) ∧
    structLay (vectorFields ⟨0, 1⟩) = ⟨24, 8⟩ ∧ structLay (cxxVector ⟨0, 1⟩) = ⟨32, 8⟩ ∧
    SameLayout (listFields ⟨0, 1⟩) (cxxList ⟨0, 1⟩) ∧
    offsets (treeFields ⟨0, 1⟩ ⟨1, 1⟩) = [0, 0, 8, 16, 24, 28] ∧
    offsets (cxxTree ⟨0, 1⟩ ⟨1, 1⟩) = [0, 8, 16, 24, 32, 36] := by
  refine ⟨⟨⟨3, rfl⟩, 2, rfl⟩, ⟨by decide, by decide⟩, ⟨⟨0, rfl⟩, 0, rfl⟩, fun h => ?_, by decide,
    by decide, ⟨by decide, by decide⟩, by decide, by decide⟩
  exact absurd h.2 (by decide)

end Verif
