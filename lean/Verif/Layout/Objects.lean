import Verif.Layout.Fixed
import Verif.Spec.Objects

/-! The layouts of the container objects. -/

set_option autoImplicit false

namespace Verif
open Spec

/-- The fields of `Vector<T, A>`, `repr(C)` (src/vector/mod.rs:20-30); a `PhantomData` takes no
space. -/
def vectorFields (A : Lay) : List Lay := [ptrLay, ptrLay, ptrLay, A]

/-- The fields of the deque's `CompatIter` and `CompatIterMut`, `repr(C)` (src/deque/iter.rs:9-16,
45-52). -/
def dequeIterFields : List Lay := [ptrLay, ptrLay, ptrLay, ptrLay]

/-- The fields of `Deque<T, A>`, `repr(C)` (src/deque/mod.rs:13-20), which is all there is in a
`Queue` (src/queue.rs:10-13). -/
def dequeFields (A : Lay) : List Lay :=
  [ptrLay, u32Lay, structLay dequeIterFields, structLay dequeIterFields, A]

/-- The fields of `List<T, A>`, `repr(C)` (src/list/mod.rs:17-24). -/
def listFields (A : Lay) : List Lay := [listNodeBase, u32Lay, A]

/-- `u8`. -/
def u8Lay : Lay := ⟨1, 1⟩

/-- `PrimeRehashPolicy`, `repr(C)` (src/internal/hash_table/rehash_policy.rs:5-10). -/
def policyLay : Lay := structLay [⟨4, 4⟩, ⟨4, 4⟩, u32Lay]

/-- The fields of `HashTable<K, V, A, H, E>`, `repr(C)` (src/internal/hash_table/mod.rs:29-46), which
is all there is in a `HashMap` (src/hash_map/mod.rs:21-30) and a `HashSet`
(src/hash_set/mod.rs:18-26). -/
def hashTableFields (A : Lay) : List Lay := [u8Lay, ptrLay, u32Lay, u32Lay, policyLay, A]

/-- The fields of `RBTree<K, V, A, C>`, `repr(C)` (src/internal/rb_tree/mod.rs:14-27), which is all
there is in a `Map` (src/map/mod.rs:15-18). -/
def treeFields (C A : Lay) : List Lay := [C, ptrLay, ptrLay, ptrLay, u32Lay, A]

/-- The fields of `FixedPoolWithOverflow<Node, O>`, `repr(C)` (src/fixed_pool/with_overflow.rs:7-12). -/
def overflowPoolFields (O : Lay) : List Lay := [fixedPoolLay, O, ptrLay]

/-- The fields of `FixedVectorAllocator<A>`, `repr(C)` (src/fixed_vector/allocator.rs:6-11). -/
def fixedVectorAllocatorFields (O : Lay) : List Lay := [O, ptrLay]

/-- `DefaultAllocator`, `repr(C)` (src/allocator.rs:88-93). -/
def defaultAllocatorLay : Lay := structLay [u8Lay]

/-- The fields of `VectorMap<K, V, A, C>`, `repr(C)` (src/vector_map/mod.rs:17-21). -/
def vectorMapFields (A C : Lay) : List Lay := [structLay (vectorFields A), C]

/-! ## Facts -/

theorem pow2_cases {a : Nat} (h : ∃ k, a = 2 ^ k) : a = 1 ∨ a = 2 ∨ a = 4 ∨ 8 ∣ a := by
  obtain ⟨k, rfl⟩ := h
  match k with
  | 0 => exact .inl rfl
  | 1 => exact .inr (.inl rfl)
  | 2 => exact .inr (.inr (.inl rfl))
  | k + 3 => exact .inr (.inr (.inr ⟨2 ^ k, by rw [Nat.pow_add, Nat.mul_comm]⟩))

theorem alignUp_add_self {y a : Nat} (ha : 0 < a) (hd : a ∣ y) : Spec.alignUp (y + a) a = y + a :=
  Spec.alignUp_eq ha (Nat.dvd_add hd (Nat.dvd_refl a))

/-- Whether one more item of `a` bytes fits in the padding behind `x`. -/
theorem tail_iff {x a : Nat} (ha : ∃ k, a = 2 ^ k) (hx : 4 ∣ x) :
    Spec.alignUp (Spec.alignUp x a) (max 8 a) = Spec.alignUp (Spec.alignUp x a + a) (max 8 a) ↔
      a ≤ 4 ∧ x % 8 = 4 := by
  rcases pow2_cases ha with rfl | rfl | rfl | h8
  · simp only [show max 8 1 = 8 from rfl, Spec.alignUp]; omega
  · simp only [show max 8 2 = 8 from rfl, Spec.alignUp]; omega
  · simp only [show max 8 4 = 8 from rfl, Spec.alignUp]; omega
  · have hpos : 0 < a := by obtain ⟨k, rfl⟩ := ha; exact Nat.two_pow_pos k
    have hge : 8 ≤ a := Nat.le_of_dvd hpos h8
    rw [max_eq_right hge, alignUp_add_self hpos (Spec.alignUp_dvd x a),
      Spec.alignUp_eq hpos (Spec.alignUp_dvd x a)]
    omega

theorem cxxClass_pos {A : Lay} (h : 0 < A.size) : cxxClass A = A := by
  unfold cxxClass
  rw [if_neg (by omega)]

theorem cxxClass_zero {A : Lay} (h : A.size = 0) : cxxClass A = ⟨A.align, A.align⟩ := by
  unfold cxxClass
  rw [if_pos h]

theorem cxxClass_align (A : Lay) : (cxxClass A).align = A.align := by
  unfold cxxClass; split <;> rfl

theorem offsetsFrom_append (fs gs : List Lay) : ∀ x,
    offsetsFrom x (fs ++ gs) = offsetsFrom x fs ++ offsetsFrom (endFrom x fs) gs := by
  induction fs with
  | nil => intro x; rfl
  | cons f fs ih => intro x; simp [offsetsFrom, endFrom, ih]

theorem endFrom_append (fs gs : List Lay) : ∀ x,
    endFrom x (fs ++ gs) = endFrom (endFrom x fs) gs := by
  induction fs with
  | nil => intro x; rfl
  | cons f fs ih => intro x; simp [endFrom, ih]

theorem maxAlign_append (fs gs : List Lay) :
    maxAlign (fs ++ gs) = max (maxAlign fs) (maxAlign gs) := by
  induction fs with
  | nil => have := maxAlign_pos gs; show _ = max 1 _; rw [List.nil_append]; omega
  | cons f fs ih => rw [List.cons_append, maxAlign_cons, maxAlign_cons, ih]; omega

theorem maxAlign_single {A : Lay} (hA : A.Valid) : maxAlign [A] = A.align := by
  have := hA.pos
  show max A.align 1 = _
  omega

/-- Objects that end with an allocator. -/
theorem sameLayout_last_iff (fs : List Lay) {A : Lay} (hA : A.Valid) (h8 : maxAlign fs = 8)
    (h4 : 4 ∣ endFrom 0 fs) :
    SameLayout (fs ++ [A]) (fs ++ [cxxClass A]) ↔
      0 < A.size ∨ A.align ≤ 4 ∧ endFrom 0 fs % 8 = 4 := by
  rcases Nat.eq_zero_or_pos A.size with h0 | h0
  · have hv : (cxxClass A).Valid := by
      rw [cxxClass_zero h0]; exact ⟨hA.1, Nat.dvd_refl _⟩
    have ho : offsets (fs ++ [A]) = offsets (fs ++ [cxxClass A]) := by
      simp [offsets, offsetsFrom_append, offsetsFrom, cxxClass_align]
    have h1 : structLay (fs ++ [A]) =
        ⟨Spec.alignUp (Spec.alignUp (endFrom 0 fs) A.align) (max 8 A.align), max 8 A.align⟩ := by
      simp [structLay, endFrom_append, endFrom, maxAlign_append, maxAlign_single hA, h8, h0]
    have h2 : structLay (fs ++ [cxxClass A]) =
        ⟨Spec.alignUp (Spec.alignUp (endFrom 0 fs) A.align + A.align) (max 8 A.align),
          max 8 A.align⟩ := by
      rw [structLay, maxAlign_append, maxAlign_single hv, h8, endFrom_append, cxxClass_align]
      simp [endFrom, cxxClass_zero h0]
    rw [SameLayout, h1, h2, Lay.mk.injEq, tail_iff hA.1 h4]
    constructor
    · rintro ⟨_, h, _⟩; exact .inr h
    · rintro (h | h)
      · omega
      · exact ⟨ho, h, rfl⟩
  · rw [cxxClass_pos h0]
    exact ⟨fun _ => .inl h0, fun _ => ⟨rfl, rfl⟩⟩

end Verif
