import Verif.Layout.Lemmas
import Verif.Pool.Proofs

/-! The layouts of the containers that carry their nodes with them. -/

set_option autoImplicit false

namespace Verif
open Spec

/-- `u32`. -/
def u32Lay : Lay := ⟨4, 4⟩

/-- `ListNodeBase` (src/list/node.rs:3-7). -/
def listNodeBase : Lay := structLay [ptrLay, ptrLay]

/-- `ListNode<T>` (src/list/node.rs:35-39). -/
def listNode (T : Lay) : Lay := structLay [listNodeBase, T]

/-- `List<T, A>` (src/list/mod.rs:17-24); a `PhantomData` takes no space. -/
def listHead (A : Lay) : Lay := structLay [listNodeBase, u32Lay, A]

/-- `FixedPool<Node>` (src/fixed_pool/mod.rs:21-27). -/
def fixedPoolLay : Lay := structLay [ptrLay, ptrLay, ptrLay]

/-- `FixedPoolWithOverflow<Node, O>` (src/fixed_pool/with_overflow.rs:7-12). -/
def overflowPoolLay (O : Lay) : Lay := structLay [fixedPoolLay, O, ptrLay]

/-- The tree's `Node<K, V>` (src/internal/rb_tree/node.rs:24-29, 85-92). -/
def treeNode {K V : Lay} (T : TupleLay K V) : Lay := structLay [ptrLay, ptrLay, ptrLay, T.lay]

/-- `RBTree<K, V, A, C>` (src/internal/rb_tree/mod.rs:14-27), which is all there is in a `Map`
(src/map/mod.rs:15-18). -/
def treeHead (C A : Lay) : Lay := structLay [C, ptrLay, ptrLay, ptrLay, u32Lay, A]

/-- The fields of a struct with `header`, `buffer: [MaybeUninit<Node>; N]` and
`_pad: MaybeUninit<Node>`. -/
def nodeBuffered (head node : Lay) (N : Nat) : List Lay :=
  [head, ⟨N * node.size, node.align⟩, node]

/-- The fields of `FixedList<T, N, O>` (src/fixed_list/mod.rs:20-30). -/
def fixedListFields (T : Lay) (N : Nat) (O : Lay) : List Lay :=
  nodeBuffered (listHead (overflowPoolLay O)) (listNode T) N

/-- The fields of `conformant::FixedList<T, N, O>` (src/fixed_list/conformant.rs:16-26). -/
def conformantListFields (T : Lay) (N : Nat) (O : Lay) : List Lay :=
  [listHead (overflowPoolLay O), ⟨(N + 1) * (listNode T).size - 1, 1⟩]

/-- The fields of `FixedMapImpl<K, V, N, A, C>` (src/fixed_map/mod.rs:24-41). -/
def fixedMapFields {K V : Lay} (T : TupleLay K V) (N : Nat) (A C : Lay) : List Lay :=
  nodeBuffered (treeHead C A) (treeNode T) N

/-- The pool of a `FixedList` at address `a` after `new_in`: `init` on the bytes of `buffer`
(src/fixed_list/mod.rs:54-62). -/
def fixedListPool (T : Lay) (N : Nat) (O : Lay) (a : Nat) : Exec Pool :=
  Pool.init (listNode T).size (listNode T).align (a + (offsets (fixedListFields T N O)).getD 1 0)
    (N * (listNode T).size)

/-- The same of a `conformant::FixedList` (src/fixed_list/conformant.rs:54-59). -/
def conformantListPool (T : Lay) (N : Nat) (O : Lay) (a : Nat) : Exec Pool :=
  Pool.init (listNode T).size (listNode T).align
    (a + (offsets (conformantListFields T N O)).getD 1 0) ((N + 1) * (listNode T).size - 1)

/-- The same of a `FixedMap` (src/fixed_map/mod.rs:64-75). -/
def fixedMapPool {K V : Lay} (T : TupleLay K V) (N : Nat) (A C : Lay) (a : Nat) : Exec Pool :=
  Pool.init (treeNode T).size (treeNode T).align
    (a + (offsets (fixedMapFields T N A C)).getD 1 0) (N * (treeNode T).size)

/-! ## Facts -/

theorem maxAlign_pos (fs : List Lay) : 1 ≤ maxAlign fs := by
  induction fs with
  | nil => exact Nat.le_refl 1
  | cons f fs ih =>
    show 1 ≤ max f.align (maxAlign fs)
    omega

theorem maxAlign_cons (f : Lay) (fs : List Lay) : maxAlign (f :: fs) = max f.align (maxAlign fs) :=
  rfl

theorem maxAlign_pow2 {fs : List Lay} (h : ∀ f ∈ fs, f.Valid) : ∃ k, maxAlign fs = 2 ^ k := by
  induction fs with
  | nil => exact ⟨0, rfl⟩
  | cons f fs ih =>
    rw [maxAlign_cons]
    exact pow2_max (h f (by simp)).1 (ih fun g hg => h g (by simp [hg]))

theorem structLay_valid' {fs : List Lay} (h : ∀ f ∈ fs, f.Valid) : (structLay fs).Valid :=
  ⟨maxAlign_pow2 h, alignUp_dvd _ _⟩

theorem ptrLay_valid : ptrLay.Valid := ⟨⟨3, rfl⟩, 1, rfl⟩

theorem u32Lay_valid : u32Lay.Valid := ⟨⟨2, rfl⟩, 1, rfl⟩

theorem listNodeBase_eq : listNodeBase = ⟨16, 8⟩ := by decide

theorem fixedPoolLay_eq : fixedPoolLay = ⟨24, 8⟩ := by decide

theorem listNodeBase_valid : listNodeBase.Valid := by
  rw [listNodeBase_eq]; exact ⟨⟨3, rfl⟩, 2, rfl⟩

theorem listNode_valid {T : Lay} (hT : T.Valid) : (listNode T).Valid := by
  refine structLay_valid' ?_
  simp [listNodeBase_valid, hT]

theorem overflowPoolLay_valid {O : Lay} (hO : O.Valid) : (overflowPoolLay O).Valid := by
  refine structLay_valid' ?_
  have : fixedPoolLay.Valid := by rw [fixedPoolLay_eq]; exact ⟨⟨3, rfl⟩, 3, rfl⟩
  simp [this, hO, ptrLay_valid]

theorem listHead_valid {A : Lay} (hA : A.Valid) : (listHead A).Valid := by
  refine structLay_valid' ?_
  simp [listNodeBase_valid, u32Lay_valid, hA]

theorem treeNode_valid {K V : Lay} (T : TupleLay K V) : (treeNode T).Valid := by
  refine structLay_valid' ?_
  simp [ptrLay_valid, T.valid]

theorem treeHead_valid {C A : Lay} (hC : C.Valid) (hA : A.Valid) : (treeHead C A).Valid := by
  refine structLay_valid' ?_
  simp [ptrLay_valid, u32Lay_valid, hA, hC]

theorem listNode_align (T : Lay) : (listNode T).align = max 8 T.align := by
  show max listNodeBase.align (max T.align 1) = _
  rw [listNodeBase_eq]
  show max 8 (max T.align 1) = _
  omega

theorem listHead_align (O : Lay) : (listHead (overflowPoolLay O)).align = max 8 O.align := by
  show max listNodeBase.align (max 4 (max (max fixedPoolLay.align (max O.align (max 8 1))) 1)) = _
  rw [listNodeBase_eq, fixedPoolLay_eq]
  show max 8 (max 4 (max (max 8 (max O.align (max 8 1))) 1)) = _
  omega

theorem treeNode_align {K V : Lay} (T : TupleLay K V) : (treeNode T).align = max 8 T.lay.align := by
  show max 8 (max 8 (max 8 (max T.lay.align 1))) = _
  omega

theorem treeHead_align (C A : Lay) : (treeHead C A).align = max 8 (max C.align A.align) := by
  show max C.align (max 8 (max 8 (max 8 (max 4 (max A.align 1))))) = _
  omega

theorem endFrom_le {x : Nat} {fs : List Lay} (h : ∀ f ∈ fs, 0 < f.align) : x ≤ endFrom x fs := by
  induction fs generalizing x with
  | nil => exact Nat.le_refl _
  | cons f fs ih =>
    have h1 := le_alignUp (x := x) (h f (by simp))
    have h2 := ih (x := Spec.alignUp x f.align + f.size) fun g hg => h g (by simp [hg])
    show x ≤ endFrom (Spec.alignUp x f.align + f.size) fs
    omega

/-- Every node holds at least two words. -/
theorem listNode_size {T : Lay} (hT : T.Valid) : 16 ≤ (listNode T).size := by
  have h1 : (16 : Nat) ≤ endFrom 0 [listNodeBase, T] := by
    rw [listNodeBase_eq]
    show 16 ≤ endFrom (Spec.alignUp 0 8 + 16) [T]
    rw [alignUp_zero]
    exact endFrom_le (by simp [hT.pos])
  exact h1.trans (le_alignUp (maxAlign_pos _))

theorem treeNode_size {K V : Lay} (T : TupleLay K V) : 24 ≤ (treeNode T).size := by
  have h1 : (24 : Nat) ≤ endFrom 0 [ptrLay, ptrLay, ptrLay, T.lay] := by
    show 24 ≤ endFrom (Spec.alignUp (Spec.alignUp (Spec.alignUp 0 8 + 8) 8 + 8) 8 + 8) [T.lay]
    refine Nat.le_trans ?_ (endFrom_le (by simp [T.valid.pos]))
    decide
  exact h1.trans (le_alignUp (maxAlign_pos _))

/-- What is left after rounding `x` up to a multiple of `a` if `a` does not divide `x - 1`. -/
theorem alignUp_pred {x a : Nat} (ha : 0 < a) (hx : 0 < x) (h : ¬ a ∣ x - 1) :
    Spec.alignUp (x - 1) a = Spec.alignUp x a := by
  apply Nat.le_antisymm
  · exact alignUp_le ha (alignUp_dvd _ _) ((Nat.sub_le x 1).trans (le_alignUp ha))
  · refine alignUp_le ha (alignUp_dvd _ _) ?_
    have h1 := le_alignUp (x := x - 1) ha
    rcases Nat.lt_or_ge (Spec.alignUp (x - 1) a) x with h2 | h2
    · have h3 : Spec.alignUp (x - 1) a = x - 1 := by omega
      exact absurd (h3 ▸ alignUp_dvd (x - 1) a) h
    · exact h2

section
variable {head node : Lay} (N : Nat)

theorem nodeBuffered_align : (structLay (nodeBuffered head node N)).align =
    max head.align (max node.align 1) := by
  show max head.align (max node.align (max node.align 1)) = _
  omega

theorem byteBuffered_align (hh : head.Valid) :
    (structLay (byteBuffered head node N)).align = head.align := by
  have := hh.pos
  show max head.align (max 1 1) = _
  omega

theorem nodeBuffered_offset :
    (offsets (nodeBuffered head node N))[1]? = some (Spec.alignUp head.size node.align) := by
  simp [offsets, nodeBuffered, offsetsFrom]

theorem byteBuffered_offset : (offsets (byteBuffered head node N))[1]? = some head.size := by
  simp [offsets, byteBuffered, offsetsFrom, Spec.alignUp_eq]

theorem nodeBuffered_end (hn : node.Valid) : endFrom 0 (nodeBuffered head node N) =
    Spec.alignUp head.size node.align + (N + 1) * node.size := by
  simp only [nodeBuffered, endFrom, alignUp_zero, Nat.zero_add]
  rw [Spec.alignUp_eq (x := Spec.alignUp head.size node.align + N * node.size) hn.pos]
  · ring
  · exact Nat.dvd_add (alignUp_dvd _ _) (Nat.dvd_mul_left_of_dvd hn.2 N)

theorem byteBuffered_end : endFrom 0 (byteBuffered head node N) =
    head.size + ((N + 1) * node.size - 1) := by
  simp [byteBuffered, endFrom, Spec.alignUp_eq]

theorem sameShape_iff (hh : head.Valid) (hn : node.Valid) (h2 : 2 ≤ node.align)
    (hs : 0 < node.size) :
    SameShape (nodeBuffered head node N) (byteBuffered head node N) ↔ node.align ≤ head.align := by
  constructor
  · rintro ⟨h, _⟩
    have := congrArg Lay.align h
    rw [nodeBuffered_align, byteBuffered_align N hh] at this
    omega
  · intro hle
    have hd : node.align ∣ head.align := pow2_dvd hn.1 hh.1 hle
    have ho : Spec.alignUp head.size node.align = head.size := Spec.alignUp_eq hn.pos (hd.trans hh.2)
    refine ⟨?_, by rw [nodeBuffered_offset, byteBuffered_offset, ho]⟩
    have ha := nodeBuffered_align (head := head) (node := node) N
    have hb := byteBuffered_align (node := node) N hh
    have hab : (structLay (nodeBuffered head node N)).align = head.align := by
      have := hn.pos
      omega
    have h1 : (structLay (nodeBuffered head node N)).size =
        (structLay (byteBuffered head node N)).size := by
      show Spec.alignUp (endFrom 0 _) (structLay (nodeBuffered head node N)).align =
        Spec.alignUp (endFrom 0 _) (structLay (byteBuffered head node N)).align
      rw [hab, hb, nodeBuffered_end N hn, byteBuffered_end, ho]
      have hpos : 0 < (N + 1) * node.size := Nat.mul_pos (by omega) hs
      have e : head.size + ((N + 1) * node.size - 1) = head.size + (N + 1) * node.size - 1 := by
        omega
      rw [e, alignUp_pred hh.pos (by omega)]
      intro hdv
      have h3 : node.align ∣ head.size + (N + 1) * node.size :=
        Nat.dvd_add (hd.trans hh.2) (Nat.dvd_mul_left_of_dvd hn.2 _)
      have h4 := (Nat.dvd_sub h3 (hd.trans hdv))
      have h5 : head.size + (N + 1) * node.size - (head.size + (N + 1) * node.size - 1) = 1 := by
        omega
      rw [h5] at h4
      have := Nat.le_of_dvd (by omega) h4
      omega
    cases hx : structLay (nodeBuffered head node N)
    cases hy : structLay (byteBuffered head node N)
    rw [hx, hy] at h1
    rw [hx] at hab
    rw [hy] at hb
    simp_all

/-- A pool made of the buffer of nodes. -/
theorem nodeBuffered_pool (hn : node.Valid) (h8 : 8 ≤ node.size) {a : Nat}
    (ha : (structLay (nodeBuffered head node N)).align ∣ a)
    (hb : a + (structLay (nodeBuffered head node N)).size < 2 ^ 64) (hh : head.Valid) :
    ∃ s, Pool.init node.size node.align (a + Spec.alignUp head.size node.align) (N * node.size) = .ok s ∧
      s.head = 0 ∧ s.next = a + Spec.alignUp head.size node.align ∧ node.align ∣ s.next ∧
      s.capacity = s.next + N * node.size ∧
      s.capacity + node.size ≤ a + (structLay (nodeBuffered head node N)).size := by
  have hnp := hn.pos
  have hd : node.align ∣ a := by
    refine (pow2_dvd hn.1 ?_ ?_).trans ha
    · rw [nodeBuffered_align]
      exact pow2_max hh.1 (pow2_max hn.1 ⟨0, rfl⟩)
    · rw [nodeBuffered_align]; omega
  have hd' : node.align ∣ a + Spec.alignUp head.size node.align := Nat.dvd_add hd (alignUp_dvd _ _)
  have hr := roundUp_of_dvd hnp hd'
  have he : Spec.alignUp head.size node.align + (N + 1) * node.size ≤
      (structLay (nodeBuffered head node N)).size := by
    rw [← nodeBuffered_end N hn]
    exact le_alignUp (maxAlign_pos _)
  have hls : node.align ≤ node.size := Nat.le_of_dvd (by omega) hn.2
  have hm : (N + 1) * node.size = N * node.size + node.size := by ring
  obtain ⟨s, hs⟩ := Pool.init_total (size := node.size) (align := node.align)
    (mem := a + Spec.alignUp head.size node.align) (len := N * node.size) hn.1 (by omega) h8
    (by rw [hr]; omega)
  obtain ⟨_, _, _, h1, h2, h3⟩ := Pool.init_ok hs
  rw [hr] at h2 h3
  have hroom : roomFor node.size node.align (a + Spec.alignUp head.size node.align) (N * node.size) = N := by
    unfold roomFor
    rw [hr, Nat.add_sub_cancel_left, Nat.mul_div_cancel _ (by omega)]
  rw [hroom] at h3
  refine ⟨s, hs, h1, h2, h2 ▸ hd', by rw [h3, h2], ?_⟩
  omega

/-- A pool made of the buffer of bytes. -/
theorem byteBuffered_pool (hn : node.Valid) (h8 : 8 ≤ node.size) {a : Nat} (hh : head.Valid)
    (h2 : 2 ≤ head.align) (ha : (structLay (byteBuffered head node N)).align ∣ a)
    (hb : a + (structLay (byteBuffered head node N)).size < 2 ^ 64) :
    ∃ s, Pool.init node.size node.align (a + head.size) ((N + 1) * node.size - 1) = .ok s ∧
      s.head = 0 ∧ s.next = roundUp node.align (a + head.size) ∧
      s.capacity = s.next + N * node.size ∧
      s.capacity < a + (structLay (byteBuffered head node N)).size := by
  have hnp := hn.pos
  have he : head.size + ((N + 1) * node.size - 1) ≤
      (structLay (byteBuffered head node N)).size := by
    rw [← byteBuffered_end (head := head) (node := node) N]
    exact le_alignUp (maxAlign_pos _)
  have hls : node.align ≤ node.size := Nat.le_of_dvd (by omega) hn.2
  have hm : (N + 1) * node.size = N * node.size + node.size := by ring
  have hge := roundUp_ge hnp (a + head.size)
  have hlt := roundUp_lt hnp (a + head.size)
  have hm2 : head.align ∣ a + head.size :=
    Nat.dvd_add (by rw [byteBuffered_align N hh] at ha; exact ha) hh.2
  have hlt2 : roundUp node.align (a + head.size) + 1 < a + head.size + node.size := by
    rcases Nat.le_total node.align head.align with hle | hle
    · rw [roundUp_of_dvd hnp ((pow2_dvd hn.1 hh.1 hle).trans hm2)]
      omega
    · have hd : head.align ∣ node.align := pow2_dvd hh.1 hn.1 hle
      obtain ⟨i, hi⟩ := hd.trans (dvd_roundUp node.align (a + head.size))
      obtain ⟨j, hj⟩ := Nat.dvd_add hm2 hd
      have hij : i < j := by
        refine Nat.lt_of_mul_lt_mul_left (a := head.align) ?_
        rw [← hi, ← hj]; exact hlt
      have : head.align * (i + 1) ≤ head.align * j := Nat.mul_le_mul_left _ hij
      rw [Nat.mul_add, ← hi, ← hj] at this
      omega
  obtain ⟨s, hs⟩ := Pool.init_total (size := node.size) (align := node.align)
    (mem := a + head.size) (len := (N + 1) * node.size - 1) hn.1 (by omega) h8 (by omega)
  obtain ⟨_, _, _, h1, h4, h3⟩ := Pool.init_ok hs
  have hroom : roomFor node.size node.align (a + head.size) ((N + 1) * node.size - 1) = N := by
    unfold roomFor
    generalize hq : a + head.size + ((N + 1) * node.size - 1) - roundUp node.align (a + head.size) = q
    apply Nat.div_eq_of_lt_le <;> omega
  rw [hroom] at h3
  exact ⟨s, hs, h1, h4, by rw [h3, h4], by omega⟩

end

end Verif
