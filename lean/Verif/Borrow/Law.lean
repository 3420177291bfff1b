import Verif.Borrow.Model

/-! What the proofs about vectors need to know of rules about permissions. -/

set_option autoImplicit false

namespace Verif
open Spec

variable {P : Type}

/-- Rules under which the pointer that an allocation returned may do everything with its block, and a
slice that is made of a reference to its first element may be used if its length is `fine`. -/
structure _root_.Verif.Spec.Rules.Law (K : Rules P) (fine : Nat → Bool) where
  /-- The permissions make sense. -/
  Good : P → Prop
  /-- The tag may do everything with the cells of the block, of which there are so many. -/
  Has : Nat → Nat → Nat → P → Prop
  /-- The permissions differ in this block at most. -/
  Same : Nat → P → P → Prop
  good : ∀ {t b n : Nat} {S : P}, Has t b n S → Good S
  frame : ∀ {t b n b' : Nat} {S S' : P}, Has t b n S → Good S' → Same b' S S' → b ≠ b' → Has t b n S'
  access : ∀ {t b n : Nat} {S : P}, Has t b n S → ∀ (a : Access) {o k : Nat}, o + k ≤ n →
    ∃ S' : P, K.access S t a (.loc b o) k = .ok S' ∧ Has t b n S' ∧ Same b S S'
  allocate : ∀ {S : P}, Good S → ∀ b n : Nat,
    Has (K.allocate S (.loc b 0) n).1 b n (K.allocate S (.loc b 0) n).2 ∧
      Same b S (K.allocate S (.loc b 0) n).2
  free : ∀ {t b n : Nat} {S : P}, Has t b n S →
    ∃ S' : P, K.free S t (.loc b 0) n = .ok S' ∧ Good S' ∧ Same b S S'
  sliceMut : ∀ {t b n f : Nat} {S : P}, Has t b n S → f < n → ∀ {k : Nat}, fine k = true → f + k ≤ n →
    ∃ (s : Nat) (S' : P), K.sliceMut S t (.loc b f) k = .ok (s, S') ∧ Has t b n S' ∧
      ∀ o j, f ≤ o → o + j ≤ f + k →
        ∃ S'' : P, K.access S' s .write (.loc b o) j = .ok S'' ∧ Has t b n S''
  slice : ∀ {t b n f : Nat} {S : P}, Has t b n S → f < n → ∀ {k : Nat}, fine k = true → f + k ≤ n →
    ∃ (s : Nat) (S' : P), K.slice S t (.loc b f) k = .ok (s, S') ∧ Has t b n S' ∧
      ∀ o j, f ≤ o → o + j ≤ f + k →
        ∃ S'' : P, K.access S' s .read (.loc b o) j = .ok S'' ∧ Has t b n S''
  sliceMut_wide : ∀ {S : P}, Good S → ∀ (t : Nat) (p : Ptr) {n : Nat}, fine n = false →
    K.sliceMut S t p n = .error .ub
  slice_wide : ∀ {S : P}, Good S → ∀ (t : Nat) (p : Ptr) {n : Nat}, fine n = false →
    K.slice S t p n = .error .ub
  /-- There is no reference to what lies behind the block. -/
  sliceMut_end : ∀ {t b n : Nat} {S : P}, Has t b n S → ∀ k : Nat,
    K.sliceMut S t (.loc b n) k = .error .ub
  none : fine 0 = true

end Verif
