import Verif.Machine.FixedVector
import Verif.Machine.Collect
import Verif.Machine.ModestText

/-! The remaining constructors of vectors and strings with machine integers. -/

set_option autoImplicit false

namespace Verif
open Spec

variable {α : Type}

/-- `Vector::from_in` (src/vector/mod.rs:269-273), `From<&[T]>`, `From<&mut [T]>` and
`From<&[T; N]>` (357-371, 384-390). -/
def Vec.fromSliceM (B : Build) (A : Allocator α) (nd : Bool) (buf : List α) (m : Mem α) :
    Exec (Vec × Mem α) := Vec.new.assignM B A nd buf m

/-- `From<[T; N]>` (src/vector/mod.rs:373-382). -/
def Vec.fromArrayM (B : Build) (A : Allocator α) (buf : List α) (m : Mem α) :
    Exec (Vec × Mem α) := do
  let (v, m) ← Vec.withCapacityM B A buf.length m
  v.pushAllM B A m buf

/-- `Clone` (src/vector/mod.rs:317-321): `from_in(self.as_slice())`. -/
def Vec.cloneM (B : Build) (A : Allocator α) (nd : Bool) (v : Vec) (m : Mem α) :
    Exec (Vec × Mem α) := do
  let xs ← v.asSlice m
  Vec.fromSliceM B A nd xs m

/-- `String::from_in`, `From<&str>`, `FromStr` (src/string/mod.rs:54-61, 246-258). -/
def Str.fromStrM (B : Build) (A : Allocator UInt8) (buf : List UInt8) (m : Mem UInt8) :
    Exec (Vec × Mem UInt8) := Str.assignM B A buf Vec.new m

/-- `Clone for String` (src/string/mod.rs:198-204). -/
def Str.cloneM (B : Build) (A : Allocator UInt8) (v : Vec) (m : Mem UInt8) :
    Exec (Vec × Mem UInt8) := v.cloneM B A false m

/-- Pushing elements for which there is room. -/
theorem pushAllM_room (B : Build) {A A' : Allocator α} {keeps : Nat → Prop}
    {fits : Nat → Nat → Region → Nat → Prop} {init : Block α → Nat → Prop} {w : World α}
    (hA : Lawful A' fits keeps init) (items : List α) :
    ∀ {m : Mem α} {v : Vec} {xs : List α} {cap : Nat}, VInv keeps fits w m v xs cap →
    xs.length + items.length ≤ cap → v.pushAllM B A m items = v.pushAll A' m items := by
  induction items with
  | nil => intros; rfl
  | cons x items ih =>
    intro m v xs cap hi hle
    simp only [List.length_cons] at hle
    have h1 : v.pushM B A x m = v.push A' x m := by
      simp only [Vec.pushM, Vec.push, hi.isFull, Exec.ok_bind,
        beq_eq_false_iff_ne.2 (show xs.length ≠ cap by omega), Bool.false_eq_true, if_false]
    obtain ⟨v1, m1, b1, blk1, he, hB, _⟩ := hi.push hA x
    simp only [Vec.pushAllM, Vec.pushAll, h1, he, Exec.ok_bind]
    refine ih (VInvB.inv hB) ?_
    have : growCap xs.length cap = cap := by unfold growCap; split <;> omega
    rw [this]
    simp only [List.length_append, List.length_cons, List.length_nil]
    omega

/-- Assigning to an empty vector over two allocators that agree. -/
theorem fromSliceM_agree (B : Build) {A A' : Allocator α} {P : Nat → Prop}
    (hP : ∀ c, P c → c < 2 ^ 63) (ha : ∀ c, 0 < c → P c → ∀ m : Mem α, A.alloc c m = A'.alloc c m)
    (hd : ∀ c, P c → ∀ (p : Ptr) (m : Mem α), A.dealloc p c m = A'.dealloc p c m) (h0 : P 0)
    (nd : Bool) (buf : List α) (hb : P buf.length) (m : Mem α) :
    Vec.fromSliceM B A nd buf m = Vec.fromSlice A' nd buf m := by
  have hc : Vec.new.capacity = .ok 0 := rfl
  unfold Vec.fromSliceM Vec.fromSlice Vec.assignM Vec.assign
  simp only [hc, Exec.ok_bind]
  by_cases hf : 0 < buf.length
  · rw [reserveM_agree B hP ha hd (len := 0) rfl hc h0
      (by rwa [show 0 + (buf.length - 0) = buf.length by omega])]
  · simp only [hf, if_false]

/-- A capacity of fewer than 2^63 bytes can exist. -/
theorem Spec.TypeLayout.rep_of_bytes {size align : Nat} (hT : TypeLayout size align) {n : Nat}
    (h : n * size < 2 ^ 63) : Representable size align n := by
  obtain ⟨k, hk, ha⟩ := hT.pow
  obtain ⟨a, h1⟩ := Nat.dvd_trans hT.dvd (Nat.dvd_mul_left size n)
  have h2 : 2 ^ 63 = align * 2 ^ (63 - k) := by rw [ha, ← Nat.pow_add]; congr 1; omega
  unfold Representable
  rw [h1] at h ⊢
  rw [h2] at h ⊢
  have h3 : a < 2 ^ (63 - k) := Nat.lt_of_mul_lt_mul_left h
  have h4 := Nat.mul_le_mul_left align (show a + 1 ≤ 2 ^ (63 - k) from h3)
  rw [Nat.mul_add, Nat.mul_one] at h4
  omega

end Verif
