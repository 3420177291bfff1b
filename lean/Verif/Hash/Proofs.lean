import Verif.Hash.Model
import Verif.Spec.Fnv

/-! Lemmas about the hash functions. -/

set_option autoImplicit false

namespace Verif
open Spec

theorem fnv_fold (bytes : List UInt8) (h : UInt32) :
    (bytes.foldl (fun (res : UInt32) c => (res * 16777619) ^^^ c.toUInt32) h).toNat =
      (bytes.map UInt8.toNat).foldl (fun h b => ((h * 16777619) % 2 ^ 32) ^^^ b) h.toNat := by
  induction bytes generalizing h with
  | nil => rfl
  | cons b bs ih =>
    simp only [List.foldl_cons, List.map_cons]
    rw [ih]
    simp [UInt32.toNat_xor, UInt32.toNat_mul]

/-- The model's hash is FNV-1. -/
theorem fnv1_spec (bytes : List UInt8) :
    (fnv1 bytes).toNat = fnv1_32 (bytes.map UInt8.toNat) := by
  unfold fnv1 fnv1_32
  rw [UInt32.toNat_toUInt64, fnv_fold]
  rfl

theorem fnv1_lt (bytes : List UInt8) : (fnv1 bytes).toNat < 2 ^ 32 := by
  unfold fnv1
  rw [UInt32.toNat_toUInt64]
  exact UInt32.toNat_lt _

end Verif
