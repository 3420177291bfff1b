import Verif.Mem
import Verif.Hash.Lossy

/-!
# Model of the default hash functions (src/hash.rs)

`usize` is 64 bits.
-/

set_option autoImplicit false

namespace Verif

/-- `fnv1` (src/hash.rs:101-107; the trait is at 5-8): `res = res.wrapping_mul(16777619) ^ c`, starting from
2166136261, over the bytes of the string, then `as usize`.  `Hash<str>` (109-113) and `Hash<&str>`
(115-119) are this function on the bytes of the `str`. -/
def fnv1 (bytes : List UInt8) : UInt64 :=
  (bytes.foldl (fun (res : UInt32) c => (res * 16777619) ^^^ c.toUInt32) 2166136261).toUInt64

/-- `*val as usize` for an unsigned integer of `w` bits: `u8`, `u16`, `u32`, `u64`, `usize`
(src/hash.rs:18-22, 30-34, 42-46, 54-58, 66-70). -/
def hashUnsigned {w : Nat} (x : BitVec w) : BitVec 64 := x.setWidth 64

/-- `*val as usize` for a signed integer of `w` bits: `i8`, `i16`, `i32`, `i64`, `isize`
(src/hash.rs:24-28, 36-40, 48-52, 60-64, 72-76). -/
def hashSigned {w : Nat} (x : BitVec w) : BitVec 64 := x.signExtend 64

/-- `*val as usize` for a `bool` (src/hash.rs:90-94). -/
def hashBool (b : Bool) : BitVec 64 := if b then 1 else 0

/-- An IEEE 754 number: not a number, an infinity (negative if `true`), or a finite number,
as a multiple of the smallest positive one. -/
inductive FVal where
  | nan
  | inf (neg : Bool)
  | fin (v : Int)
  deriving DecidableEq, Repr

/-- `==` of `f32`/`f64`. -/
def FVal.eq : FVal → FVal → Bool
  | .inf a, .inf b => a == b
  | .fin a, .fin b => a == b
  | _, _ => false

/-- Decoding the bits of an IEEE 754 number with `e` exponent and `m` mantissa bits (`f32`: 8 and
23, `f64`: 11 and 52).  The smallest positive number is 2 to the power of minus
`fracBits e m`. -/
def FVal.decode (e m : Nat) (bits : BitVec (1 + e + m)) : FVal :=
  let man := bits.toNat % 2 ^ m
  let exp := bits.toNat / 2 ^ m % 2 ^ e
  let neg := bits.msb
  if exp = 2 ^ e - 1 then (if man = 0 then .inf neg else .nan)
  else
    let v : Int := if exp = 0 then man else (2 ^ m + man) * 2 ^ (exp - 1)
    .fin (if neg then -v else v)

/-- Binary digits after the point of the smallest positive number. -/
def fracBits (e m : Nat) : Nat := 2 ^ (e - 1) - 2 + m

/-- `*val as usize` for `f32` and `f64` (src/hash.rs:78-88): Rust's saturating float-to-integer
conversion. -/
def hashFloat (e m : Nat) (bits : BitVec (1 + e + m)) : Nat :=
  match FVal.decode e m bits with
  | .nan => 0
  | .inf neg => if neg then 0 else 2 ^ 64 - 1
  | .fin v => min (2 ^ 64 - 1) (v.toNat / 2 ^ fracBits e m)

/-- `CStr::from_ptr(p)`: the bytes before the first zero (src/hash.rs:123).  The first argument
bounds the length; running out is reported as a fault. -/
def cstrBytes : Nat → Ptr → Mem UInt8 → Exec (List UInt8)
  | 0, _, _ => .error .ub
  | fuel + 1, p, m => do
    let b ← m.read p
    if b = 0 then .ok []
    else do
      let q ← m.ptrAdd p 1
      .ok (b :: (← cstrBytes fuel q m))

/-- `Hash<*const c_char>` (src/hash.rs:121-125). -/
def hashCStr (fuel : Nat) (p : Ptr) (m : Mem UInt8) : Exec UInt64 := do
  .ok (fnv1 (toStringLossy (← cstrBytes fuel p m)))

end Verif
