import Verif.Vector.Model
import Verif.Spec.Text
import Verif.Hash.Model

/-!
# Model of `String` (src/string/mod.rs, src/string/null_terminator_allocator.rs)

A `String` is a `Vector<u8>` over an allocator that leaves room for a terminator.  Bytes have
no destructor, so `nd = false` throughout.  `as_bytes`, `as_str`, `AsRef`, `Deref` and `DerefMut`
(src/string/mod.rs:86-93, 186-196, 218-230) are `Vec.asSlice`; `capacity`, `is_empty`, `is_full`,
`len` (96-113) are the vector's.
-/

set_option autoImplicit false

namespace Verif
open Spec

/-- `NullTerminatorAllocator` (src/string/null_terminator_allocator.rs:5-30). -/
def nullTermAllocator (A : Allocator UInt8) : Allocator UInt8 where
  alloc n m := do
    let (p, m) ← A.alloc (n + 1) m
    let q ← m.ptrAdd p n
    let m ← m.write q 0
    .ok (p, m)
  dealloc p n m := A.dealloc p (n + 1) m

/-- `elem as u8` for a `char` (src/string/mod.rs:143): truncation. -/
def charToByte (c : Char) : UInt8 := c.toUInt8

/-- `elem as char` for a `u8` (src/string/mod.rs:126, 159). -/
def byteToChar (b : UInt8) : Char := Char.ofNat b.toNat

namespace Str

/-- `String::null_terminate` (src/string/mod.rs:178-183). -/
def nullTerminate (v : Vec) (m : Mem UInt8) : Exec (Mem UInt8) :=
  if v.endPtr = .null then .ok m else m.write v.endPtr 0

/-- `String::reserve` (src/string/mod.rs:168-171). -/
def reserve (A : Allocator UInt8) (capacity : Nat) (v : Vec) (m : Mem UInt8) :
    Exec (Vec × Mem UInt8) := v.reserve A (capacity + 1) m

/-- `String::with_capacity` (src/string/mod.rs:38-43); `new`, `new_in`, `Default` (29-31, 68-72,
212-216) are the empty vector. -/
def withCapacity (A : Allocator UInt8) (capacity : Nat) (m : Mem UInt8) :
    Exec (Vec × Mem UInt8) := Vec.withCapacity A capacity m

/-- `String::assign` (src/string/mod.rs:75-83); `buf` are the bytes of the `&str`. -/
def assign (A : Allocator UInt8) (buf : List UInt8) (v : Vec) (m : Mem UInt8) :
    Exec (Vec × Mem UInt8) := do
  let (v, m) ← reserve A buf.length v m
  let (v, m) ← v.append A false buf m
  let m ← nullTerminate v m
  .ok (v, m)

/-- `String::insert` (src/string/mod.rs:142-147). -/
def insert (A : Allocator UInt8) (index : Nat) (c : Char) (v : Vec) (m : Mem UInt8) :
    Exec (Vec × Mem UInt8) := do
  let (v, m) ← v.insert A index (charToByte c) m
  let m ← nullTerminate v m
  .ok (v, m)

/-- `String::push` (src/string/mod.rs:120-122). -/
def push (A : Allocator UInt8) (c : Char) (v : Vec) (m : Mem UInt8) : Exec (Vec × Mem UInt8) := do
  let n ← v.len
  insert A n c v m

/-- `String::pop` (src/string/mod.rs:125-132). -/
def pop (v : Vec) (m : Mem UInt8) : Exec (Option Char × Vec × Mem UInt8) := do
  let (e, v) ← v.pop m
  let m ← nullTerminate v m
  .ok (e.map byteToChar, v, m)

/-- `String::remove` (src/string/mod.rs:154-161). -/
def remove (index : Nat) (v : Vec) (m : Mem UInt8) : Exec (Option Char × Vec × Mem UInt8) := do
  let n ← v.len
  if n ≤ index then .ok (none, v, m) else do
    let (e, v, m) ← v.remove index m
    .ok (e.map byteToChar, v, m)

/-- `String::from_in` and `From<&str>`, `FromStr` (src/string/mod.rs:54-61, 246-258). -/
def fromStr (A : Allocator UInt8) (buf : List UInt8) (m : Mem UInt8) : Exec (Vec × Mem UInt8) :=
  assign A buf Vec.new m

/-- `Clone for String` (src/string/mod.rs:198-204). -/
def clone (A : Allocator UInt8) (v : Vec) (m : Mem UInt8) : Exec (Vec × Mem UInt8) :=
  v.clone A false m

/-- `PartialEq for String` (src/string/mod.rs:238-242): `as_str() == as_str()`, which compares
bytes. -/
def eq (a b : Vec) (m : Mem UInt8) : Exec Bool := do
  let x ← a.asSlice m
  let y ← b.asSlice m
  .ok (x == y)

/-- `Hash<String>` (src/string/mod.rs:260-264): the hash of `as_str()`. -/
def hash (a : Vec) (m : Mem UInt8) : Exec UInt64 := do
  let x ← a.asSlice m
  .ok (fnv1 x)

/-- `Drop`: the vector's (src/vector/mod.rs:329-336). -/
def drop (A : Allocator UInt8) (v : Vec) (m : Mem UInt8) : Exec (Mem UInt8) := do
  let (_, m) ← v.clear A false m
  .ok m

/-- One call; dispatches to the functions above. -/
def step (A : Allocator UInt8) (op : StrOp) (v : Vec) (m : Mem UInt8) :
    Exec (StrOut × Vec × Mem UInt8) :=
  match op with
  | .push c => do let (v, m) ← push A c v m; .ok (.unit, v, m)
  | .pop => do let (c, v, m) ← pop v m; .ok (.char c, v, m)
  | .insert i c => do let (v, m) ← insert A i c v m; .ok (.unit, v, m)
  | .remove i => do let (c, v, m) ← remove i v m; .ok (.char c, v, m)
  | .reserve n => do let (v, m) ← reserve A n v m; .ok (.unit, v, m)
  | .assign s => do let (v, m) ← assign A (utf8 s) v m; .ok (.unit, v, m)
  | .len => do let n ← v.len; .ok (.nat n, v, m)
  | .isEmpty => do let b ← v.isEmpty; .ok (.bool b, v, m)

/-- A history of calls. -/
def run (A : Allocator UInt8) : List StrOp → Vec → Mem UInt8 →
    Exec (List StrOut × Vec × Mem UInt8)
  | [], v, m => .ok ([], v, m)
  | op :: ops, v, m => do
    let (o, v, m) ← step A op v m
    let (os, v, m) ← run A ops v m
    .ok (o :: os, v, m)

end Str

end Verif
