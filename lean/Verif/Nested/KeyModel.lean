import Verif.Nested.Model
import Verif.Spec.StringKeys
import Verif.HashTable.Oracle
import Verif.Text.Model

/-!
# Hash maps with strings as keys

`HashMap<String, V>`: the hash table (`HashTable/Oracle.lean`) with the three pointers of a `String` as
keys.  The hash function and `==` read the strings (src/string/mod.rs:238-242, 260-264), which are in a
memory of their own; dropping a key is the destructor of the string.
-/

set_option autoImplicit false

namespace Verif
open Spec

variable {V : Type}

/-- `Hash<String>` and `PartialEq` on the strings in memory `m` (src/string/mod.rs:238-242, 260-264).
Where a string cannot be read there is some answer; `askAll` refuses such calls. -/
def strEnv (E : HEnv Vec V Unit) (m : Mem UInt8) : HEnv Vec V Unit :=
  { E with
    hash := fun k => match Str.hash k m with
      | .ok h => h.toNat
      | .error _ => 0
    eq := fun a b => match Str.eq a b m with
      | .ok r => r
      | .error _ => false
    ndK := true }

/-- Hash function and equality of `E`, with the calls that were made. -/
def loggedKeys {K σ : Type} (E : HEnv K V σ) : HashFns (List (KeyCall K)) K where
  hash l k := (some (E.hash k), l ++ [.hashed k])
  eq l a b := (some (E.eq a b), l ++ [.compared a b])

/-- The calls of the hash function and of `==`, which read the strings.  They are made during a call of
the map; as neither writes to this memory, making them afterwards is the same. -/
def askAll : List (KeyCall Vec) → Mem UInt8 → Exec Unit
  | [], _ => .ok ()
  | .hashed k :: l, m => do
    let _ ← Str.hash k m
    askAll l m
  | .compared a b :: l, m => do
    let _ ← Str.eq a b m
    askAll l m

/-- The program reads the key in a result (`as_str`, src/string/mod.rs:91-93). -/
def lookAt (o : MapOut Vec V) (m : Mem UInt8) : Exec (MapOut (List UInt8) V) :=
  match o with
  | .unit => .ok .unit
  | .val v => .ok (.val v)
  | .pair none => .ok (.pair none)
  | .pair (some (k, v)) => do
    let s ← k.asSlice m
    .ok (.pair (some (s, v)))
  | .key k => do
    let s ← k.asSlice m
    .ok (.key s)
  | .bool b => .ok (.bool b)
  | .nat n => .ok (.nat n)

namespace StrMap

/-- The program makes the key of a call, if it has one (`From<&str>`, src/string/mod.rs:246-250). -/
def makeKey (A : Allocator UInt8) (key : Option (List UInt8)) (m : Mem UInt8) :
    Exec (Vec × Mem UInt8) :=
  match key with
  | none => .ok (Vec.new, m)
  | some s => Str.fromStr A s m

/-- One call of a program.  If it has a key, the program makes a `String` of it and passes that, or a
reference to it (src/hash_map/mod.rs:44-140); it reads the key it gets back.
At the end of the statement strings die: those the map dropped, those the program was given, and those
it has only lent. -/
def step (E : HEnv Vec V Unit) (A : Allocator UInt8) (op : MapOp (List UInt8) V) (t : HTable Unit)
    (mo : HMem Vec V) (m : Mem UInt8) :
    Exec (MapOut (List UInt8) V × HTable Unit × HMem Vec V × Mem UInt8) := do
  let (k, m) ← makeKey A op.asked m
  let op' := op.mapKey fun _ => k
  let (o, calls, t, mo) ← t.stepO (strEnv E m) (loggedKeys (strEnv E m)) op' []
    { mo with n := { mo.n with dropped := [] } }
  askAll calls m
  match o with
  | none => .error .panic
  | some o => do
    let r ← lookAt o m
    let m ← dropAll A false (mo.n.dropped.filterMap Sum.getLeft? ++ o.owned ++ op'.lent) m
    .ok (r, t, mo, m)

/-- A program. -/
def run (E : HEnv Vec V Unit) (A : Allocator UInt8) : List (MapOp (List UInt8) V) → HTable Unit →
    HMem Vec V → Mem UInt8 →
    Exec (List (MapOut (List UInt8) V) × HTable Unit × HMem Vec V × Mem UInt8)
  | [], t, mo, m => .ok ([], t, mo, m)
  | op :: ops, t, mo, m => do
    let (o, t, mo, m) ← step E A op t mo m
    let (os, t, mo, m) ← run E A ops t mo m
    .ok (o :: os, t, mo, m)

/-- `Drop` of the map (src/internal/hash_table/mod.rs:431-435), which drops the keys. -/
def drop (E : HEnv Vec V Unit) (A : Allocator UInt8) (t : HTable Unit) (mo : HMem Vec V)
    (m : Mem UInt8) : Exec (HMem Vec V × Mem UInt8) := do
  let (_, mo) ← t.drop (strEnv E m) { mo with n := { mo.n with dropped := [] } }
  let m ← dropAll A false (mo.n.dropped.filterMap Sum.getLeft?) m
  .ok (mo, m)

end StrMap

end Verif
