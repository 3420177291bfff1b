import Mathlib.Order.Lattice.Nat
import Mathlib.Algebra.Order.Group.Nat

/-! Memory layout of structs, for stating binary compatibility. -/

set_option autoImplicit false

namespace Verif.Spec

/-- Size and alignment of a type. -/
structure Lay where
  size : Nat
  align : Nat
  deriving DecidableEq

/-- A type that exists: its alignment is a power of two and divides its size. -/
def Lay.Valid (l : Lay) : Prop := (∃ k, l.align = 2 ^ k) ∧ l.align ∣ l.size

/-- The least multiple of `a` that is at least `x`. -/
def alignUp (x a : Nat) : Nat := (x + (a - 1)) / a * a

/-- Offsets of the fields `fs` laid out in order from offset `x` on. -/
def offsetsFrom : Nat → List Lay → List Nat
  | _, [] => []
  | x, f :: fs => alignUp x f.align :: offsetsFrom (alignUp x f.align + f.size) fs

/-- Where the fields `fs` laid out from `x` on end. -/
def endFrom : Nat → List Lay → Nat
  | x, [] => x
  | x, f :: fs => endFrom (alignUp x f.align + f.size) fs

/-- The strictest alignment. -/
def maxAlign (fs : List Lay) : Nat := (fs.map Lay.align).foldr max 1

/-- The offsets of a `repr(C)` struct, which are those of a standard-layout C++ struct. -/
def offsets (fs : List Lay) : List Nat := offsetsFrom 0 fs

/-- The layout of a `repr(C)` struct, which is that of a standard-layout C++ struct. -/
def structLay (fs : List Lay) : Lay := ⟨alignUp (endFrom 0 fs) (maxAlign fs), maxAlign fs⟩

/-- A pointer on a 64-bit target. -/
def ptrLay : Lay := ⟨8, 8⟩

/-- What Rust guarantees of a tuple `(K, V)`, which is not `repr(C)`: the fields are at aligned
offsets, inside, and do not overlap. -/
structure TupleLay (K V : Lay) where
  key : Nat
  val : Nat
  lay : Lay
  valid : lay.Valid
  key_aligned : K.align ∣ key
  val_aligned : V.align ∣ val
  align_ok : K.align ∣ lay.align ∧ V.align ∣ lay.align
  key_inside : key + K.size ≤ lay.size
  val_inside : val + V.size ≤ lay.size
  disjoint : key + K.size ≤ val ∨ val + V.size ≤ key

/-- Offsets of key and value in a C++ `pair<K, V>`. -/
def cxxPairOffsets (K V : Lay) : List Nat := offsets [K, V]

/-- The layout of a C++ `pair<K, V>`. -/
def cxxPair (K V : Lay) : Lay := structLay [K, V]

/-- Offsets of key, value and link in EASTL's
`hash_node<pair<const K, V>, false> { pair<const K, V> mValue; hash_node* mpNext; }`. -/
def cxxHashNodeOffsets (K V : Lay) : List Nat :=
  cxxPairOffsets K V ++ [alignUp (cxxPair K V).size ptrLay.align]

/-- Its layout. -/
def cxxHashNode (K V : Lay) : Lay := structLay [cxxPair K V, ptrLay]

/-- Offsets of key and link in EASTL's `hash_node<K, false>` of a set. -/
def cxxSetNodeOffsets (K : Lay) : List Nat := offsets [K, ptrLay]

/-- Its layout. -/
def cxxSetNode (K : Lay) : Lay := structLay [K, ptrLay]

/-- Offsets of the three link words, the key and the value in a C++ tree node
`{ node* right; node* left; uintptr_t parent_color; pair<const K, V> value; }`: the variant of
EASTL the crate is written for, which keeps the colour in the parent word. -/
def cxxTreeNodeOffsets (K V : Lay) : List Nat :=
  [0, 8, 16] ++ (cxxPairOffsets K V).map (alignUp 24 (cxxPair K V).align + ·)

/-- The fields of a container with a pool of `N` nodes that declares its buffer as bytes: the
header and one node less a byte more than `N` nodes take, so that `N` aligned nodes fit wherever
the buffer starts. -/
def byteBuffered (head node : Lay) (N : Nat) : List Lay := [head, ⟨(N + 1) * node.size - 1, 1⟩]

/-- Two structs of two or more fields have the same size and alignment, and the second field (the
buffer) in the same place. -/
def SameShape (fs gs : List Lay) : Prop :=
  structLay fs = structLay gs ∧ (offsets fs)[1]? = (offsets gs)[1]?

end Verif.Spec
