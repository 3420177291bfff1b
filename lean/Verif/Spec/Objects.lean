import Verif.Spec.Layout

/-! The layout of EASTL's container objects, for stating binary compatibility.  This is the variant
of EASTL the crate is written for: sizes are 32 bits, an allocator is an ordinary member. -/

set_option autoImplicit false

namespace Verif.Spec

/-- The layout in C++ of a class that has layout `l` in Rust.  The two differ for classes without
members: in Rust they take no space, in C++ every object has its own address. -/
def cxxClass (l : Lay) : Lay := if l.size = 0 then ⟨l.align, l.align⟩ else l

/-- A 32-bit integer or float. -/
def wordLay : Lay := ⟨4, 4⟩

/-- `vector<T, A> { T* mpBegin; T* mpEnd; T* mpCapacity; A mAllocator; }`. -/
def cxxVector (A : Lay) : List Lay := [ptrLay, ptrLay, ptrLay, cxxClass A]

/-- `DequeIterator<T> { T* mpCurrent; T* mpBegin; T* mpEnd; T** mpCurrentArrayPtr; }`. -/
def cxxDequeIter : List Lay := [ptrLay, ptrLay, ptrLay, ptrLay]

/-- `deque<T, A> { T** mpPtrArray; uint32_t mnPtrArraySize; iterator mItBegin; iterator mItEnd;
A mAllocator; }`. -/
def cxxDeque (A : Lay) : List Lay :=
  [ptrLay, wordLay, structLay cxxDequeIter, structLay cxxDequeIter, cxxClass A]

/-- `list<T, A> { ListNodeBase { ListNodeBase* mpNext; ListNodeBase* mpPrev; } mNode;
uint32_t mSize; A mAllocator; }`. -/
def cxxList (A : Lay) : List Lay := [structLay [ptrLay, ptrLay], wordLay, cxxClass A]

/-- `hashtable<…> { ExtractKey mExtractKey; node** mpBucketArray; uint32_t mnBucketCount;
uint32_t mnElementCount; prime_rehash_policy { float; float; uint32_t; } mRehashPolicy;
A mAllocator; }`; the first is a class without members. -/
def cxxHashTable (A : Lay) : List Lay :=
  [cxxClass ⟨0, 1⟩, ptrLay, wordLay, wordLay, structLay [wordLay, wordLay, wordLay], cxxClass A]

/-- `rbtree<…> { Compare mCompare; node* mpNodeRight; node* mpNodeLeft; node* mpNodeParent;
uint32_t mnSize; A mAllocator; }`. -/
def cxxTree (C A : Lay) : List Lay :=
  [cxxClass C, ptrLay, ptrLay, ptrLay, wordLay, cxxClass A]

/-- `fixed_pool_with_overflow { pool { Link* mpHead; Link* mpNext; Link* mpCapacity; }
O mOverflowAllocator; void* mpPoolBegin; }`. -/
def cxxOverflowPool (O : Lay) : List Lay :=
  [structLay [ptrLay, ptrLay, ptrLay], cxxClass O, ptrLay]

/-- `fixed_vector_allocator { O mOverflowAllocator; void* mpPoolBegin; }`. -/
def cxxFixedVectorAllocator (O : Lay) : List Lay := [cxxClass O, ptrLay]

/-- `vector_map<K, V, C, A> : vector<pair<K, V>, A> { C mCompare; }`.  A member of the derived class is
placed behind the whole base class (Microsoft's rule; the Itanium rule may place it in the padding at
the end of the base class, which no layout of `repr(C)` does). -/
def cxxVectorMap (A C : Lay) : List Lay := [structLay (cxxVector A), cxxClass C]

/-- Two structs have their fields at the same offsets, the same size and the same alignment. -/
def SameLayout (fs gs : List Lay) : Prop := offsets fs = offsets gs ∧ structLay fs = structLay gs

/-- What Rust guarantees of a struct with one field of layout `l` that is not `repr(C)`: the field is
at an aligned offset and inside. -/
structure WrapLay (l : Lay) where
  offset : Nat
  lay : Lay
  valid : lay.Valid
  aligned : l.align ∣ offset
  align_ok : l.align ∣ lay.align
  inside : offset + l.size ≤ lay.size

end Verif.Spec
