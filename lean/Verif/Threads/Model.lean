import Verif.Spec.Threads

/-!
# `Send` and `Sync` of the crate's types

For every public type, what its `unsafe impl Send`/`Sync` grants under which bounds or, if it has
none, what follows from its fields.  The parameters stand for the type parameters; lifetimes and
`NODE_COUNT` have no influence.  A field that is a type of the crate is that type's definition here.
-/

set_option autoImplicit false

namespace Verif
open Spec Auto

namespace Threads

/-- `DefaultAllocator` (src/allocator.rs:90-93). -/
def defaultAllocator : Auto := all [word]

/-- `Less`, `Greater` (src/compare.rs:11-14, 33-36). -/
def less (K : Auto) : Auto := all [word, K]

/-- `DefaultHash`, `EqualTo` (src/hash.rs:11-13, src/equals.rs:16-18). -/
def marker (K : Auto) : Auto := all [K]

/-- `Vector`: `unsafe impl` with `T: Send, A: Send`, and `Sync` (src/vector/mod.rs:426-427). -/
def vector (T A : Auto) : Auto := ⟨T.send ∧ A.send, T.sync ∧ A.sync⟩

/-- `IntoIter` of a vector: four raw pointers and the allocator (src/vector/into_iter.rs:8-14). -/
def vectorIntoIter (_T A : Auto) : Auto := all [raw, raw, raw, raw, A]

/-- `FixedVectorAllocator`: `unsafe impl` with `A: Send`, and `Sync`
(src/fixed_vector/allocator.rs:47-48). -/
def fixedVectorAllocator (A : Auto) : Auto := ⟨A.send, A.sync⟩

/-- `FixedVector`: `base_vec` and `buffer` (src/fixed_vector/mod.rs:21-24). -/
def fixedVector (T A : Auto) : Auto := all [vector T (fixedVectorAllocator A), T]

/-- `NullTerminatorAllocator` (src/string/null_terminator_allocator.rs:3). -/
def nullTerminatorAllocator (A : Auto) : Auto := all [A]

/-- `String`: `unsafe impl` with `A: Send`, and `Sync` (src/string/mod.rs:266-267). -/
def string (A : Auto) : Auto := ⟨A.send, A.sync⟩

/-- `VectorMap`: `unsafe impl` with `K: Send, V: Send, A: Send, C: Send`, and `Sync`
(src/vector_map/mod.rs:290-297). -/
def vectorMap (K V A C : Auto) : Auto :=
  ⟨K.send ∧ V.send ∧ A.send ∧ C.send, K.sync ∧ V.sync ∧ A.sync ∧ C.sync⟩

/-- `OccupiedEntry` of a vector map: `&mut (K, V)` (src/vector_map/entry.rs:6). -/
def vectorMapOccupied (K V : Auto) : Auto := all [refMut (all [K, V])]

/-- `VacantEntry` of a vector map (src/vector_map/entry.rs:26-30). -/
def vectorMapVacant (K V A C : Auto) : Auto := all [refMut (vectorMap K V A C), K, word]

/-- `Entry` of a vector map (src/vector_map/entry.rs:52-55). -/
def vectorMapEntry (K V A C : Auto) : Auto :=
  all [vectorMapOccupied K V, vectorMapVacant K V A C]

/-- `Deque`: `unsafe impl` with `T: Send, A: Send`, and `Sync` (src/deque/mod.rs:22-23). -/
def deque (T A : Auto) : Auto := ⟨T.send ∧ A.send, T.sync ∧ A.sync⟩

/-- `CompatIter`, `CompatIterMut` and `RawIter` of a deque: raw pointers and a marker `&T`
(src/deque/iter.rs:10-16, 46-52, 101-108; `RawIter` also has a size). -/
def dequeRawIter (T : Auto) : Auto := all [raw, raw, raw, raw, word, ref T]

/-- `Iter` and `IterMut` of a deque (src/deque/iter.rs:241-243, 284-286). -/
def dequeIter (T : Auto) : Auto := all [dequeRawIter T]

/-- `IntoIter` of a deque (src/deque/iter.rs:332-334). -/
def dequeIntoIter (T A : Auto) : Auto := all [deque T A]

/-- `Queue`: `unsafe impl` with `T: Send, A: Send`, and `Sync` (src/queue.rs:15-16). -/
def queue (T A : Auto) : Auto := ⟨T.send ∧ A.send, T.sync ∧ A.sync⟩

/-- `ListNodeBase`: two raw pointers (src/list/node.rs:4-7). -/
def listNodeBase : Auto := all [raw, raw]

/-- `ListNode` (src/list/node.rs:36-39). -/
def listNode (T : Auto) : Auto := all [listNodeBase, T]

/-- `List`: sentinel, size, allocator, marker (src/list/mod.rs:18-24). -/
def list (T A : Auto) : Auto := all [listNodeBase, word, A, T]

/-- `Iter` of a list (src/list/iter.rs:5-10). -/
def listIter (T : Auto) : Auto := all [raw, raw, word, ref (listNode T)]

/-- `IterMut` of a list (src/list/iter.rs:43-48). -/
def listIterMut (T : Auto) : Auto := all [raw, raw, word, refMut (listNode T)]

/-- `FixedPool`: three raw pointers and a marker (src/fixed_pool/mod.rs:22-27). -/
def fixedPool (Node : Auto) : Auto := all [raw, raw, raw, Node]

/-- `FixedPoolWithOverflow` (src/fixed_pool/with_overflow.rs:8-12). -/
def fixedPoolWithOverflow (Node A : Auto) : Auto := all [fixedPool Node, A, raw]

/-- `FixedList`: `base_list`, `buffer`, `_pad` (src/fixed_list/mod.rs:22-29; in
src/fixed_list/conformant.rs:18-26 the buffer consists of bytes). -/
def fixedList (T A : Auto) : Auto :=
  all [list T (fixedPoolWithOverflow (listNode T) A), listNode T, listNode T]

/-- The `Node` of a hash table: key, value, raw pointer (src/internal/hash_table/node.rs:3-7). -/
def hashNode (K V : Auto) : Auto := all [K, V, raw]

/-- `HashTable`: `unsafe impl` with `K: Send, V: Send, A: Send`, none for `H` and `E`, and `Sync`
(src/internal/hash_table/mod.rs:451-458). -/
def hashTable (K V A _H _E : Auto) : Auto :=
  ⟨K.send ∧ V.send ∧ A.send, K.sync ∧ V.sync ∧ A.sync⟩

/-- `HashMap`: the same bounds (src/hash_map/mod.rs:183-190). -/
def hashMap (K V A _H _E : Auto) : Auto :=
  ⟨K.send ∧ V.send ∧ A.send, K.sync ∧ V.sync ∧ A.sync⟩

/-- `HashSet`: `unsafe impl` with `K: Send, A: Send`, and `Sync` (src/hash_set/mod.rs:145-152). -/
def hashSet (K A _H _E : Auto) : Auto := ⟨K.send ∧ A.send, K.sync ∧ A.sync⟩

/-- `Iter` and `IterMut` of hash maps and sets: a slice iterator over raw pointers, which is a
shared reference to them, and a raw pointer (src/internal/hash_table/iter.rs:39-42, 199-201,
284-286, src/hash_set/iter.rs:12-14). -/
def hashIter (_K _V : Auto) : Auto := all [ref raw, raw]

/-- `Entry` of a hash map: `&mut Node`, or `&mut HashTable`, `&mut *mut Node` and the key
(src/internal/hash_table/entry.rs:8-20, src/hash_map/entry.rs:7-9). -/
def hashEntry (K V A H E : Auto) : Auto :=
  all [refMut (hashNode K V), refMut (hashTable K V A H E), refMut raw, K]

/-- The `Node` of a tree: two raw pointers, parent and colour with markers, the pair
(src/internal/rb_tree/node.rs:25-29, 87-92). -/
def treeNode (K V : Auto) : Auto := all [raw, raw, all [word, K, V], all [K, V]]

/-- `RBTree` (src/internal/rb_tree/mod.rs:15-27). -/
def rbTree (_K _V A C : Auto) : Auto := all [C, raw, raw, raw, word, A]

/-- `Map`: `unsafe impl` with `K: Send, V: Send, A: Send, C: Send`, and `Sync`
(src/map/mod.rs:164-172). -/
def map (K V A C : Auto) : Auto :=
  ⟨K.send ∧ V.send ∧ A.send ∧ C.send, K.sync ∧ V.sync ∧ A.sync ∧ C.sync⟩

/-- `Set`: a tree (src/set/mod.rs:12-14). -/
def set (K A C : Auto) : Auto := all [rbTree K word A C]

/-- `Iter` and `IterMut` of a tree: two raw pointers and a marker
(src/internal/rb_tree/iter.rs:6-16). -/
def treeIter (_K _V : Auto) : Auto := all [raw, raw, word]

/-- `FixedMapImpl`: `base_map`, `buffer`, `_pad` (src/fixed_map/mod.rs:25-41). -/
def fixedMapImpl (K V A C : Auto) : Auto := all [map K V A C, treeNode K V, treeNode K V]

/-- `FixedMap` (src/fixed_map/mod.rs:17-18). -/
def fixedMap (K V C : Auto) : Auto := fixedMapImpl K V (fixedPool (treeNode K V)) C

/-- `FixedMapWithOverflow` (src/fixed_map/mod.rs:21-22). -/
def fixedMapWithOverflow (K V A C : Auto) : Auto :=
  fixedMapImpl K V (fixedPoolWithOverflow (treeNode K V) A) C

end Threads

end Verif
