import Verif.Threads.Model
import Mathlib.Tactic.Tauto

/-!
# C122: which containers threads may hand over and share
-/

set_option autoImplicit false

namespace Verif
open Spec Auto Threads

/-- C122.  Vectors, fixed vectors, strings, vector maps, deques, queues, hash maps, hash sets and
maps may be handed over to another thread exactly if the elements, the allocator and the comparator
they own may, and shared exactly if these may be shared.  Hash functions and equalities, of which no
value exists, do not matter. -/
theorem C122_containers_like_contents (T K V A C H E : Auto) :
    Same (vector T A) (all [T, A]) ∧
    Same (fixedVector T A) (all [T, A]) ∧
    Same (string A) (all [A]) ∧
    Same (vectorMap K V A C) (all [K, V, A, C]) ∧
    Same (deque T A) (all [T, A]) ∧
    Same (queue T A) (all [T, A]) ∧
    Same (hashMap K V A H E) (all [K, V, A]) ∧
    Same (hashSet K A H E) (all [K, A]) ∧
    Same (Threads.map K V A C) (all [K, V, A, C]) := by
  simp [Same, all, vector, fixedVector, fixedVectorAllocator, string, vectorMap, deque, queue,
    hashMap, hashSet, Threads.map]
  tauto

/-- C122.  The owning iterator of a deque and the entries of a vector map are no more restricted
than what they hold: the deque, or exclusive access to the map and a key. -/
theorem C122_holders_like_contents (T K V A C : Auto) :
    Same (dequeIntoIter T A) (all [T, A]) ∧
    Same (vectorMapEntry K V A C) (all [refMut (all [K, V, A, C]), K]) := by
  simp [Same, all, dequeIntoIter, deque, vectorMapEntry, vectorMapOccupied, vectorMapVacant,
    vectorMap, refMut, word]
  tauto

/-- C122.  The converse fails for lists, fixed lists, sets, fixed maps and the owning iterator of a
vector: whatever they contain, even if it is integers with the default allocator, they can be
neither handed over nor shared. -/
theorem C122_lists_and_sets_confined (T K V A C : Auto) :
    Confined (list T A) ∧ Confined (fixedList T A) ∧ Confined (Threads.set K A C) ∧
    Confined (fixedMap K V C) ∧ Confined (fixedMapWithOverflow K V A C) ∧
    Confined (vectorIntoIter T A) := by
  simp [Confined, all, list, listNodeBase, fixedList, Threads.set, rbTree, fixedMap, fixedPool,
    fixedMapWithOverflow, fixedPoolWithOverflow, fixedMapImpl, treeNode, listNode, vectorIntoIter,
    raw]

/-- C122.  Nor can the borrowing iterators of deques, lists, hash maps, hash sets and maps, or the
entries of a hash map. -/
theorem C122_iterators_confined (T K V A H E : Auto) :
    Confined (dequeIter T) ∧ Confined (listIter T) ∧ Confined (listIterMut T) ∧
    Confined (hashIter K V) ∧ Confined (hashEntry K V A H E) ∧ Confined (treeIter K V) := by
  simp [Confined, all, dequeIter, dequeRawIter, listIter, listIterMut, hashIter, hashEntry, treeIter,
    raw, ref, refMut]

/-- C122, what the containers are made of. The default allocator is unrestricted; comparators, hash
functions and equalities are like the keys they mention, wrapped allocators like what they wrap, a hash
table like what it owns, the two kinds of entries of a vector map like what they borrow and own. Nodes,
trees and pools are confined. -/
theorem C122_parts (T K V A C H E Node : Auto) :
    (Threads.defaultAllocator.send ∧ Threads.defaultAllocator.sync) ∧
    Same (less K) K ∧ Same (marker K) K ∧
    Same (fixedVectorAllocator A) A ∧ Same (nullTerminatorAllocator A) A ∧
    Same (hashTable K V A H E) (all [K, V, A]) ∧
    Same (vectorMapOccupied K V) (refMut (all [K, V])) ∧
    Same (vectorMapVacant K V A C) (all [refMut (all [K, V, A, C]), K]) ∧
    Confined (listNode T) ∧ Confined (hashNode K V) ∧ Confined (treeNode K V) ∧
    Confined (rbTree K V A C) ∧ Confined (fixedPool Node) ∧ Confined (fixedPoolWithOverflow Node A) ∧
    Confined (dequeRawIter T) := by
  simp [Same, Confined, all, Threads.defaultAllocator, less, marker, fixedVectorAllocator,
    nullTerminatorAllocator, hashTable, vectorMapOccupied, vectorMapVacant, vectorMap, listNode,
    listNodeBase, hashNode, treeNode, rbTree, fixedPool, fixedPoolWithOverflow, dequeRawIter, raw, word,
    refMut]

/-- C122.  No type of the crate lets a thread receive, or share, anything that its elements,
allocator and comparator forbid: the containers own these, an iterator or entry has shared or
exclusive access to them. -/
theorem C122_nothing_smuggled_partial (T K V A C H E : Auto) :
    Within (vector T A) (all [T, A]) ∧ Within (vectorIntoIter T A) (all [T, A]) ∧
    Within (fixedVector T A) (all [T, A]) ∧ Within (string A) (all [A]) ∧
    Within (vectorMap K V A C) (all [K, V, A, C]) ∧
    Within (vectorMapEntry K V A C) (all [refMut (all [K, V, A, C]), K]) ∧
    Within (deque T A) (all [T, A]) ∧ Within (dequeIntoIter T A) (all [T, A]) ∧
    Within (dequeIter T) (all [ref T, refMut T]) ∧ Within (queue T A) (all [T, A]) ∧
    Within (list T A) (all [T, A]) ∧ Within (listIter T) (ref T) ∧
    Within (listIterMut T) (refMut T) ∧ Within (fixedList T A) (all [T, A]) ∧
    Within (hashMap K V A H E) (all [K, V, A]) ∧ Within (hashSet K A H E) (all [K, A]) ∧
    Within (hashIter K V) (all [ref K, ref V, refMut V]) ∧
    Within (hashEntry K V A H E) (all [refMut (all [K, V, A]), K]) ∧
    Within (Threads.map K V A C) (all [K, V, A, C]) ∧ Within (Threads.set K A C) (all [K, A, C]) ∧
    Within (treeIter K V) (all [ref K, ref V, refMut V]) ∧
    Within (fixedMap K V C) (all [K, V, C]) ∧
    Within (fixedMapWithOverflow K V A C) (all [K, V, A, C]) := by
  have of {s t : Auto} (h : Same s t) : Within s t := ⟨h.1.1, h.2.1⟩
  have no {s : Auto} (t : Auto) (h : Confined s) : Within s t := ⟨fun h' => absurd h' h.1, fun h' => absurd h' h.2⟩
  obtain ⟨a1, a2, a3, a4, a5, a6, a7, a8, a9⟩ := C122_containers_like_contents T K V A C H E
  obtain ⟨b1, b2⟩ := C122_holders_like_contents T K V A C
  obtain ⟨c1, c2, c3, c4, c5, c6⟩ := C122_lists_and_sets_confined T K V A C
  obtain ⟨d1, d2, d3, d4, d5, d6⟩ := C122_iterators_confined T K V A H E
  exact ⟨of a1, no _ c6, of a2, of a3, of a4, of b2, of a5, of b1, no _ d1, of a6, no _ c1, no _ d2,
    no _ d3, no _ c2, of a7, of a8, no _ d4, no _ d5, of a9, no _ c3, no _ d6, no _ c4, no _ c5⟩

/-- A vector map of integers to shared, not atomically counted pointers (`Rc`, neither `Send` nor
`Sync`) is confined; one of integers to cells (`Cell`, `Send` but not `Sync`) may be handed over but
not shared; one of integers both.  A list of integers neither. -/
example :
    Confined (vectorMap word raw Threads.defaultAllocator (less word)) ∧
    (vectorMap word ⟨True, False⟩ Threads.defaultAllocator (less word)).send ∧
    ¬ (vectorMap word ⟨True, False⟩ Threads.defaultAllocator (less word)).sync ∧
    (vectorMap word word Threads.defaultAllocator (less word)).send ∧
    (vectorMap word word Threads.defaultAllocator (less word)).sync ∧
    ¬ (list word Threads.defaultAllocator).send := by
  simp [Confined, vectorMap, less, Threads.defaultAllocator, all, raw, word, list, listNodeBase]

end Verif
