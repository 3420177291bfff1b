# A machine-checked model of EASTL-rs

Source modelled: `/repo/src` (crate `eastl-rs`, the pinned commit), read as text.
Everything is in Lean 4 under `lean/Verif/`; `lake build` in `lean/` checks it.

## Method

* **Memory is modelled explicitly.**  Containers in this crate are raw-pointer code, so
  the model keeps the pointers.  `Verif/Mem.lean` (arrays) defines blocks, pointers
  `null | (block, offset)`, reads, writes, `memmove`, allocation and deallocation with the
  element count, drops.  `Verif/Node/Mem.lean` (lists, trees, hash chains, pools) has byte
  addresses.  Results have two faults: `panic` (a Rust panic) and `ub` (access to memory
  that is not live, out of bounds or uninitialised; deallocating a block that is not live
  or with another size; pointer subtraction across blocks; dropping an uninitialised slot).
  Every operation returns `Except Fault _`; a theorem that says `.ok` is therefore also a
  memory-safety theorem, and a termination theorem where the code loops (loops carry fuel;
  running out of fuel is a fault).
* **The allocator is nondeterministic**: theorems quantify over every allocator that
  returns a block that is not live (addresses may be reused).
* **Refinement.**  For each container a small specification in `Verif/Spec/` over
  mathematical lists, finite maps and sets, independent of the model; the theorems say
  that every history of API calls on the model gives the result of the specification,
  including panics.
* **Faults found.**  When the code violates a property, the property keeps its statement,
  theorems prove the violation (for every state where possible, and with a reachable
  witness), and a `..._partial` theorem proves the part that holds.

Layout: `Verif/<Container>/Model.lean` (definitions with source citations),
`Verif/Spec/*.lean` (what the English property means, no reference to the model),
`Verif/<Container>/*.lean` otherwise (lemmas), `Verif/Props/*.lean` (the property theorems,
each with a concrete non-trivial instance beside it).

## Plan and status per property

| id | property | what is modelled and how it is proved | status |
|---|---|---|---|
| C01 | Vector is a faithful growable sequence | `Vector` on block memory; refinement to `List` by induction over histories | proved |
| C02 | Vector capacity law | same; the representation relation carries the capacity, one equation per operation | proved |
| C03 | Vector push is amortised constant | same with a copy counter in memory; potential argument copied + capacity ≤ 2n, induction on n | proved |
| C04 | Vector bounds handling is exact | same; equations for every out-of-range call | proved |
| C05 | Vector memory discipline | same; separation invariant "live blocks = the rest + own block", double drops are excluded by the drop log | proved |
| C06 | Vector drops every element exactly once (moving operations) | same; permutation invariant moved in ~ returned ++ dropped ++ contents | proved |
| C07 | Vector drops every element exactly once (slice operations) | same; `clone_from` drops the overwritten slot; violations as theorems, the part that holds as `_partial`; `C07_slice_call_exact_iff` characterises the sound slice calls after any sound history | partial — The code violates the property: append, assign of a longer slice, From<&[T]> and Clone drop uninitialised slots, assign of a shorter slice leaks. The violations are proved, and exactly which slice calls are sound after any history of sound calls; the partial theorems are the part that holds. |
| C08 | Vector IntoIter partitions the elements | `IntoIter` on block memory; refinement to a list consumed at both ends | proved |
| C09 | Vector constructors build the given sequence | constructors; induction over the source | proved — Slice and clone constructors for element types without destructor; see C07. |
| C10 | Cloned vectors are independent | two containers in one memory, interleaved calls; frame part of the separation invariant | proved — For element types without destructor; for the others clone itself is undefined (C07). |
| C11 | FixedVector stays in its inline storage until full | `FixedVector` = the `Vector` model with the pool allocator and an inline block; refinement with two storage modes | proved |
| C12 | FixedVector behaves as a sequence across overflow | `FixedVector` = the `Vector` model with the pool allocator and an inline block; refinement with two storage modes | proved — append/assign for element types without destructor (C07). |
| C13 | FixedVector never frees its inline storage and never leaks | `FixedVector` = the `Vector` model with the pool allocator and an inline block; refinement with two storage modes | proved |
| C14 | has_overflowed means that elements spilled | same plus `has_overflowed`, `move_new`; the address of the inline block is part of the state | partial — False for histories with clear: the violation is proved; the partial theorem covers all histories without clear. |
| C15 | Moving a FixedVector preserves it | same plus `has_overflowed`, `move_new`; the address of the inline block is part of the state | partial — False in general: an overflowed, moved vector keeps the stale address of the old inline buffer and leaks a block the overflow allocator places there (proved). Proved for inline moves unconditionally and for all lives if the overflow allocator never returns the address of a former buffer. |
| C16 | String contents follow its operations | `String` = the `Vector` model on bytes with the terminator allocator; refinement to a list of bytes; UTF-8 as a separate encoder | proved |
| C17 | String is always NUL-terminated | `String` = the `Vector` model on bytes with the terminator allocator; refinement to a list of bytes; UTF-8 as a separate encoder | partial — False after remove, reserve and with_capacity: violations proved. Proved after push, pop, insert, assign and for clones; C17_terminated_iff says exactly after which operations a string is terminated. |
| C18 | String::assign replaces the contents | `String` = the `Vector` model on bytes with the terminator allocator; refinement to a list of bytes; UTF-8 as a separate encoder | partial — False: assign appends (proved). Holds exactly for empty strings (proved), hence for From<&str>. |
| C19 | String contents are valid UTF-8 | `String` = the `Vector` model on bytes with the terminator allocator; refinement to a list of bytes; UTF-8 as a separate encoder | partial — False for push/insert of non-ASCII characters and for remove/pop of a byte of one (violations proved for all of them). Proved for ASCII histories and for histories that only add text. |
| C20 | String storage stays in bounds including the terminator | `String` = the `Vector` model on bytes with the terminator allocator; refinement to a list of bytes; UTF-8 as a separate encoder | proved |
| C21 | Equal strings are equal keys | `as_str`, `==`, FNV-1 on `BitVec 32`; from the refinement | proved |
| C22 | VectorMap refines a finite map | `VectorMap` over the `Vector` memory, binary search step by step; sorted-list invariant, refinement to a finite map | proved |
| C23 | VectorMap iteration is strictly sorted | `VectorMap` over the `Vector` memory, binary search step by step; sorted-list invariant, refinement to a finite map | proved |
| C24 | Binary search finds the insertion point | the search loop; invariant of the loop | proved |
| C25 | VectorMap bulk construction: last binding wins | `VectorMap` over the `Vector` memory, binary search step by step; sorted-list invariant, refinement to a finite map | proved |
| C26 | VectorMap works for every comparator | same without the assumption that ties are equal keys | partial — False for every comparator that ties keys that == distinguishes (violation proved for all of them, after any history). Proved: order kept, and a key is found after its insertion until a call names another key tied with it. |
| C27 | Deque is a faithful double-ended sequence | `Deque`: pointer array and subarray blocks, raw iterators; representation relation, refinement to `List` | proved |
| C28 | Deque iteration in either direction | `Deque`: pointer array and subarray blocks, raw iterators; representation relation, refinement to `List` | proved |
| C29 | Deque length is exact | `Deque`: pointer array and subarray blocks, raw iterators; representation relation, refinement to `List` | proved |
| C30 | Deque never moves elements on push and pop | `Deque`: pointer array and subarray blocks, raw iterators; representation relation, refinement to `List` | proved |
| C31 | Deque drops every element exactly once | `Deque`: pointer array and subarray blocks, raw iterators; representation relation, refinement to `List` | proved |
| C32 | Dropping a Deque releases all its memory | `Deque`: pointer array and subarray blocks, raw iterators; representation relation, refinement to `List` | partial — False: drop always leaks the subarray of the back end (proved for every history). The partial theorem: everything else is freed, with its own size. |
| C33 | Deque memory is proportional to its contents | `Deque`: pointer array and subarray blocks, raw iterators; representation relation, refinement to `List` | proved |
| C34 | Queue is FIFO | `Queue` over the `Deque` model; from C27 | proved |
| C35 | Deque compat iterators round-trip | compat iterators as pairs of raw iterators; round trip | proved |
| C36 | List is a faithful double-ended sequence | `List`: sentinel and linked nodes in an address-indexed heap; circular representation relation | proved |
| C37 | List iteration | `List`: sentinel and linked nodes in an address-indexed heap; circular representation relation | proved |
| C38 | List frees every node and drops every value exactly once | `List`: sentinel and linked nodes in an address-indexed heap; circular representation relation | proved — For an allocator that ignores the layout given to deallocate; see C39. |
| C39 | List deallocates with the layout it allocated | `List`: sentinel and linked nodes in an address-indexed heap; circular representation relation | partial — False: nodes are freed with a wrong layout (proved for every nonempty list). The partial theorem: the address is always that of a block in use. |
| C40 | List never moves elements | `List`: sentinel and linked nodes in an address-indexed heap; circular representation relation | proved |
| C41 | FixedPool hands out disjoint aligned in-bounds nodes | `FixedPool` on byte addresses; arithmetic invariant over histories | proved |
| C42 | FixedPool capacity is exact | `FixedPool` on byte addresses; arithmetic invariant over histories | proved |
| C43 | Pool with overflow routes every free to its origin | pool with overflow; routing by address; arithmetic | partial — False when the pool memory ends where its object ends: an overflow block at that address is freed into the pool (proved, with a reachable state). Proved when at least one byte of the object follows, as in FixedList and FixedMap. |
| C44 | FixedList uses its inline nodes first | `FixedList` and `conformant::FixedList`: the list model over the pool with overflow | proved — Both FixedList and conformant::FixedList. Frees with an allocator that ignores the layout, see C39. |
| C45 | HashMap refines a finite map | hash table: bucket array, singly linked chains in a heap; chain representation, refinement to a finite map | proved — For up to 2557710464 entries; every history that would go beyond panics (C45_any_history, C53). |
| C46 | HashMap length is the number of distinct keys | hash table: bucket array, singly linked chains in a heap; chain representation, refinement to a finite map | proved |
| C47 | HashMap iteration visits every entry exactly once | hash table: bucket array, singly linked chains in a heap; chain representation, refinement to a finite map | proved — Loops with iter_mut that stop early: C127_hash_iter_mut_part. |
| C48 | Rehashing is invisible | hash table: bucket array, singly linked chains in a heap; chain representation, refinement to a finite map | proved |
| C49 | Hash insert keeps the first key and returns the old value | hash table: bucket array, singly linked chains in a heap; chain representation, refinement to a finite map | proved |
| C50 | Hash table entry API | hash table: bucket array, singly linked chains in a heap; chain representation, refinement to a finite map | proved |
| C51 | Load factor is bounded | the rehash policy on naturals with f32 rounding; the whole prime table, arithmetic stage by stage | partial — False: f32 rounding lets 17961080 entries sit in 17961079 buckets (proved, and reached). Proved below that size, and an excess of at most 195 at all sizes. |
| C52 | Bucket counts are primes from the table and never shrink | the rehash policy on naturals with f32 rounding; the whole prime table, arithmetic stage by stage | proved |
| C53 | The rehash policy never fails | the rehash policy on naturals with f32 rounding; the whole prime table, arithmetic stage by stage | partial — False: at 2557710464 entries the next new key panics (proved, and reached). Proved for all smaller sizes. |
| C54 | Hash table frees every node and drops every entry exactly once | hash table: bucket array, singly linked chains in a heap; chain representation, refinement to a finite map | proved |
| C55 | Dropping a hash table releases all its memory | the same representation with the list of bucket arrays ever allocated; induction on the last call for exactly which arrays remain | partial — False: bucket arrays are never deallocated (proved for every map that ever held an entry; C55_leak_exact says which arrays remain: one per number of buckets the map has had). Nodes are all released. |
| C56 | The shared empty bucket array is never written | hash table: bucket array, singly linked chains in a heap; chain representation, refinement to a finite map | proved |
| C57 | HashSet is a set | `HashSet` as a table of unit values; refinement to a key set | partial — False: HashSet::insert returns true when the key was already present (proved for every history). All effects and all other results are those of a set. |
| C58 | Clearing a hash table | hash table: bucket array, singly linked chains in a heap; chain representation, refinement to a finite map | proved |
| C59 | Hash table compat iterators round-trip | compat iterators of the table; round trip | proved |
| C60 | Tree lookup is correct | red-black tree nodes in a heap with the anchor node of the object; representation of an inductive tree, induction over it | proved |
| C61 | Tree iteration is sorted and complete | red-black tree nodes in a heap with the anchor node of the object; representation of an inductive tree, induction over it | proved — For objects whose first word is the left-most node, as the crate documents it. If the first word is the right-most node (the slot of a node's right child, as in C++), only the last entry is yielded. |
| C62 | Freeing a tree frees each node once | `free_tree`, `clear`, `drop`; induction over the tree | proved |
| C63 | Clearing a tree empties it | `free_tree`, `clear`, `drop`; induction over the tree | partial — False for every non-empty tree: clear frees the nodes but does not reset the tree, later calls use freed memory (proved). True for empty trees, and each node is freed once. |
| C64 | Dropping a tree drops its entries | `free_tree`, `clear`, `drop`; induction over the tree | partial — False: no destructor is ever run (proved for every tree). True exactly for empty trees or types without destructors. |
| C65 | Parent pointer and colour share a word losslessly | `ParentColor` on `BitVec 64`; bit-vector extensionality | proved |
| C66 | Integer hashes respect and distinguish integers | hash functions on bit vectors, C strings in memory; arithmetic | proved |
| C67 | Default hash of strings | hash functions on bit vectors, C strings in memory; arithmetic | proved — For contents that are UTF-8; other foreign bytes are C121. |
| C68 | Element rotation used by remove | `util::rotate`; induction | proved |
| C69 | FixedMap starts empty with its inline pool | `FixedMap::new` and its overflow variant; from the pool model | proved |
| C70 | Lists sharing an allocator do not interfere | two lists / hash tables in one heap, interleaved calls; frame rule | proved |
| C71 | Hash maps sharing an allocator do not interfere | two lists / hash tables in one heap, interleaved calls; frame rule | proved |
| C72 | Collecting pairs into a hash map | `FromIterator` of the hash map; induction over the source | proved |
| C73 | Histories on a map or set | tree histories that change no links; refinement to the sorted list | proved |
| C74 | Place of a new key in a tree | the search for an insertion position; induction over the tree | proved |
| C75 | Linking a child below a tree node | `set_left`, `set_right` on words; case analysis with C65 | proved |
| C76 | Moving a map or set | the anchor moved to another address; representation at the old anchor | partial — False for every non-empty tree: iteration over a moved tree reads the place it was moved from (proved). Lookup, and iteration over an empty tree, still work. |
| C77 | Float hashes respect equality | hash functions on bit vectors, C strings in memory; arithmetic | proved |
| C78 | Vectors and deques sharing an allocator do not interfere | two containers in one memory, interleaved calls; frame part of the separation invariant | proved — Slice copies for element types with destructor are excluded as in C01. |
| C79 | Comparators | `Less`, `Greater`, `EqualTo` over an arbitrary `partial_cmp`; case analysis, then C22/C23 | proved |
| C80 | Broken comparators, equalities and hashes cannot corrupt a map | the map models with comparator, equality and hash as arbitrary functions per call; invariant by induction over the calls | proved — Functions may change from call to call, not within a call. Hash maps: histories of at most 2557710464 calls, beyond which the growth policy panics (C53); their bucket arrays leak (C55). |
| C81 | Floating-point keys | IEEE bit patterns decoded and compared with their rational value (Spec/Float.lean); total order without NaN, and refutation with NaN for all histories | partial — False for NaN: it is never found, is inserted again each time and hides other keys (proved). True for histories that store no NaN, with Less and with Greater: they behave as on a finite map. |
| C82 | Bindings persist in a hash map | from the refinement of C45, which asks only for symmetry and transitivity of `==`, and C77 | proved — Up to the number of entries at which the growth policy gives up (C53). |
| C83 | Vectors on a 64-bit machine | `allocator.rs` in bytes with `usize` overflow per build mode, `Vector` again on top of it; simulation of the element-level model call by call | proved — Slice copies for element types with destructor are excluded as in C01. The system allocator does not fail (C85). |
| C84 | Capacities that do not fit are refused | as C83; arithmetic: a wrapping element count exists for every size, and wrapped capacities are below the length | partial — True in debug builds. False in release builds, where the byte count and the new capacity wrap around (proved for every element size of at least two bytes, resp. every reachable vector), also for fixed vectors and vector maps. True in release builds too for histories in which each request by itself is for less than 2^63 bytes. |
| C85 | Running out of memory | as C83 with a system allocator that may return null | partial — False: the null pointer is used unchecked (proved for every reachable vector and string). True of calls that need no memory. |
| C86 | Zero-sized elements | as C83 with element size 0; induction over the calls | proved — The real `len` and `capacity` panic as well (`offset_from` on a zero-sized type), which the model does not show. |
| C87 | C++ code can iterate over a Rust hash map | EASTL's C++ loop over the modelled memory; invariant of its position in the bucket array, induction over the remaining nodes | proved — The C++ side is EASTL's iterator, restated in the model; it is not part of the repository. |
| C88 | Iterators passed between Rust and C++ | as C87; `into_compat`/`from_compat` compared with the C++ iterators, universal refutations | partial — False: Rust's bucket pointer is one bucket ahead of the C++ one and its end has a null node instead of the sentinel. C++ skips a bucket or runs out of the array, never stops at Rust's end, and Rust repeats a bucket or follows the sentinel (all proved). The current node and the bucket of the end agree. |
| C89 | A panicking destructor does not corrupt a vector | `clear`, `append`, `assign` again with the state at the moment a panic leaves them; from the representation of C01 | partial — False: the pointers are reset only after all destructors ran, so all elements are dropped again (proved for every reachable vector and string). True: a drop without earlier panic runs each destructor once. |
| C90 | A panicking clone does not expose uninitialised elements | `clear`, `append`, `assign` again with the state at the moment a panic leaves them; from the representation of C01 | partial — False for append and assign that have to grow: the length is raised before the clones are made (proved for every reachable vector and string). True, with and without room: the old elements and the clones made so far are in place; assign within the length is sound. |
| C91 | A panicking destructor does not corrupt a list | `List::clear` likewise; induction over the nodes freed before the panic | partial — False: the sentinel is reset only at the end; freed nodes are used if the panicking element is not the first, otherwise it is dropped twice (proved for every reachable list). True: the call itself drops each element at most once. |
| C92 | A panicking destructor does not corrupt a hash map | `free_bucket`, `free_buckets` likewise; induction over chain and buckets, splitting the order of freeing at the first panic | partial — False: buckets are reset only at the end; afterwards freed nodes are used or an entry is dropped twice (proved for every reachable map and every set of panicking destructors). True: the call itself drops each key and value at most once. |
| C93 | Hash table nodes have the layout C++ expects | sizes and alignments as naturals, `repr(C)` offsets; divisibility | partial — False for over-aligned types: the Rust node is flat, the C++ node contains a padded pair (proved: the exact condition, and the difference for every key aligned to 16 with a value of at most 8 bytes). True for alignments up to 8 and for all sets. |
| C94 | Vector map elements and tree nodes have the layout C++ expects | as C93; a tuple layout is any placement Rust permits | partial — False: the entries are Rust tuples, whose field order is unspecified (a permitted, different layout is constructed for all types of non-zero size). True if tuples are laid out in order. |
| C95 | Deque iterators do not outlive what they point to | iterators kept across calls on the deque model; from the representation of C27 | partial — False: the iterators carry the lifetime of the deque's type parameter, so safe code may change or drop the deque first; then freed memory is read, or an element already given away is seen (proved for every reachable non-empty deque). True if nothing was added or removed in between. That the signatures permit this is read off the source; lifetimes are not modelled. |
| C96 | Mutable references are exclusive | two iterators of one deque/list; one iterator driven from both ends by induction | partial — False: two mutable iterators can exist at once (Deque/Queue: lifetime not tied to the borrow; List: shared borrow; HashMap: the iterator can be cloned), and what is written through one is seen through the other (proved for every reachable non-empty container). True of one iterator driven from both ends. That the signatures permit this is read off the source. |
| C97 | Vector map lookups take logarithmically many comparisons | searches returning the comparisons made, with an erasure lemma; induction on the size halved | proved — Exact number of comparisons, for any comparator. |
| C98 | Tree lookups take logarithmically many comparisons | as C97 for tree searches; height of red-black trees by induction | proved — The red-black invariant is a hypothesis: the crate itself builds no trees. |
| C99 | Rehashing is amortised constant | potential over the stages of the bucket policy, along histories | proved — Up to 2557710464 entries, beyond which the policy panics (C53). |
| C100 | Running out of memory in lists and hash maps | the same environment with an allocator that returns null; each call unfolded in every reachable state; bucket arrays: the table with their allocator as an argument, equal to the model for the usual allocator, and the invariant of the growth policy says when it is asked | partial — True of lists: the call panics with the list unchanged. False of hash maps: inserting a new key writes through the null pointer (proved for every reachable map and every call that adds a key). True of calls that add no key. A call that needs a larger bucket array and gets none writes through the null pointer as well, and no other call needs one (the model with the bucket allocator as an argument is proved to be the model of the other properties in stepA_default). Deques are C113. |
| C101 | Panics in hash functions and equality are memory safe | the table functions again with a budget of calls after which hash or equality panics; invariant of a table with lost nodes, induction over calls | proved — Hash function and equality may also differ from call to call. A history of more than 2147483776 calls may end with the policy's panic (C53), because lost entries stay counted. |
| C102 | A call left by a panicking key changes nothing | the state of a rehash interrupted after any number of moves, by induction over buckets and chains; lookup in it | partial — False: if the hash of an entry panics while the table grows, after at least one but before the last entry was moved, some entry is lost for good although len still counts it (proved for every reachable map, every growing insertion and every such point). True of every call that does not grow the table, and of panics before the first or after the last entry is moved. |
| C103 | A deque moves few pointers per call | the model counts pointers copied; exact state of a full deque under rounds of S pushes and S pops, induction over rounds; potential arguments for push_back alone and, with halvings of the free space, for push_front alone (upper and lower bound) | partial — False: a deque used as a queue of constant length moves all but one of its pointers once per subarray, because the pointers are moved by the least amount that makes room (proved for arbitrarily long queues and any number of rounds; the model has no u32 bound). True of push_back alone (3/S per call), and each push moves at most n/S + 2 pointers, other calls none. push_front alone moves logarithmically many pointers on average, which is also proved to be unbounded: the array is shifted by half of the free space, so its pointers are moved once per halving before it grows. |
| C104 | Unsteady and panicking comparators of vector maps | the functions of VectorMap again with a state passed through every comparison and a result for panics; invariant of the vector by induction over calls; if the answers fit an order, the calls that return are the calls of C22 | proved — Comparator and == run on a state of any type and may panic. Drops of single keys and values by unwinding are not logged by the model of vectors. |
| C105 | Debug output shows the contents | the formatting loops of the standard library and the Debug implementations as functions to lists of characters; induction, with the iteration theorems C01, C16, C22, C28, C37, C47, C57, C61 | partial — The printed text is as claimed for every container. That different contents print differently is proved for elements that print without commas and false otherwise: String escapes nothing, so a vector of two strings prints like a vector of one (proved for all pairs). For Map the tree is given, as the crate builds none. {:#?} is C166. |
| C106 | Unsteady and panicking keys of hash maps | the functions of the hash table again with a state passed through every hash and comparison and a result for panics; the invariant of C101 (chains need not be at home), induction over calls; if the answers do not depend on the state, equality with the calls of C45 | proved — Hash function and == run on a state of any type and may panic; C101 is the case of pure functions that panic after a number of runs. The policy's panic after more than 2147483776 calls as in C101. |
| C107 | A deque survives destructors that panic | the drop loop of the deque again with a result for panics; induction over the elements, with the representation invariant of C27 | partial — False: the elements behind the one whose destructor panics are never dropped and the whole memory of the deque is lost, because drop is a plain loop (proved for every history and every such element). True: the process is never aborted by it, and a prefix of the elements is dropped, each once, in order. |
| C108 | Collecting from an iterator that panics | the container built from the items yielded so far, then its drop, as unwinding runs it; the invariants of C01, C27, C36, C45, with an account of keys and values for the hash table, VMap.collectP over the account of C116 for vector maps | partial — Elements are dropped exactly once in all cases, vectors and vector maps release all memory, lists stay usable. Deques keep one subarray allocated (proved) and hash maps their bucket arrays, the leaks of C32 and C55. |
| C109 | The length of a list is its number of elements | the functions that touch the count again with u32 arithmetic for both builds; proved to go through the same memory as the model of C36, counts differing by a multiple of 2^32, by induction over the calls | partial — False: the count is a u32. In release builds a list whose length is a multiple of 2^32 says it is empty, in debug builds push panics at 2^32 - 1 elements (both proved for every history leading there). True below 2^32 elements in every build; above, release builds go wrong in len and is_empty only: all other results, iteration, destruction and the drop of every element are proved right for every length. |
| C110 | Wrappers behave like what their names say | the forwarding functions as definitions of their own; C44, C27, C72, C57 and their invariants | proved — What HashSet::insert returns is C57. |
| C111 | Deques grow as far as memory allows | realloc_ptr_array and the pushes again with the u32 size of the pointer array, for both builds, panics caught; the size is 10*2^k-2 with k at most 28 throughout, by induction over the calls | partial — False: the size of the pointer array is a u32 that overflows when it grows from 10*2^28-2 slots, so a deque never has more than (10*2^28-2)*S elements (S per subarray) and some push of a longer sequence panics, in both builds; each such panic of a release build leaks a pointer array. True: histories that stay below (10*2^28-3)*S elements never panic, and for any history the calls that return act as if the panicking pushes had not been made, every element accounted for. |
| C112 | C++ code can read Rust sequences | the loops, increments, size and indexing of EASTL's headers as functions on the model's memory; proved from the representation invariants of C01, C12, C27, C36 and C44 by induction over the loop | proved — The C++ functions are transcribed from EASTL's headers, which are not in the repository. Slice copies of elements with a destructor are excluded as in C01. |
| C113 | Deques survive running out of memory | the functions that allocate, again with a null result; the representation invariant of C27 decides which branch a push takes in each reachable state | partial — False: the null pointer is used unchecked. Every push that starts a subarray is undefined behaviour in every reachable state, and as many pushes at one end as a subarray has elements always get there; so is creating a deque. True of all calls that need no memory. |
| C114 | A call refused for its index changes nothing | insert and index assignment again with the state they leave when they panic; induction over histories against a sequence that ignores refused calls | proved — Slice copies of elements with a destructor are excluded as in C01, non-ASCII text and assign as in C16. |
| C115 | Every map C++ hands over can be read | a function that writes a tree of any shape to memory; its result satisfies the assumption of C60-C64, C73 and C98 by induction on the tree; a balanced red-black tree exists for every list by halving | proved — The layout C++ writes is that of the Rust structs (C65, C94); how C++ came to build the tree is not modelled. Dropping runs no destructors of entries (C64). |
| C116 | VectorMap drops every key and value exactly once | the functions of C104 with the list of what goes out of scope; erasing the list gives C104's functions; one-step lemma and induction over histories; conservation as in C54 | proved — Destructors that panic are not covered here. From a slice (clones) is the array case with the clones. |
| C117 | Entry closures that panic leave a hash map intact | and_modify and or_insert_with again with closures that may stop by a panic; one-step lemma from the lemmas of C45 and C50, induction over histories; conservation as in C54 | proved — What a closure leaves behind when it panics is a value of the model's choice; what the closure itself owns is the caller's. Sizes as in C45. |
| C118 | Fixed containers have the layout of the byte-buffer variant and room for exactly N nodes | layouts of repr(C) structs as in C93 applied to the field lists of the headers and containers; divisibility of powers of two; Pool.init on the two buffers | partial — The layouts agree exactly if the elements are not aligned more strictly than the header; for elements aligned to 16 or more they do not, which is proved. The number of nodes is right in every case. |
| C119 | How often a hash map hashes and compares keys | a hash function and equality that append to a log, put into the stateful model of C106; inversion lemmas for each loop say what a successful run logged; counting over histories with the rehash observer of C99 | proved — Counted on the model with a stateful hash function and equality (C106), which with steady answers is the model of C45; computing one hash is one call, whatever the Hash implementation feeds to the hasher. |
| C120 | Hash of a String and of the pointer to its text | push on the empty string unfolded in the model; the two hashes of a lone byte compared for all 256 bytes; for any history the invariant of C17 | partial — False: push stores the low byte of a character, which is hashed as it is in the String but read as U+FFFD through the pointer; of a string of one pushed character the two hashes agree exactly if that byte is 1 to 127. True for UTF-8 contents without NUL. |
| C121 | Hash of foreign bytes that are not UTF-8 | Rust's from_utf8_lossy as a function on byte lists; it satisfies and is determined by a small relation (Spec/Lossy.lean) that mentions only the encoder of Lean's library | proved — to_string_lossy is Rust's standard library, modelled from its published source. |
| C122 | Threads may have what their contents permit | a type is its pair of Send and Sync; each struct of the crate is its explicit impl or the conjunction over its fields; propositional logic for all arguments | partial — One direction is true of every type of the crate: nothing is permitted that the contents forbid. The other is false of lists, fixed lists, sets, fixed maps, the owning iterator of vectors and all borrowing iterators, which have no Send or Sync whatever they contain (proved); true of the other containers. That no method writes through a shared reference is not part of this; List::iter_mut does (C96), but lists cannot be shared. |
| C123 | An allocator that panics does no harm | each call comes with the number of requests the allocator grants; the allocating functions are written again with the state a panic leaves; induction over the calls with the invariants of C01, C16, C22, C28, C36 and C45; for fixed lists the free inline slots count as granted requests (for maps with a rehash policy whose threshold may have run ahead of the array) | partial — True of vectors (slice copies of elements with a destructor excluded as in C01). False of hash maps: if the first bucket array is refused, the next insertion writes to the shared static array; true of maps that have one. False of deques: a push_back that is refused a subarray forgets its element; a constructor that is refused memory frees a null pointer; a deque of zero-sized elements cannot be created and aborts. Otherwise true of deques. True of lists and fixed lists, of fixed vectors, of vector maps, and of strings (with the restrictions of C16). |
| C124 | What a FixedVector lends out can be taken away | mem::take, replace and swap exchange the vector and the allocator's pool address; invariants of C11 and C15 for the histories, and a vector whose block is gone faults on every access | partial — False: a vector taken or exchanged before it overflowed points into the storage of its former owner; used after that it is undefined behaviour in every case. Whole objects exchanged keep their old elements and depend on each other's storage. A clone copies the address of the inline storage and can leak. True of vectors that overflowed and of clones if the overflow allocator never returns that address; what is left behind is always sound. Clones of elements with a destructor are excluded as in C01. |
| C125 | Pointers to elements stay valid | a specification of the place an element goes with each call; induction over the later calls with the representation invariants, which name the address of every element | proved — Trees cannot be changed through the crate. A key unequal to itself has no entry that a lookup finds and is excluded. |
| C126 | Lists may change their place | the two pointers of the sentinel are copied; a list whose ring closes at another place, shown to fault on every traversal by induction over its nodes | partial — False of every list, also empty ones: the nodes keep pointing at the old place, so clear and drop are undefined behaviour and iteration does not stop. The constructors are unsafe and forbid moving, but nothing in the types prevents it. Length, first and last element and the elements an iterator yields at first are right. Of fixed lists, the list inside exchanged with any other is proved; moving the whole object with its inline nodes is not part of this. |
| C127 | Elements can be assigned while iterating | histories whose items are calls or loops; each loop step is an assignment at the iterator's position, which the representation invariant absorbs | proved — C127_hash_iter_mut: a loop over a hash map that replaces all values by a function of key and value. C127_hash_iter_mut_part: loops that assign given values and may stop early, with the values dropped; the specification is a relation, since the order of iteration is not determined. Slices of vectors: index assignment in C01. |
| C128 | Containers that C++ built can be used | predicates for what C++ may hand over, each shown to imply the representation invariant the histories keep; then the inductions over histories of C01, C16, C22, C10, C127 and C45 (for hash maps with a growth policy of which only a lower bound on the buckets is known) | proved — What C++ hands over is described by Handed/Model.lean after the layouts in /repo; EASTL itself is not in /repo. Slice copies of elements with destructors are excluded as in C07, the layout passed when a list node is freed as in C39; one subarray of a deque (C32) and the bucket arrays of a hash map (C55) are not given back. Ordered maps: C115. |
| C129 | Containers may contain vectors | the container models instantiated with vectors as elements; the invariant says that memory consists of the blocks of exactly the vectors in the container, pairwise different; each call permutes the vectors among container, caller and those to be dropped; induction over programs | proved — The two levels have separate memories. Calls that clone slices are excluded as in C07 (of vectors always, of elements if they have destructors), extend of a list is excluded. One subarray of a deque is not given back (C32); the layout passed when a list node is freed is C39; the bucket arrays of a hash map are not given back (C55), and its programs have at most 2557710464 items (C53). Of entry, or_insert is modelled here. Panics end the program that is considered. |
| C130 | References obey Rust's aliasing rules | a machine of permission stacks per cell (Spec/Borrow.lean); the vector's functions with the tag of its pointer and the accesses they make; an invariant saying that the tag owns all cells of the block; that a slice derived from a one-element reference is refused for every state of the machine; refinement to the sequence with slices of two or more elements refused, by induction over histories; for lists and fixed vectors the stacks after the constructor are computed for an arbitrary place, and the next borrow removes the stored pointers' tags | partial — False: as_slice, as_slice_mut, clear, drop, append and assign of a vector, the drop and as_slice of its iterator, the drop and growth of a deque and the growth and iter_mut of a hash table make a slice of several elements from a reference to the first one, whose permission covers only that one. The first insertion into a hash map makes a mutable reference to the static empty bucket; the first push on a list and on a fixed vector uses pointers into itself that have been invalidated by borrowing it; a pool's reused node comes as a pointer to its link. Proved exactly for vectors: every call that does not look at two or more elements as a slice is fine, every one that does is undefined behaviour. The rules are those of Stacked Borrows without protectors and two-phase borrows; for the newer Tree Borrows, which accepts these slices, see C134. Element accesses inside deques, hash tables and trees, and lists after the first push, are not part of this. |
| C131 | Owning iterators may be used up | the position of the front cursor is the number of elements taken from the front (induction over calls); a reference there is valid iff it is below the capacity | partial — False: if everything was taken from the front and the vector was full, as_slice and drop make a reference to what lies behind the block, for instance at the end of every for loop over a vector made from an array. Proved for all other cases. Of the rules for references only that they point into a live block is used. |
| C132 | Constructors and moves make valid values | which bytes (initialised or not) are a value of a type, by recursion on the type (Spec/Valid.lean); `assume_init` fails on others; arrays of `MaybeUninit` are valid for all sizes, an array of bytes that is not empty is not; `mem::swap` in a move reads both sides as values | partial — Moving a FixedVector to fresh storage exchanges its allocator with one that was never initialised. False also for conformant::FixedList (behind an unstable feature): its buffer is an array of u8 made by MaybeUninit::uninit().assume_init(). Proved for the buffers of the other fixed containers, for all element types and sizes. |
| C133 | Hash maps may have strings as keys | the hash table with string handles as keys, whose hash and == read a memory of strings; the contents of the table mapped through that memory are the finite map (keys are distinct as byte strings); every logged call of hash or == is on a live string; the keys dropped, handed out and lent by a call are exactly the blocks that leave the pile of live strings; induction over programs | proved — Strings and the map's nodes are in separate memories. Hashing and comparing are made after the call that asks for them, which is the same as neither changes memory. Bucket arrays are not given back (C55). What happens to values is C54. Strings have no order, so they cannot be keys of a vector map with the default comparator. |
| C134 | References obey the newer aliasing rules | Tree Borrows as a machine (Spec/TreeBorrow.lean): the pointers a pointer was made of, and a state for every pointer at every cell; the model of C130, which is generic in the rules, is run with it; what the proof about vectors needs of the rules is a structure with one instance for either set of rules; for lists and fixed vectors, a pointer that has ended stays so through every access | partial — False for lists, whose first push writes through a pointer to the sentinel that was ended when init_sentinel_node stored the other one, and for fixed vectors, whose begin pointer is ended by the first write through the end pointer, so that looking at one that is not empty is undefined behaviour. Proved for all histories of vectors, for their iterators but for the case of C131, for the slices of deques and hash tables and for pools. The rules are those of Tree Borrows without protectors and interior mutability. |
| C135 | Elements may be rearranged in place | exchanges and replacements as further operations in the refinement of C01: each keeps the representation invariant of a vector, with what is handed out and dropped accounted for as multisets; a permutation is a list of exchanges by induction over the derivation of `List.Perm` | proved — Exchanges and replacements of single elements are modelled; other slice methods are sequences of these (every permutation is reached). Calls that clone slices are excluded for elements with destructors as in C07. Aliasing rules: C130, C134. |
| C136 | Strings may be changed in place | a bytewise change that maps the encoding of each character to the encoding of the changed one commutes with `utf8`; ASCII case change is one, by cases on the width of a character | proved — Calls on non-ASCII characters and assign are excluded from the histories as in C16, C18, C19; the case change itself is proved for any text. |
| C137 | An entry of a map can be removed | the model's `removeEntry` is an error for all arguments; a caught panic leaves memory as it was, so a history with attempts reduces to the history of C73 without them | partial — False: remove_entry is unimplemented and panics on every map and for every key. Proved that attempts do no harm: all other calls in a history answer as if there had been none. |
| C138 | Characters put into a string come back | the bytes of a string are the Latin-1 encoding of a text in which every character is replaced by the one of its low byte; the calls commute with this (induction over histories); a byte read as a character is the pushed one iff that is below 256 | partial — False exactly of the characters above U+00FF, of which only the low byte is stored. Proved for all others, although the bytes between U+0080 and U+00FF are not UTF-8 (C19), and proved exactly what comes back otherwise. |
| C139 | Container objects have the layout C++ expects | a type is its size and alignment; the layout algorithm of C on the field lists of both sides; the offsets agree as long as what precedes does, and whether an empty class fits into padding is arithmetic modulo 8 | partial — False for allocators and comparators without fields, exactly as the iff theorems say, and not guaranteed for String, Set and the comparators, which are not repr(C). The EASTL classes are restated in Spec/Objects.lean. |
| C140 | Iterating over a hash map keeps its order | the chains that represent a table, read bucket by bucket, are what iteration yields; each call edits one chain in place and keeps their number unless it rehashes, so the list of entries is edited as the finite map is; induction over the later calls | proved — That growing the number of buckets does reorder is shown by the example; when it grows is C52. |
| C141 | Printing reports errors | a value prints as a tree of texts and answers, a writer is any state machine; the builders of the standard library and itertools and `format!` are restated on these and shown equal to doing one thing after the other up to the first error; a string's text is decoded with Lean's `String.fromUTF8?`, bytes that encode none being undefined behaviour | partial — False for maps and hash sets, which panic if a key or value reports an error; refusing writers are reported by all. |
| C142 | A loop over a map takes time proportional to its entries | the iterators again with a count of buckets read and links followed, equal to the model's otherwise; for trees the exact sum by induction over the tree, each link being followed at most twice; for hash maps what was read is no longer left, and the table of the policy bounds buckets by entries | partial — Proved for maps and sets. False for hash maps, which never give up buckets: the loop looks at each bucket once, and there are about as many as there ever were entries (proved in both directions). Loops over vectors, deques and lists have no inner loops and are not included. |
| C143 | Calls move only the elements they must | the memory of the model counts elements moved and blocks asked for, and the effect of every call on the counts is part of its lemma; `remove` of the deque again with a count of swaps and of iterator steps, equal to the model's otherwise, the count by induction over the iterators | partial — Proved for vectors, exactly. For deques the pairs swapped are as many as they should be, but the iterators remove uses step over every element up to it one by one, 2n+1 steps in all at whatever index, so removing at an end is as slow as in the middle. |
| C144 | Growing piece by piece is amortised | from the exact cost of each call (C143): the sum over n rounds by induction, the capacity being equal to the length after each round | partial — False: append reserves exactly what is missing, reserve always reallocates, and String::assign reserves anew each time. Proved that once room is made no append moves or allocates; that pushes are amortised is C03. |
| C145 | Dropping a map needs little stack | `free_tree` again with the most calls active at a time and the number of calls, equal to the model's otherwise; induction over the tree with the allocator's law, and the height of red-black trees from C98 | proved — The bound is for red-black trees. |
| C146 | Keeping a vector map sorted moves only what is greater | the search splits the entries at the key (C24), so those behind it are the ones with greater keys; induction over the pairs given, with an invariant for doubling | proved — Comparisons are C97. |
| C147 | Strings on a 64-bit machine | `Machine/Text.lean` repeats the string functions that compute capacities, each addition checked or wrapped; while all capacities fit, each equals its counterpart, by induction over the history | proved — The limit is stated on capacities computed from the calls alone (Spec/TextLimits.lean). |
| C148 | String capacities that do not fit are refused | as C147; `capacity + 1` wraps to 0 for `usize::MAX`, and `cap + n + 1` wraps below `cap` for requests just under it | partial — False in release builds: reserve(usize::MAX) does nothing, and slightly smaller requests give a buffer too small for the text or a capacity below the length, after which a push writes out of bounds. True in debug builds, of with_capacity, and in release builds while each request is for fewer than 2^63 bytes. |
| C149 | Collecting into a vector whatever length is announced | collecting is `reserve` then pushes, so C83 applies to the history; in release builds C84 already fails before the first element | partial — False in release builds: the size in bytes wraps around, e.g. for (0..(1 << 61) + 1).collect::<Vector<u64>>(), which is undefined behaviour. True in debug builds, and in both for announced numbers of fewer than 2^64 bytes. |
| C150 | Dropping a hash map needs little stack | `free_bucket` again with the most calls active at a time, equal to the model's otherwise; induction along the chains, whose lengths the invariant gives; the number of buckets is determined by the number of entries (C52), so its multiples can be chosen as keys beforehand | partial — False: free_bucket calls itself for the next node before it frees its own, so there are as many calls active as entries in the fullest bucket; n multiples of the number of buckets take n. |
| C151 | Lookups compare few keys | from the record of key calls of C119, with the same keys | partial — False for integer keys chosen to collide, since integers are their own hash and the number of buckets depends only on the number of entries (C52). |
| C152 | Fixed containers with room for no element | instances of C44 with no slots; the constructor of FixedVector by computation | partial — False for FixedVector, whose constructor takes the address of the first element of the buffer and panics if there is none. Proved for fixed lists in both layouts. |
| C153 | A string is a sequence of bytes, whatever the characters | the byte-level invariant of C20 kept by each call, with the sequence of bytes as specification; induction over histories | proved — Completes C16, C114, C123 and C138, which speak of texts: any characters, and assign too. |
| C154 | Fixed vectors compute with machine integers | as C83, for any two allocators that agree on the capacities that occur; the fixed vector's allocator in bytes is such a pair | proved — Slice copies for element types with destructor are excluded as in C01. The system allocator does not fail (C85). For release builds beyond the address space see C84. |
| C155 | Vector maps compute with machine integers | as C154; induction over histories that the capacity is at most the larger of the initial one and twice the peak number of entries; a capacity law for each call gives exactly which histories panic | proved — The system allocator does not fail (C85). For release builds asked for an initial capacity of 2^64 bytes or more see C84. |
| C156 | Hash maps and sets never overflow an integer | the functions that compute with counts and byte sizes are modelled again with `u32` and `usize` results for both builds; induction over the history from its end: C45 bounds the count wherever a history arrives, and every prime of the policy leaves room for the sentinel | proved — Maps and sets with the default allocator. C156_sum_would_wrap shows that the builds would differ if the count could reach the end of a u32. |
| C157 | Fixed pools do the same in every build | the pool is modelled again with assertions that only debug builds check and `usize` results; both builds are shown equal call by call under the conditions of C41, and the release build is computed when they fail | partial — True if the memory reaches the first aligned address, nodes can hold a pointer, and requests are for one node. Otherwise only debug builds panic: a release build hands out nodes behind the memory, nodes that freeing their neighbour overwrites, or nodes smaller than asked for. |
| C158 | Fixed lists do the same in every build | the pool of C157 and the counted list of C109 together; the laws of the node allocator are carried over from C43 call by call, so the representation invariant of lists applies to both builds | proved — FixedObj is the object of either kind of fixed list (FixedObj.plain, FixedObj.conformant); the buffer does not end at the last address. The system allocator does not fail. For len past 2^32 see C109. |
| C159 | Containers may contain strings | the invariant of C129 with the allocator of strings and the byte-level step of C153 for calls on the strings; induction over program | proved — As C129 with strings in place of vectors. Append and assign of vectors and extend of lists, which take several elements at once, are not among the calls on the container. Memory that deques and hash maps never give back: C32, C55. |
| C160 | Ordered maps handed over by C++ may have vectors or strings as values | the machinery of C129 and C159, split into the law of the calls and that of the end, for the tree model of C60 to C73; at the end the nodes are freed as in C62 and the memory of the values is untouched | partial — All of it is true except that the memory of the values is given back: dropping the tree runs no destructor (C64), so the values leak exactly if one of them has memory. Changing values during iter_mut is C73. |
| C161 | Containers that C++ built, on a 64-bit machine | the representation invariants of C128 for what C++ hands over, and the agreement of machine and mathematical runs of C84 and C148 started from them instead of from an empty container | proved — What C++ hands over is described by Handed/Model.lean as in C128; the machine is that of C84. Strings: returned values are stated for ASCII text and arguments other than assign (C17), refusals for all. |
| C162 | Deques, lists and hash maps that C++ built, on a 64-bit machine | the representation invariants of C128 for what C++ hands over, kept with the one fact that the sizes fit in a u32; inductions over histories as in C111, C109 and C156; the wrapped sizes are computed for every size of a full array | partial — False of deques with a full pointer array of 2^32 - 2 slots: in a release build its size wraps around to itself and push_back writes behind it. True of all other full arrays that cannot be doubled, of deques of at most (2^31 - 3) subarrays, and of lists and hash maps. What C++ hands over is described by Handed/Model.lean as in C128; faults of lists and deques that do not depend on integers are C39 and C32. The system allocator does not fail. |
| C163 | Vector maps made from pairs, on a 64-bit machine | the capacity law of C155 applied to a sequence of insertions: induction that the capacity is the least power of two that is at least the number of keys so far, or stays what it was if there is room for all | proved — The system allocator does not fail (C85). Cloning the pairs of a slice is taken to give equal pairs; iterators that panic are in C108. |
| C164 | Hash maps and sets collected on a machine | the machine functions of C156 in the loop of C72; induction over the items with the representation invariant: each insertion agrees with the unbounded one, or the map is full and the key is new, and then the policy panics | proved — Maps and sets with the default allocator, which does not fail. Iterators that panic are in C108. Strengthens C72, which limits the number of items. |
| C165 | Vectors and strings made from what exists, on a 64-bit machine | the constructors with the machine functions of C83 and C147; on capacities that can exist the allocators agree with the unbounded ones, so the constructors agree with those of C09, C17 and C18; texts that do not fit by the refusal theorem of C148 | proved — The system allocator does not fail (C85). Collecting from iterators is C149; slices of elements with destructors are C07. |
| C166 | Pretty-printing | the formatter's flag as an argument of how elements print; the indenting writer of the standard library as a function on characters with its state, which acts line by line (induction over lines); a text that is printed without line ends is not one of several lines | partial — True of List and FixedList, whatever their elements print. False of all others, which pass their contents through a formatting macro that says {:?} and so print with {:#?} exactly as with {:?}, contents included (proved for all histories). The formatting functions of the standard library and itertools are modelled from their published source. For Map the tree is given, as the crate builds none. |
| C167 | Width and precision of printed text | the formatter's options as an argument of how elements print; what they ask of a text is a small specification (Spec/FormatOptions.lean), whose length is computed; texts of different lengths differ | partial — True of List and FixedList. False of String, whose Display writes its text with {} and so ignores width, fill, alignment and precision: right only if these ask for a text of the length it has (proved for all ASCII histories). False of all other containers, which print their contents without options (proved for all histories). For Map the tree is given, as the crate builds none. Sign, zero padding and radix of numbers are part of how elements print. |

## Faults found in the code

Each is a theorem about the model; the citations are to `/repo/src`.

| where | what | theorem |
|---|---|---|
| `Vector::append`, `assign`, `From<&[T]>`, `Clone` (vector/mod.rs) | `clone_from_slice` onto uninitialised memory drops garbage if `T` has a destructor; `assign` of a shorter slice leaks | `C07_*` |
| `FixedVector::clear` (fixed_vector) | afterwards `has_overflowed()` is true although nothing overflowed | `C14_clear_reports_overflow` |
| `FixedVector::move_new` | an overflowed vector keeps the address of its old buffer; a later block at that address is never freed | `C15_moved_vector_leaks` |
| `String::assign` | appends instead of replacing | `C18_assign_appends` |
| `String::remove`, `reserve`, `with_capacity` | leave the text without NUL terminator | `C17_*_unterminated` |
| `String::push`, `insert` | store the low byte of a non-ASCII character | `C19_push_breaks_utf8` |
| `String::push`, `insert` | characters above U+00FF come back as others | `C138_char_comes_back_iff` |
| `Hash<*const c_char>` | a `String` that holds a non-ASCII pushed character hashes differently from the pointer to its text | `C120_pushed_char_differs` |
| `VectorMap` | loses keys when the comparator ties keys that `==` distinguishes | `C26_coarse_comparator_loses_keys` |
| `VectorMap` | a NaN key is never found, duplicates on every insertion and hides other keys | `C81_nan_never_found`, `C81_nan_hides_keys` |
| `Deque::drop` | never frees the subarray of the back end | `C32_deque_drop_leaks` |
| `List` | frees nodes with the layout of the value, not of the node | `C39_list_dealloc_layout_fails` |
| `FixedPoolWithOverflow::deallocate` | inclusive upper bound: an overflow block right behind the pool memory is freed into the pool | `C43_overflow_misroutes` |
| hash table policy | load factor above 1 from 17961080 entries (f32 rounding); panic at 2557710465 entries | `C51_load_factor_exceeded`, `C53_policy_panics` |
| hash table | bucket arrays are never freed | `C55_bucket_arrays_leak` |
| `HashSet::insert` | result is inverted | `C57_insert_result_inverted` |
| `RBTree::clear` | frees the nodes but keeps pointing at them | `C63_clear_leaves_dangling_tree` |
| `RBTree` drop | keys and values are never dropped; vectors and strings in a map leak | `C64_entries_dropped_iff_partial`, `C160_map_to_vectors_partial` |
| `Map`, `Set` | nodes point back at the object, so a moved object dangles | `C76_moved_tree_dangles` |
| `RBTree::begin` | the field sits where EASTL's `mpNodeRight` is; if it holds the right-most node only the last entry is iterated | `C61_iter_rightmost_begin` |
| `Allocator::allocate`, `Vector::reserve`, `with_capacity`, `FromIterator` | sizes wrap around in release builds: a buffer smaller than the capacity, or than the contents copied into it | `C84_release_with_capacity_ub`, `C84_release_reserve_ub`, `C84_release_fixed_reserve_ub`, `C84_release_map_with_capacity_ub`, `C149_release_collect_ub` |
| `Deque::push_back`, `push_front`, `new` | the null pointer is used unchecked when there is no memory for a subarray or pointer array | `C113_allocating_push_ub`, `C113_pushes_soon_ub` |
| `String::reserve` | the request wraps around in release builds: `reserve(usize::MAX)` reserves nothing, slightly less gives a buffer smaller than the text, or a capacity below the length | `C148_release_reserve_lost`, `C148_release_reserve_ub`, `C148_release_longer_than_capacity` |
| `DefaultAllocator`, `Vector` | null from the system allocator is used unchecked | `C85_out_of_memory_ub` |
| hash table `into_compat`, `from_compat` | bucket pointer one ahead of, end node different from EASTL's: each side misreads the other's iterators | `C88_*` |
| `Vector::clear`, `drop` | if a destructor panics, all elements are dropped again later | `C89_clear_drops_twice` |
| `Vector::append` | if a clone panics, the vector claims elements that were never written | `C90_append_exposes_uninitialised` |
| `List` | `len` and `is_empty` are wrong from 2^32 elements on (release), `push` panics (debug) | `C109_count_wraps`, `C109_debug_push_panics` |
| `Deque::push_back`, `push_front` | the `u32` size of the pointer array overflows: pushes panic from about (10·2^28 − 2)·S elements on, release builds leak an array each time | `C111_long_push_panics`, `C111_panics_are_clean_partial` |
| `Deque::push_back` | in a release build the size of a full pointer array of 2^32 − 2 slots, which only C++ code can have made, wraps around to itself: it is copied to one of the same size, behind which the new pointer is written | `C162_full_deque_overrun` |
| `Deque::drop` | if a destructor panics, the remaining elements and all memory of the deque are lost | `C107_deque_drop_abandons` |
| `List::clear`, `HashTable::clear` | if a destructor panics, freed nodes stay reachable | `C91_list_clear_dangles`, `C92_hash_clear_corrupts` |
| hash table `Node` | flat struct where EASTL nests a pair: the link is misplaced for over-aligned types | `C93_overaligned_key_differs` |
| `FixedList`, `FixedMap` | elements aligned to 16 or more give the whole object that alignment, unlike the conformant variant | `C118_overaligned_differs` |
| `VectorMap`, tree `Node` | entries are tuples, whose layout Rust does not specify | `C94_tuple_layout_unspecified` |
| `Vector`, `VectorMap`, `Deque`, pools | an allocator type without fields takes no space in Rust and a byte in C++, so the object is smaller than in C++ | `C139_vector_layout_iff`, `C139_vector_map_layout_iff`, `C139_deque_layout_iff`, `C139_overflow_pool_layout_iff` |
| `String`, `Set` | not `repr(C)`, so their layout is not specified | `C139_wrapper_layout_unspecified` |
| `Deque::iter`, `iter_mut`, `Queue` likewise | the iterator is not tied to the borrow: safe code can use it after a drop or pop | `C95_iter_outlives_deque`, `C95_iter_sees_popped` |
| `Deque::iter_mut`, `List::iter_mut(&self)`, hash `IterMut: Clone` | two mutable iterators alias | `C96_deque_iter_mut_aliases`, `C96_list_iter_mut_aliases`, `C96_hash_iter_mut_aliases` |
| hash table `insert_impl` | writes through the null pointer when there is no memory for a node or a larger bucket array | `C100_hash_insert_out_of_memory`, `C100_hash_no_bucket_array` |
| `List` | nodes point at the sentinel inside the object, so a list moved or exchanged by `mem::swap` cannot be cleared or dropped | `C126_moved_list_dangles`, `C126_exchanged_lists_dangle`, `C126_exchanged_fixed_list_dangles` |
| hash table `rehash` | a panicking hash leaves the table half moved: entries are lost and leaked, `len` still counts them | `C102_panic_loses_entries` |
| deque pointer array | a queue of constant length moves all but one pointer once per subarray, not amortised constant | `C103_queue_cost_unbounded` |
| deque pointer array | push_front alone moves logarithmically many pointers on average, not constantly many | `C103_push_front_cost_unbounded` |
| `String` `Debug` | nothing is escaped, so the printed form of a container of strings does not determine its contents | `C105_strings_print_alike` |
| `Debug` of maps and hash sets | a key or value that reports an error when printed makes printing the map panic instead of reporting it | `C141_hash_map_panics`, `C141_map_prints_partial`, `C141_vector_map_prints_partial`, `C141_hash_set_prints_partial` |
| `List`, `FixedList`, `Set`, `FixedMap`, `vector::IntoIter` | no `Send`/`Sync`, unlike the other containers, even if the contents have it | `C122_lists_and_sets_confined` |
| `FixedVector: DerefMut` | safe code can take the vector out of a `FixedVector`; unless it overflowed it points into the object it was taken from and dangles when that is gone; `clone` copies the address of the inline storage and can leak | `C124_taken_vector_dangles`, `C124_swapped_vector_dangles`, `C124_clone_leaks` |
| hash table `insert_impl` | the threshold is raised before the bucket array is asked for: if the allocator panics at the first insertion, the next one writes to the shared static array | `C123_hash_first_array_refused` |
| `Deque::push_back` | writes the element to its slot before it asks for a subarray: if the allocator panics the element is never dropped | `C123_deque_push_back_forgets` |
| `FixedPool::init`, `allocate_raw_aligned` | only debug builds check the memory, the node size and the request: a release build hands out nodes outside its memory if that ends before the first aligned address, nodes overwritten when their neighbour is freed, and nodes smaller than asked for | `C157_short_memory_release`, `C157_small_nodes_release`, `C157_wrong_request_release` |
| `FixedVector::new` | panics if the count is 0 | `C152_fixed_vector_of_none_panics` |
| `Deque::new` | if the allocator panics, the half-built deque is dropped, which frees a null pointer; for zero-sized elements this happens always and aborts | `C123_deque_new_refused`, `C123_deque_zero_sized_aborts` |
| `Vector::as_slice`, `clear`, `drop`, `append`, `assign`, `IntoIter::drop`, `Deque::drop`, `realloc_ptr_array`, hash table `rehash` | a slice of several elements is made from a reference to the first: undefined behaviour under Stacked Borrows | `C130_vector_slice_ub`, `C130_deque_slice_ub`, `C130_hash_slice_ub` |
| `HashTable::rehash`, `iter_mut` | a mutable reference to the static, read-only empty bucket is made: the first insertion into every hash map is undefined behaviour under Stacked Borrows | `C130_hash_slice_ub` |
| `List::push_back`, `push_front`, `FixedVector::push` | the pointers a list or fixed vector has to itself lose their permissions when it is borrowed the next time: the first push is undefined behaviour under Stacked Borrows | `C130_list_push_ub`, `C130_fixed_vector_push_ub` |
| `List::init_sentinel_node`, `FixedVector::init_base_vec` | the pointers a list or fixed vector has to itself are made of different references, and a write through one ends the others: the first push on a list, and looking at a fixed vector that is not empty, is undefined behaviour also under Tree Borrows | `C134_list_push_ub`, `C134_fixed_vector_slice_ub` |
| `FixedPool::allocate` | a reused node is returned as a pointer made of a reference to its link | `C130_pool_reuse_ub` |
| `conformant::FixedList::new_in` | the buffer of bytes is made by `assume_init` of uninitialised memory | `C132_conformant_buffer_ub` |
| `FixedVector::move_new` | the allocator in the destination, which is uninitialised, is read by `mem::swap` | `C132_move_reads_uninitialised` |
| `HashTable` | never gives up buckets: iterating over an empty hash map takes as many steps as it ever had entries | `C142_hash_empty_walk`, `C142_hash_empty_walk_reached` |
| `Deque::remove` | walks over the whole deque, 2n+1 iterator steps, even to remove the first or last element | `C143_deque_remove_walks` |
| `Vector::append`, `reserve` | reserve exactly, and `reserve` even if there is room: growing piece by piece moves quadratically many elements | `C144_append_quadratic`, `C144_reserve_quadratic`, `C144_reserve_always_moves` |
| `String::assign` | takes a new block at every call and keeps growing the capacity, even when nothing is assigned | `C144_string_assign`, `C144_string_assign_nothing` |
| `HashTable::free_bucket` | recursion along the chain of a bucket: dropping or clearing a map of n colliding keys, which are easily found for integers, needs n stack frames | `C150_drop_depth_linear` |
| `DefaultHash` of integers | the identity, modulo a prime that depends only on the number of entries: n keys can be chosen such that a lookup compares all of them | `C151_lookup_linear` |
| `Map::remove_entry` | unimplemented: panics for every map and key | `C137_remove_entry_panics` |
| `vector::IntoIter::drop`, `as_slice` | a full vector used up from the front leaves the cursor at the end of the block, and a reference to it is made | `C131_for_loop_ub` |

Not properties, but visible in the model: `RBTree::_insert` (private in `Map` and `Set`) always panics
(`todo!`), so trees are only ever built by C++ code; `FixedPool::init`
underflows if the memory is smaller than the alignment padding; every float below 1 and
NaN hashes to 0.

## Trusted base

* Lean 4.33.0's kernel.  Axioms: every claimed theorem depends on a subset of `propext`,
  `Classical.choice`, `Quot.sound`; the list per theorem is in `AXIOMS.md`.  No axioms of
  our own, no `sorry`, no `native_decide`, no `bv_decide`.
* That the definitions in the model files transcribe the cited Rust lines, and Rust's
  semantics as encoded in `Mem.lean` and `Node/Mem.lean`.
* `to_string_lossy` (Rust's standard library) is modelled from its published source in
  `Hash/Lossy.lean`, and proved to do what Unicode recommends (C121).
* `superslice::Ext::lower_bound_by` (a dependency not in the sandbox) is modelled from its
  published algorithm.
* EASTL's `hashtable::begin/end` and iterator increment (C++, not in the repository) are restated
  in `HashTable/Foreign.lean` from EASTL's header; C87 and C88 are about them.  Likewise
  its loops over vectors, deques and lists in `Vector/`, `Deque/` and `LinkedList/Foreign.lean`
  (C112).  What containers built by C++ look like is restated in `Handed/Model.lean` (C128).
  EASTL's node layouts are restated in `Spec/Layout.lean` (C93, C94), its container classes in `Spec/Objects.lean` (C139); for trees the variant that keeps the
  colour in the parent word, which the crate implements, and not the one with a `char mColor`.
* `usize` is 64 bits.  Debug-build semantics for `debug_assert!` and arithmetic overflow
  where they are modelled.

### Modelled, by file of `/repo/src`

| file | modelled | not modelled |
|---|---|---|
| `vector/mod.rs`, `into_iter.rs` | all operations, constructors, `Clone`, `Drop`, `IntoIter` | |
| `fixed_vector/*` | allocator, `new`, moves, `clear`, all `Vector` operations through it | |
| `string/*` | allocator, all operations, constructors, comparison, hash; `usize` arithmetic (`Machine/Text.lean`) | |
| `vector_map/*` | all operations, entries, bulk constructors | |
| `deque/*`, `queue.rs`, `util.rs` | all operations, iterators in both directions, compat iterators, `FromIterator`, `Drop`, the `u32` size of the pointer array (C111) | |
| `list/*`, `fixed_list/*` | all operations, iterators, `Drop`, in-place construction, both `FixedList`s, the `u32` count (C109) | |
| `fixed_pool/*` | `init`, `allocate`, `deallocate`, overflow routing | |
| `internal/hash_table/*`, `hash_map/*`, `hash_set/*` | all operations, entries, iterators, compat iterators, rehash policy with its whole prime table | |
| `internal/rb_tree/*`, `map/*`, `set/*`, `fixed_map/*` | everything that does not panic unconditionally: lookup, iteration, freeing, link setters, search for an insertion position, construction | `_insert` (always panics) |
| `hash.rs` | all `DefaultHash` implementations | |
| `allocator.rs` | everything: in bytes with overflow and failure for `Vector` (C83-C86), with overflow for `FixedVector`, `VectorMap`, `String` and the bucket arrays of hash tables (C154, C155, C148, C156); otherwise `DefaultAllocator` is "some block that is not live, of that size" | |

Of the 431 functions of the crate outside its tests, all but trait declarations and a `Default` of
plain null pointers are named by file and line in a comment of the model.  Functions that only
forward are named with the function they forward to.

### Assumptions and simplifications

* Except in C83-C86, C100, C113, C123, C147-C149, C154-C158, C161 and C163, allocation does not fail (null from the global allocator) and there is
  no `usize`/`isize` overflow of sizes; except in C109 the element count of a `List`, and except in
  C111 and C162 the size of a `Deque`'s pointer array (C162 also the count of a `List`), are natural numbers (the code uses `u32`).  The `u32` counts of hash tables are in C156, which shows that they never overflow.
* Element types are not zero-sized, except in C86 and C123.
* Array memory is measured in elements, not bytes.  For `size_of::<T>() > 0` equal counts
  are equal layouts.  In `Deque` and the hash table, pointer arrays and elements/nodes are
  two memories, so one is never mistaken for the other.
* A node is one record at one address (`Node/Mem.lean`); that nodes do not overlap is
  proved (C40, C41), not assumed.
* Calls into user code (`Clone`, `Drop`, comparators, `==`, hash functions, closures) are
  pure total functions: no reentrancy, and no unwinding out of them except in C89-C92 (destructors, clones) and C101-C102, C104, C106, C107-C108 (destructors of deque elements, iterators)
  (hash functions, equality and comparators).
* Rust's aliasing rules are modelled in C130 and C134 only, as Stacked Borrows and as Tree Borrows, both without protectors, two-phase
  borrows and interior mutability, and there for vectors, their iterators, the slices of pointer
  and bucket arrays, the first push on lists and fixed vectors, and pool nodes; which bytes are initialised
  only in C132; lifetimes are not modelled; of threads only
  which types are `Send` and `Sync` (C122); formatting only in C105, C141, C166 and C167.

## Checking the model against the project's own tests

`Verif/Replay` runs the unit tests of `/repo/src` on the model, one definition for each test, citing
its lines; the kernel evaluates each of them to a run that ends without a failed assertion and
without undefined behaviour (or, for `#[should_panic]`, that panics).  This claims no property: it
shows that the model gives the results the project itself expects.  Left out are the tests
`layout` (sizes and offsets are C118 and C139), `ensure_clone` of `Vector` (clones are not
counted) and `align` of the allocator (the global allocator is trusted to align).

## Testing the theorems against wrong programs

`seeded/LOG.jsonl` records every edit tried: the model was edited in a scratch copy as a
realistic bug would, everything depending on the edited file was rebuilt, and each claimed
theorem whose proof no longer checks is listed.  Edits that leave the claim true (equivalent
programs, or repairs) are marked as such; there the theorems of the broken behaviour fail.
