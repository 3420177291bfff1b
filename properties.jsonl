{"id": "C01", "title": "Vector is a faithful growable sequence", "statement": "Starting from an empty Vector, any history of push, pop, insert, remove, element assignment through the slice, reserve, clear, append, assign, len, is_empty and as_slice produces exactly the return values and contents of the same history on a mathematical sequence; an insert or an element assignment past the end panics, and no other call panics or touches memory it does not own. (append and assign for element types without a destructor; the others are the subject of C07.)", "quantifier": "all element values, all finite histories of calls, all placements chosen by the allocator", "why_tests_cant": "A unit test runs a few short histories; off-by-one shifts and stale reads depend on the length, the capacity and the index together.", "anchors": ["src/vector/mod.rs: push, pop, insert, remove, reserve, clear, append, assign, as_slice, grow"]}
{"id": "C02", "title": "Vector capacity law", "statement": "At every point len <= capacity. push and insert leave the capacity unchanged when len < capacity and otherwise double it (0 becomes 1); reserve(n) raises it by exactly n; pop and remove never change it; clear makes it 0. is_full is len == capacity.", "quantifier": "all reachable vectors, all calls", "why_tests_cant": "The law relates every reachable (len, capacity) pair to its successor; tests check a handful of pairs.", "anchors": ["src/vector/mod.rs: push, insert, reserve, grow, calculate_grow_capacity, clear, capacity"]}
{"id": "C03", "title": "Vector push is amortised constant", "statement": "n pushes into an empty Vector move fewer than 2n previously stored elements in total and call the allocator at most log2(n)+2 times.", "quantifier": "all n, all element values", "why_tests_cant": "A complexity bound is a statement about all n.", "anchors": ["src/vector/mod.rs: push, grow, reserve"]}
{"id": "C04", "title": "Vector bounds handling is exact", "statement": "insert(index) panics exactly when index > len; remove(index) returns None exactly when index >= len and pop returns None exactly when the vector is empty, both without any effect.", "quantifier": "all vectors, all indices", "why_tests_cant": "Boundary behaviour must hold for every length and index.", "anchors": ["src/vector/mod.rs: insert, remove, pop"]}
{"id": "C05", "title": "Vector memory discipline", "statement": "At every point the vector owns at most one heap block, sized for exactly its capacity; each block is returned to the allocator exactly once with the size it was requested with; after clear or drop nothing is left allocated, and blocks belonging to others are never changed.", "quantifier": "all histories, all allocator placements, all pre-existing memory", "why_tests_cant": "Leaks and mismatched layouts are silent in tests.", "anchors": ["src/vector/mod.rs: reserve, clear, Drop, insert, push", "src/allocator.rs: Allocator::allocate, deallocate"]}
{"id": "C06", "title": "Vector drops every element exactly once (moving operations)", "statement": "For histories built from push, pop, insert, remove, reserve, clear and drop, every value moved in is either handed back to the caller or dropped, exactly once in total; nothing uninitialised is ever dropped.", "quantifier": "all histories, all values", "why_tests_cant": "Double drops and leaks depend on the entire history and are not visible in ordinary assertions.", "anchors": ["src/vector/mod.rs: push, pop, insert, remove, clear, Drop"]}
{"id": "C07", "title": "Vector drops every element exactly once (slice operations)", "statement": "The exactly-once accounting of the previous property also holds for histories that use assign and append, for element types whose destructor matters.", "quantifier": "all histories including assign and append", "why_tests_cant": "Needs ownership accounting over the old contents, the uninitialised tail and the clone.", "anchors": ["src/vector/mod.rs: assign, append, From<&[T]>, Clone"]}
{"id": "C08", "title": "Vector IntoIter partitions the elements", "statement": "Any interleaving of next and next_back on a consumed Vector returns the elements from the front and from the back respectively, never twice, len() being the number left; dropping the iterator at any point drops exactly the elements not yet returned and frees the block.", "quantifier": "all vectors, all interleavings of next/next_back, all drop points", "why_tests_cant": "The interleavings are exponentially many and the drop point arbitrary.", "anchors": ["src/vector/into_iter.rs: next, next_back, Drop, len, as_slice", "src/vector/mod.rs: IntoIterator"]}
{"id": "C09", "title": "Vector constructors build the given sequence", "statement": "From<&[T]>, From<[T; N]>, FromIterator, with_capacity, from_in and Clone produce vectors with the given contents in order; with_capacity(n) is empty with capacity n; a vector built from a slice has capacity equal to the slice length; dropping the new vector drops its elements and gives back its memory.", "quantifier": "all slices/arrays/iterators, all lower size hints not exceeding the yielded count or not", "why_tests_cant": "Every input sequence and every size hint.", "anchors": ["src/vector/mod.rs: From, FromIterator, with_capacity, from_in, Clone"]}
{"id": "C10", "title": "Cloned vectors are independent", "statement": "After clone, any history applied to the clone leaves the contents of the original unchanged, and vice versa; dropping both gives back all memory.", "quantifier": "all vectors, all later histories", "why_tests_cant": "Aliasing shows up only for particular later histories.", "anchors": ["src/vector/mod.rs: Clone, from_in"]}
{"id": "C11", "title": "FixedVector stays in its inline storage until full", "statement": "As long as a FixedVector of N elements has only seen push, pop, insert and remove and has never held more than N elements, the overflow allocator is never called, capacity() = N and has_overflowed() is false; the first call that needs an (N+1)-th element moves everything to the overflow allocator in order. max_size() is N, always.", "quantifier": "all N > 0, all histories", "why_tests_cant": "The switch depends on the whole history and N is arbitrary.", "anchors": ["src/fixed_vector/mod.rs: new, init_base_vec, has_overflowed", "src/fixed_vector/allocator.rs: allocate_raw_aligned, deallocate_raw_aligned"]}
{"id": "C12", "title": "FixedVector behaves as a sequence across overflow", "statement": "Any history of push, pop, insert, remove, reserve, clear on a FixedVector returns what the same history on a mathematical sequence returns, before and after the storage spilled to the heap.", "quantifier": "all N > 0, all histories", "why_tests_cant": "Crossing the inline/heap boundary can happen at any op and index.", "anchors": ["src/fixed_vector/mod.rs", "src/vector/mod.rs"]}
{"id": "C13", "title": "FixedVector never frees its inline storage and never leaks", "statement": "The inline buffer is never handed to the overflow allocator for deallocation, and after drop every overflow block has been freed exactly once with its own size.", "quantifier": "all N > 0, all histories ending in drop", "why_tests_cant": "Requires an ownership argument over all histories.", "anchors": ["src/fixed_vector/allocator.rs: deallocate_raw_aligned", "src/fixed_vector/mod.rs: init_base_vec"]}
{"id": "C14", "title": "has_overflowed means that elements spilled", "statement": "has_overflowed() is true only if at some point the vector needed more than N elements of capacity.", "quantifier": "all histories including clear", "why_tests_cant": "Holds or fails depending on earlier calls (clear).", "anchors": ["src/fixed_vector/mod.rs: has_overflowed", "src/vector/mod.rs: clear"]}
{"id": "C15", "title": "Moving a FixedVector preserves it", "statement": "The move constructor yields a FixedVector with the same contents (whether or not it had overflowed), the moved-from vector can be dropped without freeing or dropping anything, and every element and block is still released exactly once.", "quantifier": "all FixedVectors in either storage mode, all later histories", "why_tests_cant": "Two storage modes times arbitrary contents; double frees are silent.", "anchors": ["src/fixed_vector/mod.rs: move_new"]}
{"id": "C16", "title": "String contents follow its operations", "statement": "For any history of push, pop, insert and remove with ASCII characters, as_bytes equals the mathematical sequence of the characters and every returned character is the one stored.", "quantifier": "all histories over ASCII characters", "why_tests_cant": "All histories.", "anchors": ["src/string/mod.rs: push, pop, insert, remove, as_bytes"]}
{"id": "C17", "title": "String is always NUL-terminated", "statement": "Whenever a String owns storage, the byte just past its last character is 0, after every operation.", "quantifier": "all histories", "why_tests_cant": "The byte past the end is observable only by foreign code; a test checks selected operations only.", "anchors": ["src/string/mod.rs: null_terminate, remove, reserve, with_capacity, insert, pop, assign", "src/string/null_terminator_allocator.rs"]}
{"id": "C18", "title": "String::assign replaces the contents", "statement": "After assign(s), as_str() is s, whatever the string held before.", "quantifier": "all prior contents and all s", "why_tests_cant": "The unit test assigns to a string and only checks the terminator.", "anchors": ["src/string/mod.rs: assign"]}
{"id": "C19", "title": "String contents are valid UTF-8", "statement": "as_str() always returns well-formed UTF-8.", "quantifier": "all histories over all chars", "why_tests_cant": "Ill-formed bytes arise only for particular characters and removals.", "anchors": ["src/string/mod.rs: push, insert, pop, Deref"]}
{"id": "C20", "title": "String storage stays in bounds including the terminator", "statement": "Every byte a String writes, terminator included, lies inside a block it owns of capacity+1 bytes; every block is freed once with the size it was allocated with.", "quantifier": "all histories, all allocator placements", "why_tests_cant": "Writing one past the end is silent in tests.", "anchors": ["src/string/null_terminator_allocator.rs: allocate_raw_aligned, deallocate_raw_aligned", "src/string/mod.rs"]}
{"id": "C21", "title": "Equal strings are equal keys", "statement": "Two Strings with equal contents compare equal and hash equally, regardless of capacity, allocation and history, and a String hashes exactly as the &str with the same contents, namely the 32-bit FNV-1 hash of its bytes.", "quantifier": "all strings, all histories leading to them", "why_tests_cant": "A statement about all pairs.", "anchors": ["src/string/mod.rs: PartialEq, Hash", "src/hash.rs: fnv1, Hash<str>"]}
{"id": "C22", "title": "VectorMap refines a finite map", "statement": "For any comparator that is a strict total order consistent with ==, any history of insert, remove, get, contains_key, len, entry, clear gives the results of the same history on a mathematical finite map; insert returns the value replaced.", "quantifier": "all key/value types, all strict total orders, all histories", "why_tests_cant": "Correctness depends on the sorted order of all keys inserted before.", "anchors": ["src/vector_map/mod.rs: get, get_mut, insert, remove, remove_entry, entry, lower_bound", "src/vector_map/entry.rs"]}
{"id": "C23", "title": "VectorMap iteration is strictly sorted", "statement": "At all times iteration yields the keys in strictly increasing comparator order (hence without duplicates).", "quantifier": "all histories, all strict total orders", "why_tests_cant": "An invariant over all histories.", "anchors": ["src/vector_map/mod.rs: insert, lower_bound, as_slice"]}
{"id": "C24", "title": "Binary search finds the insertion point", "statement": "For any slice partitioned by the comparator, the search returns the number of elements strictly less than the key, inspecting only indices inside the slice.", "quantifier": "all sorted slices, all keys", "why_tests_cant": "All lengths; classical off-by-one territory.", "anchors": ["src/vector_map/mod.rs: lower_bound (superslice Ext::lower_bound_by)"]}
{"id": "C25", "title": "VectorMap bulk construction: last binding wins", "statement": "Building a VectorMap from an array, slice or iterator equals inserting the pairs in order: each key is bound to its last value and appears once.", "quantifier": "all sequences of pairs", "why_tests_cant": "Depends on all duplicates' positions.", "anchors": ["src/vector_map/mod.rs: From, FromIterator"]}
{"id": "C26", "title": "VectorMap works for every comparator", "statement": "Even if the comparator identifies keys that == distinguishes, a key just inserted and not removed can be found again.", "quantifier": "all strict weak orders", "why_tests_cant": "Only particular comparators and key pairs break it.", "anchors": ["src/vector_map/mod.rs: get, insert", "src/compare.rs: Compare"]}
{"id": "C27", "title": "Deque is a faithful double-ended sequence", "statement": "Any history of push_back, push_front, pop_back, pop_front, front, back, len, is_empty and remove(index) on an initialised Deque returns what the same history on a mathematical sequence returns, and never reads or writes outside its own subarrays.", "quantifier": "all element values, all histories, all subarray sizes used by the crate, all allocator placements", "why_tests_cant": "Subarray crossings and pointer-array reallocation in either direction occur only in long, particular histories.", "anchors": ["src/deque/mod.rs: push_back, push_front, pop_back, pop_front, front, back, len, remove, realloc_ptr_array, init"]}
{"id": "C28", "title": "Deque iteration in either direction", "statement": "Iterating a Deque, with any interleaving of next and next_back, returns the elements in order from both ends, each exactly once.", "quantifier": "all reachable deques, all interleavings", "why_tests_cant": "The elements may be spread on arbitrarily many subarrays at arbitrary offsets.", "anchors": ["src/deque/iter.rs: RawIter::next, next_back"]}
{"id": "C29", "title": "Deque length is exact", "statement": "len() equals the number of elements, for every position of both ends in their subarrays; is_empty() is true exactly if len() is 0.", "quantifier": "all reachable deques", "why_tests_cant": "The formula has a special case per relative position of the subarrays.", "anchors": ["src/deque/mod.rs: len, is_empty"]}
{"id": "C30", "title": "Deque never moves elements on push and pop", "statement": "push and pop at either end leave every other element at the memory address it had.", "quantifier": "all reachable deques, all pushes and pops", "why_tests_cant": "Reallocation of the pointer array must not move elements, in any of its three branches.", "anchors": ["src/deque/mod.rs: push_back, push_front, realloc_ptr_array"]}
{"id": "C31", "title": "Deque drops every element exactly once", "statement": "Every value pushed is either returned by a pop or remove or dropped when the deque is dropped, exactly once.", "quantifier": "all histories", "why_tests_cant": "Ownership accounting over all histories.", "anchors": ["src/deque/mod.rs: Drop, pop_back, pop_front, remove"]}
{"id": "C32", "title": "Dropping a Deque releases all its memory", "statement": "After drop no subarray and no pointer array is left allocated, and each was freed with its own size.", "quantifier": "all histories ending in drop", "why_tests_cant": "Leaks are silent in tests.", "anchors": ["src/deque/mod.rs: Drop, pop_back, pop_front, realloc_ptr_array"]}
{"id": "C33", "title": "Deque memory is proportional to its contents", "statement": "While a deque is alive it holds exactly the subarrays between its two ends, i.e. at most len/subarray_size + 2 of them; pops release the subarrays they leave.", "quantifier": "all histories", "why_tests_cant": "A bound over all histories.", "anchors": ["src/deque/mod.rs: push_back, push_front, pop_back, pop_front"]}
{"id": "C34", "title": "Queue is FIFO", "statement": "Any history of push, pop, top, len on a Queue behaves as a first-in first-out queue.", "quantifier": "all histories", "why_tests_cant": "All histories.", "anchors": ["src/queue.rs"]}
{"id": "C35", "title": "Deque compat iterators round-trip", "statement": "Converting a Deque iterator to its C++-compatible form and back yields an iterator that returns exactly the same remaining elements.", "quantifier": "all iterator states", "why_tests_cant": "All positions within subarrays.", "anchors": ["src/deque/iter.rs: into_compat, from_compat"]}
{"id": "C36", "title": "List is a faithful double-ended sequence", "statement": "Any history of push_front, push_back, pop_front, pop_back, front, back, len, is_empty, clear and extend on an initialised List returns what the same history on a mathematical sequence returns and never follows a dangling pointer.", "quantifier": "all element values, all histories, all allocator placements including reuse of freed addresses", "why_tests_cant": "Link manipulation errors surface only for particular neighbourhoods and address reuse.", "anchors": ["src/list/mod.rs: push_back, push_front, pop_back, pop_front, remove_node, clear", "src/list/node.rs: insert, remove"]}
{"id": "C37", "title": "List iteration", "statement": "Iterating a list (shared or mutable) yields each element exactly once, front to back, then None forever, and size_hint is exact at every step.", "quantifier": "all lists, all numbers of next calls", "why_tests_cant": "All lengths.", "anchors": ["src/list/iter.rs"]}
{"id": "C38", "title": "List frees every node and drops every value exactly once", "statement": "Each node allocated is deallocated exactly once by pops, clear and drop, and each value is returned or dropped exactly once; after drop no node is left.", "quantifier": "all histories ending in drop", "why_tests_cant": "Ownership accounting over all histories.", "anchors": ["src/list/mod.rs: clear, remove_node, Drop"]}
{"id": "C39", "title": "List deallocates with the layout it allocated", "statement": "Every deallocation passes the same size and alignment as the allocation of that block.", "quantifier": "all element types, all histories", "why_tests_cant": "The allocator is allowed to rely on it; the default allocator of a test run may not notice.", "anchors": ["src/list/mod.rs: create_node, remove_node, clear", "src/allocator.rs: deallocate"]}
{"id": "C40", "title": "List never moves elements", "statement": "Pushes and pops leave every other element at its address.", "quantifier": "all lists", "why_tests_cant": "All histories.", "anchors": ["src/list/mod.rs"]}
{"id": "C41", "title": "FixedPool hands out disjoint aligned in-bounds nodes", "statement": "After init on a memory range, every node returned lies inside the range, is aligned, and overlaps no other node currently handed out.", "quantifier": "all base addresses, range sizes, node sizes and alignments, all allocate/deallocate histories", "why_tests_cant": "Alignment padding and rounding depend on the address.", "anchors": ["src/fixed_pool/mod.rs: init, allocate_raw_aligned, deallocate_raw_aligned"]}
{"id": "C42", "title": "FixedPool capacity is exact", "statement": "A pool over a range holding c nodes serves an allocation if and only if fewer than c nodes are handed out; can_allocate tells so; otherwise null is returned; freed nodes are reused before untouched memory.", "quantifier": "all pools, all histories", "why_tests_cant": "All histories.", "anchors": ["src/fixed_pool/mod.rs: can_allocate, allocate_raw_aligned"]}
{"id": "C43", "title": "Pool with overflow routes every free to its origin", "statement": "Nodes are taken from the pool while it can serve and from the overflow allocator otherwise; a deallocation goes to the pool exactly if the block came from the pool.", "quantifier": "all histories, all overflow addresses outside the pool's memory", "why_tests_cant": "Depends on addresses the allocator returns, in particular one directly following the pool.", "anchors": ["src/fixed_pool/with_overflow.rs: allocate_raw_aligned, deallocate_raw_aligned"]}
{"id": "C44", "title": "FixedList uses its inline nodes first", "statement": "A FixedList with N inline nodes calls the overflow allocator only when N elements are present in inline nodes, and all frees are routed to their origin.", "quantifier": "all N, all histories, all overflow addresses outside the FixedList object", "why_tests_cant": "Combination of list and pool over all histories.", "anchors": ["src/fixed_list/mod.rs: new, buffer layout", "src/fixed_pool/with_overflow.rs"]}
{"id": "C45", "title": "HashMap refines a finite map", "statement": "Any history of insert, remove, remove_entry, get, get_mut, contains_key, entry, len, clear on a hash map returns what the same history on a mathematical finite map returns, for every hash function that respects key equality, however bad.", "quantifier": "all keys, values, hash functions, allocator placements, and histories in which the map never holds more than 2557710464 entries (the next one panics, see the property on the rehash policy)", "why_tests_cant": "Collisions, rehash moments and chain positions combine without bound.", "anchors": ["src/internal/hash_table/mod.rs: get, get_mut, insert, remove_entry, entry, rehash, find_in_bucket", "src/hash_map/mod.rs", "src/internal/hash_table/entry.rs"]}
{"id": "C46", "title": "HashMap length is the number of distinct keys", "statement": "len() equals the number of keys present and is_empty() agrees.", "quantifier": "all histories", "why_tests_cant": "An invariant over all histories.", "anchors": ["src/internal/hash_table/mod.rs: len, element_count"]}
{"id": "C47", "title": "HashMap iteration visits every entry exactly once", "statement": "Iterating yields each (key, value) pair present exactly once and nothing else, and terminates; iter_mut changes exactly the values visited.", "quantifier": "all reachable maps", "why_tests_cant": "The chain layout is unbounded.", "anchors": ["src/internal/hash_table/iter.rs: RawIter"]}
{"id": "C48", "title": "Rehashing is invisible", "statement": "A rehash changes neither the set of entries nor the address of any node, and every node ends up in the bucket its hash selects.", "quantifier": "all tables, all new bucket counts", "why_tests_cant": "All contents.", "anchors": ["src/internal/hash_table/mod.rs: rehash"]}
{"id": "C49", "title": "Hash insert keeps the first key and returns the old value", "statement": "Inserting an existing key replaces only the value, returns the previous one and leaves len unchanged; inserting a new key returns None.", "quantifier": "all tables and keys, equality not necessarily identity", "why_tests_cant": "All tables.", "anchors": ["src/internal/hash_table/mod.rs: insert"]}
{"id": "C50", "title": "Hash table entry API", "statement": "entry(k).and_modify(f).or_insert_with(g) changes exactly the binding of k: if k is present its value x becomes f(x) and g is not called, otherwise g is called once and its result inserted; the reference returned is to the value bound to k even when the insertion rehashes.", "quantifier": "all tables, keys, values and functions", "why_tests_cant": "A vacant entry computed before the rehash must still insert in the right bucket.", "anchors": ["src/internal/hash_table/entry.rs", "src/internal/hash_table/mod.rs: entry, insert_impl"]}
{"id": "C51", "title": "Load factor is bounded", "statement": "After every insertion the number of entries is at most the number of buckets.", "quantifier": "all insertion histories of any length", "why_tests_cant": "The policy works in 32-bit floating point; rounding only matters beyond 2^24 entries.", "anchors": ["src/internal/hash_table/rehash_policy.rs: get_rehash_required", "src/internal/hash_table/mod.rs: insert_impl"]}
{"id": "C52", "title": "Bucket counts are primes from the table and never shrink", "statement": "After the first insertion the bucket count is always a prime number, and it never decreases.", "quantifier": "all histories", "why_tests_cant": "All histories and a 257-entry table.", "anchors": ["src/internal/hash_table/rehash_policy.rs: PRIMES, get_rehash_required"]}
{"id": "C53", "title": "The rehash policy never fails", "statement": "As long as the number of entries fits in 32 bits, the policy returns an answer (does not panic).", "quantifier": "all bucket counts and element counts", "why_tests_cant": "Fails only above two billion entries.", "anchors": ["src/internal/hash_table/rehash_policy.rs: get_rehash_required"]}
{"id": "C54", "title": "Hash table frees every node and drops every entry exactly once", "statement": "Each node is freed exactly once by remove, clear or drop, and each key and value is returned or dropped exactly once.", "quantifier": "all histories ending in drop", "why_tests_cant": "Ownership accounting.", "anchors": ["src/internal/hash_table/mod.rs: free_buckets, remove_entry, clear, Drop"]}
{"id": "C55", "title": "Dropping a hash table releases all its memory", "statement": "After drop neither nodes nor bucket arrays remain allocated.", "quantifier": "all histories ending in drop", "why_tests_cant": "Leaks are silent.", "anchors": ["src/internal/hash_table/mod.rs: rehash, Drop, free_buckets"]}
{"id": "C56", "title": "The shared empty bucket array is never written", "statement": "No operation on any table writes to the static bucket array that empty tables share.", "quantifier": "all histories on all tables", "why_tests_cant": "Corruption would appear only in another table.", "anchors": ["src/internal/hash_table/mod.rs: new, insert_impl, remove_entry, clear"]}
{"id": "C57", "title": "HashSet is a set", "statement": "Any history of insert, contains, remove, len, clear on a HashSet has the effects of a mathematical set, and insert returns true on success, i.e. when the key was not present.", "quantifier": "all histories", "why_tests_cant": "All histories.", "anchors": ["src/hash_set/mod.rs: insert, contains, remove"]}
{"id": "C58", "title": "Clearing a hash table", "statement": "After clear the table is empty for every observer and behaves as a fresh one for all later histories.", "quantifier": "all tables, all later histories", "why_tests_cant": "Later histories are unbounded.", "anchors": ["src/internal/hash_table/mod.rs: clear, free_buckets"]}
{"id": "C59", "title": "Hash table compat iterators round-trip", "statement": "Converting a hash table iterator to its C++-compatible form and back yields an iterator that returns exactly the same remaining entries; the walk stops at the sentinel after the last bucket.", "quantifier": "all iterator states", "why_tests_cant": "All positions.", "anchors": ["src/internal/hash_table/iter.rs: into_compat, from_compat", "src/internal/hash_table/mod.rs: rehash (sentinel)"]}
{"id": "C60", "title": "Tree lookup is correct", "statement": "On any search tree ordered by the comparator, get(k) returns the value bound to a key equivalent to k if there is one and None otherwise.", "quantifier": "all trees of any shape, all keys, all strict weak orders", "why_tests_cant": "All shapes.", "anchors": ["src/internal/rb_tree/mod.rs: find_in_tree, get, contains_key"]}
{"id": "C61", "title": "Tree iteration is sorted and complete", "statement": "Iterating a map or set yields every entry exactly once in comparator order and terminates.", "quantifier": "all trees of any shape", "why_tests_cant": "Successor climbing depends on the shape, and on the anchor at the root.", "anchors": ["src/internal/rb_tree/iter.rs", "src/internal/rb_tree/node.rs: next"]}
{"id": "C62", "title": "Freeing a tree frees each node once", "statement": "Dropping a tree deallocates each of its nodes exactly once.", "quantifier": "all trees of any shape", "why_tests_cant": "All shapes.", "anchors": ["src/internal/rb_tree/mod.rs: free_tree, free_nodes, Drop"]}
{"id": "C63", "title": "Clearing a tree empties it", "statement": "After clear() a map or set is empty: len() is 0, iteration yields nothing, and a later drop frees nothing twice.", "quantifier": "all non-empty trees", "why_tests_cant": "Needs the aftermath of clear to be examined for all trees.", "anchors": ["src/internal/rb_tree/mod.rs: clear"]}
{"id": "C64", "title": "Dropping a tree drops its entries", "statement": "Every key and value stored is dropped exactly once when the tree is dropped.", "quantifier": "all trees", "why_tests_cant": "Leaks are silent.", "anchors": ["src/internal/rb_tree/mod.rs: free_tree"]}
{"id": "C65", "title": "Parent pointer and colour share a word losslessly", "statement": "Reading back the colour or the parent after any sequence of writes to either returns the last value written, for every 2-aligned pointer.", "quantifier": "all words, all aligned pointers, all sequences of writes", "why_tests_cant": "2^64 words.", "anchors": ["src/internal/rb_tree/node.rs: ParentColor"]}
{"id": "C66", "title": "Integer hashes respect and distinguish integers", "statement": "For every integer type the default hash of equal values is equal, and distinct values of one type have distinct hashes; signed values sign-extend.", "quantifier": "all values of all integer types", "why_tests_cant": "2^64 values.", "anchors": ["src/hash.rs"]}
{"id": "C67", "title": "Default hash of strings", "statement": "str, String and NUL-terminated foreign strings with the same bytes hash identically, to a value below 2^32.", "quantifier": "all strings", "why_tests_cant": "All strings.", "anchors": ["src/hash.rs: fnv1"]}
{"id": "C68", "title": "Element rotation used by remove", "statement": "Rotating a range by pairwise swaps moves the first element of the range to the far end and shifts all others by one, preserving their order.", "quantifier": "all ranges", "why_tests_cant": "All lengths.", "anchors": ["src/util.rs: rotate", "src/deque/mod.rs: remove"]}
{"id": "C69", "title": "FixedMap starts empty with its inline pool", "statement": "A new FixedMap is empty for every observer, and its pool holds exactly N aligned nodes inside the object.", "quantifier": "all N and node sizes", "why_tests_cant": "All N and alignments.", "anchors": ["src/fixed_map/mod.rs"]}
{"id": "C70", "title": "Lists sharing an allocator do not interfere", "statement": "Two lists alive at the same time and using the same allocator behave independently: whatever the interleaving of their calls, each returns what its own calls return on a sequence of its own.", "quantifier": "all interleavings of all histories on two lists, all placements", "why_tests_cant": "Interference needs particular reuse of freed addresses and particular interleavings.", "anchors": ["src/list/mod.rs: List", "src/list/node.rs: insert, remove"]}
{"id": "C71", "title": "Hash maps sharing an allocator do not interfere", "statement": "Two hash maps alive at the same time, using the same allocators and while empty the same static bucket array, behave independently: whatever the interleaving of their calls, each returns what its own calls return on a finite map of its own.", "quantifier": "all interleavings of all histories on two maps, all placements, all hash functions", "why_tests_cant": "Interference needs particular reuse of freed addresses and particular interleavings.", "anchors": ["src/internal/hash_table/mod.rs", "src/hash_map/mod.rs"]}
{"id": "C72", "title": "Collecting pairs into a hash map", "statement": "A hash map collected from a sequence of pairs binds k exactly if some pair has a key equal to k, under the key of the first such pair and with the value of the last.", "quantifier": "all sequences of pairs, all key equalities and hash functions", "why_tests_cant": "All sequences.", "anchors": ["src/internal/hash_table/mod.rs: from_iter", "src/hash_map/mod.rs: from_iter"]}
{"id": "C73", "title": "Histories on a map or set", "statement": "On any ordered tree, any history of lookups, updates through get_mut, mutable and plain iterations, len and is_empty returns what the calls return on the increasing list of its entries, and neither allocates, frees nor moves a node; a new map is an empty tree.", "quantifier": "all trees of any shape, all histories, all strict weak orders", "why_tests_cant": "All shapes and histories; the tree cannot even be built by the crate itself.", "anchors": ["src/map/mod.rs", "src/set/mod.rs", "src/internal/rb_tree/mod.rs"]}
{"id": "C74", "title": "Place of a new key in a tree", "statement": "The search for the insertion point of a key returns a node next to whose free child slot all smaller-or-equivalent entries lie on one side and all greater entries on the other.", "quantifier": "all non-empty ordered trees, all keys, all strict weak orders", "why_tests_cant": "All shapes and keys.", "anchors": ["src/internal/rb_tree/mod.rs: _find_insertion_position"]}
{"id": "C75", "title": "Linking a child below a tree node", "statement": "Setting the left or right child of a node returns the old child, makes the node the parent of the new child, keeps the new child's colour and changes nothing else. Setting the parent of a node returns the old parent, keeps the colour and changes nothing else.", "quantifier": "all nodes, children (or none) and colours", "why_tests_cant": "Parent and colour share a word; all words and addresses.", "anchors": ["src/internal/rb_tree/node.rs: _set_left, _set_right, _set_parent"]}
{"id": "C76", "title": "Moving a map or set", "statement": "A map or set can be moved like any Rust value: all calls on the moved object behave as before.", "quantifier": "all trees, all addresses", "why_tests_cant": "Needs memory layout: the nodes point back at the object.", "anchors": ["src/internal/rb_tree/mod.rs: RBTree", "src/map/mod.rs: Map", "src/set/mod.rs: Set"]}
{"id": "C77", "title": "Float hashes respect equality", "statement": "Floating-point values that compare equal (also 0.0 and -0.0) have equal default hashes; the hash is the saturated integer part, so all values below one and not-a-number hash to zero.", "quantifier": "all f32 and f64 bit patterns", "why_tests_cant": "2^64 bit patterns.", "anchors": ["src/hash.rs: DefaultHash<f32>, DefaultHash<f64>"]}
{"id": "C78", "title": "Vectors and deques sharing an allocator do not interfere", "statement": "Two vectors, or two deques, that use the same allocator and are used alternately in any order behave like two unrelated sequences: every call returns what it would return if the other container did not exist, no call on one changes the contents of the other, and either can be dropped without harm to the other.", "quantifier": "all interleavings of calls on two containers, all element values, all allocators", "why_tests_cant": "All interleavings and all address choices of the allocator.", "anchors": ["src/vector/mod.rs: Vector", "src/deque/mod.rs: Deque"]}
{"id": "C79", "title": "Comparators", "statement": "For every totally ordered key type `Less` and `Greater` are strict weak orders that tie exactly the equal keys, and `Greater` is `Less` with its arguments exchanged; so exchanging one for the other in a vector map changes no result and reverses the iteration.", "quantifier": "all totally ordered key types, all histories of calls", "why_tests_cant": "All key types, pairs of keys and histories.", "anchors": ["src/compare.rs: Less, Greater", "src/equals.rs: EqualTo"]}
{"id": "C80", "title": "Broken comparators, equalities and hashes cannot corrupt a map", "statement": "Whatever the comparator, equality or hash function answers, even if the answers are inconsistent or change from call to call, every call on a map succeeds, touches no memory but the map's own, neither loses nor duplicates an entry, and reports what it did; dropping the map gives back all its entries.", "quantifier": "all comparators, equalities and hash functions, changing per call; all histories of calls", "why_tests_cant": "All functions, including non-deterministic ones.", "anchors": ["src/vector_map/mod.rs: VectorMap", "src/internal/hash_table/mod.rs: HashTable", "src/compare.rs: Compare", "src/equals.rs: Equals", "src/hash.rs: Hash"]}
{"id": "C81", "title": "Floating-point keys", "statement": "A vector map with floating-point keys finds every key that was inserted.", "quantifier": "all f32 and f64 bit patterns, all histories of calls", "why_tests_cant": "All bit patterns; NaN is unordered.", "anchors": ["src/vector_map/mod.rs: VectorMap", "src/compare.rs: Less", "src/equals.rs: EqualTo"]}
{"id": "C82", "title": "Bindings persist in a hash map", "statement": "A value inserted into a hash map is found under every equal key as long as no call names an equal key or clears the map, whatever else is inserted; keys need only be symmetrically and transitively comparable, so floating-point keys work even if NaN keys are in the map.", "quantifier": "all histories of calls before and after, all keys, all f32 and f64 bit patterns", "why_tests_cant": "All histories; keys that are not equal to themselves.", "anchors": ["src/internal/hash_table/mod.rs: HashTable", "src/hash_map/mod.rs: HashMap", "src/hash.rs: DefaultHash<f32>"]}
{"id": "C83", "title": "Vectors on a 64-bit machine", "statement": "With sizes in bytes and `usize` arithmetic a vector behaves like a mathematical sequence, compiled with or without overflow checks, as long as every capacity asked for can exist in the address space; with overflow checks it behaves like one or panics without that condition; memory is given back with the layout it was obtained with, all of it when the vector is dropped.", "quantifier": "all element sizes and alignments, both build modes, all histories of calls, all address choices of the system allocator", "why_tests_cant": "All sizes, histories and both build modes; tests cannot allocate near the limits.", "anchors": ["src/allocator.rs: Allocator, DefaultAllocator", "src/vector/mod.rs: Vector"]}
{"id": "C84", "title": "Capacities that do not fit are refused", "statement": "A request for more capacity than the address space holds panics; it never yields a vector whose buffer is smaller than its capacity.", "quantifier": "all element sizes of at least two bytes, all reachable vectors, all capacities, both build modes", "why_tests_cant": "Needs requests near `usize::MAX` in a release build.", "anchors": ["src/vector/mod.rs: Vector::reserve, Vector::with_capacity", "src/allocator.rs: Allocator::allocate"]}
{"id": "C85", "title": "Running out of memory", "statement": "When the system has no memory left, growing a vector panics or aborts instead of continuing with an invalid buffer, and calls that need no memory still work.", "quantifier": "all reachable vectors, all requests, both build modes, all system allocators that fail", "why_tests_cant": "Allocation failure cannot be provoked portably.", "anchors": ["src/allocator.rs: DefaultAllocator::allocate_raw_aligned", "src/vector/mod.rs: Vector::reserve, Vector::push, Vector::insert"]}
{"id": "C86", "title": "Zero-sized elements", "statement": "A vector of zero-sized elements never stores one: each call that would panics and leaves the vector empty, and undefined behaviour never happens.", "quantifier": "all histories of calls, both build modes, all system allocators", "why_tests_cant": "All histories.", "anchors": ["src/allocator.rs: Allocator::allocate, DefaultAllocator::allocate_raw_aligned", "src/vector/mod.rs: Vector"]}
{"id": "C87", "title": "C++ code can iterate over a Rust hash map", "statement": "A C++ loop from `begin()` to `end()` of EASTL's hash table, run on a map filled by Rust, ends and visits exactly the entries Rust iteration yields, in the same order.", "quantifier": "all histories of calls, hash functions, equalities and placements of nodes", "why_tests_cant": "Tests contain no C++ code; and the loop depends on every bucket array ending in the sentinel.", "anchors": ["src/internal/hash_table/mod.rs: HashTable, HashTable::rehash, EMPTY_BUCKET_ARR", "src/internal/hash_table/node.rs: Node"]}
{"id": "C88", "title": "Iterators passed between Rust and C++", "statement": "A pair of compatibility iterators made from a Rust iterator is the pair C++ has at the same position, and a Rust iterator made from a C++ pair yields the entries of the C++ range.", "quantifier": "all histories of calls, hash functions, equalities and placements of nodes", "why_tests_cant": "Tests only convert there and back in Rust.", "anchors": ["src/internal/hash_table/iter.rs: CompatIter, CompatIterMut, Iter::into_compat, Iter::from_compat"]}
{"id": "C89", "title": "A panicking destructor does not corrupt a vector", "statement": "If the destructor of an element panics while a vector is cleared or dropped and the panic is caught, the vector is still sound: no element is dropped twice by a later call or by the end of its scope.", "quantifier": "all histories of calls, contents, allocator placements and sets of elements whose destructor panics", "why_tests_cant": "Tests use element types whose destructors do not panic, and a double drop is undefined behaviour rather than a failed assertion.", "anchors": ["src/vector/mod.rs: Vector::clear, Drop for Vector"]}
{"id": "C90", "title": "A panicking clone does not expose uninitialised elements", "statement": "If `clone` of an element panics while elements are appended from a slice and the panic is caught, every element the vector then claims to have is a valid one.", "quantifier": "all histories of calls, slices, positions of the panicking element and allocator placements", "why_tests_cant": "Tests clone numbers; a vector with uninitialised elements passes any test that does not look at them.", "anchors": ["src/vector/mod.rs: Vector::append, Vector::assign"]}
{"id": "C91", "title": "A panicking destructor does not corrupt a list", "statement": "If the destructor of an element panics while a list is cleared and the panic is caught, using or dropping the list afterwards touches no freed node and drops no element twice.", "quantifier": "all histories of calls, contents, allocator placements and sets of elements whose destructor panics", "why_tests_cant": "As for vectors; whether freed memory is used depends on the position of the panicking element.", "anchors": ["src/list/mod.rs: List::clear, Drop for List"]}
{"id": "C92", "title": "A panicking destructor does not corrupt a hash map", "statement": "If the destructor of a key or value panics while a hash map is cleared and the panic is caught, using or dropping the map afterwards touches no freed node and drops nothing twice.", "quantifier": "all histories of calls, hash functions, equalities, placements of nodes and sets of entries whose destructor panics", "why_tests_cant": "As for vectors; which entries are affected depends on hash values and chain order.", "anchors": ["src/internal/hash_table/mod.rs: HashTable::clear, HashTable::free_bucket, HashTable::free_buckets, Drop for HashTable"]}
{"id": "C93", "title": "Hash table nodes have the layout C++ expects", "statement": "Key, value and link of a hash map node are at the offsets, and the node has the size and alignment, of EASTL's node for the same types, so that either language can walk a table of the other; likewise for sets.", "quantifier": "all sizes and alignments of key and value types", "why_tests_cant": "Tests use a few types with the usual alignments and never a C++ compiler.", "anchors": ["src/internal/hash_table/node.rs: Node", "src/hash_set/mod.rs: HashSet", "README.md: binary-compatible"]}
{"id": "C94", "title": "Vector map elements and tree nodes have the layout C++ expects", "statement": "Key and value of a vector map element, and of a map node behind its three links, are at the offsets of EASTL's pair for the same types.", "quantifier": "all sizes and alignments of key and value types and all layouts Rust may choose for a tuple", "why_tests_cant": "A test sees only the layout one compiler version chose for a few types.", "anchors": ["src/vector_map/mod.rs: VectorMap", "src/internal/rb_tree/node.rs: Node", "README.md: binary-compatible"]}
{"id": "C95", "title": "Deque iterators do not outlive what they point to", "statement": "Whatever safe code does between taking an iterator of a deque or queue and using it, the iterator yields elements the container owns and reads no freed memory.", "quantifier": "all histories of calls, contents, subarray sizes, allocator placements, and calls between taking and using the iterator", "why_tests_cant": "A stale iterator often still reads the old bytes, so a test passes; no test uses an iterator after a change.", "anchors": ["src/deque/mod.rs: Deque::iter, Deque::iter_mut", "src/queue.rs: Queue::iter, Queue::iter_mut", "src/deque/iter.rs: RawIter::next, RawIter::next_back"]}
{"id": "C96", "title": "Mutable references are exclusive", "statement": "References obtained from mutable iterators of deques, queues, lists and hash maps never refer to the same element at the same time.", "quantifier": "all histories of calls, contents, allocator placements and orders of calls of next and next_back", "why_tests_cant": "Aliasing mutable references are undefined behaviour without a visible symptom in a test.", "anchors": ["src/deque/mod.rs: Deque::iter_mut", "src/queue.rs: Queue::iter_mut", "src/list/mod.rs: List::iter_mut", "src/fixed_list/conformant.rs: FixedList::iter_mut", "src/internal/hash_table/iter.rs: IterMut (derive Clone)"]}
{"id": "C97", "title": "Vector map lookups take logarithmically many comparisons", "statement": "Every call on a vector map that takes a key asks the comparator about it at most ceil(log2 n) + 1 times and tests equality at most once, where n is the number of entries; it compares only stored keys with the given key.", "quantifier": "all histories of calls, keys, and comparators and equalities, even inconsistent or changing ones", "why_tests_cant": "Tests observe results, not the number of comparisons, and a linear search passes them.", "anchors": ["src/vector_map/mod.rs: VectorMap::lower_bound, get, insert, remove, entry"]}
{"id": "C98", "title": "Tree lookups take logarithmically many comparisons", "statement": "A lookup in a map or set that is a red-black tree with n entries visits at most 2 log2(n + 1) nodes and makes at most two comparisons at each; the search for the place of a new key makes one at each.", "quantifier": "all red-black trees of any size, keys, and comparators, even inconsistent ones", "why_tests_cant": "The tests build trees of a few nodes and cannot see how many nodes were visited.", "anchors": ["src/internal/rb_tree/mod.rs: RBTree::find_in_tree, RBTree::_find_insertion_position"]}
{"id": "C99", "title": "Rehashing is amortised constant", "statement": "Over a whole history of calls the rehashes of a hash map that holds at most N entries move at most 2N entries in total and number at most log2 N + 1; the bucket arrays left behind are together no larger than the current one.", "quantifier": "all histories of calls, hash functions, equalities and placements, for all N up to the largest the policy supports", "why_tests_cant": "A property of the sum over a history; tests check single insertions.", "anchors": ["src/internal/hash_table/mod.rs: HashTable::rehash, HashTable::insert_impl", "src/internal/hash_table/rehash_policy.rs: PrimeRehashPolicy::get_rehash_required"]}
{"id": "C100", "title": "Running out of memory in lists and hash maps", "statement": "When there is no memory for another node or bucket array, a call that would add an element to a list or a key to a hash map panics with the container unchanged, and every other call works as before.", "quantifier": "all histories of calls before memory runs out, all contents, and every call after", "why_tests_cant": "Allocation failure cannot be provoked portably.", "anchors": ["src/list/mod.rs: List::create_node, push_back, push_front, extend", "src/internal/hash_table/mod.rs: HashTable::insert_impl", "src/allocator.rs: DefaultAllocator::allocate_raw_aligned"]}
{"id": "C101", "title": "Panics in hash functions and equality are memory safe", "statement": "If the keys' hash function or == panics at any point of any call of a hash map and the program catches the panic and goes on, no later call touches freed or uninitialised memory, every call that returns keeps its books, nothing is dropped twice, and dropping the map frees everything but the entries lost by the panic.", "quantifier": "all histories of calls (one of more than 2147483776 may end with the growth policy's own panic), all hash functions and equalities in each call, every number of calls of them before one panics", "why_tests_cant": "Every call has one interruption point per hash and comparison it makes; tests do not inject panics.", "anchors": ["src/internal/hash_table/mod.rs: find_in_bucket, insert, insert_impl, rehash, remove_entry, entry", "src/internal/hash_table/entry.rs"]}
{"id": "C102", "title": "A call left by a panicking key changes nothing", "statement": "If the hash function or == of a key panics during a call of a hash map, every key that was found before the call is found after it.", "quantifier": "all reachable maps, all calls, every point at which the panic may occur", "why_tests_cant": "Needs every interruption point of a rehash of every table.", "anchors": ["src/internal/hash_table/mod.rs: HashTable::rehash, HashTable::insert_impl, HashTable::insert"]}
{"id": "C103", "title": "A deque moves few pointers per call", "statement": "Any series of calls of a deque moves a number of subarray pointers bounded by a constant times the number of calls, so that pushing and popping take amortised constant time.", "quantifier": "all deques, all finite series of calls, all element types, all subarray sizes", "why_tests_cant": "A sum over histories of every length, and the bad histories need a full pointer array.", "anchors": ["src/deque/mod.rs: Deque::push_back, Deque::push_front, Deque::pop_front", "src/deque/mod.rs: Deque::realloc_ptr_array"]}
{"id": "C104", "title": "Unsteady and panicking comparators of vector maps", "statement": "Whatever the comparator and == of a VectorMap answer each time they are called, also differently within one call, and wherever they panic, no call touches memory that is not the map's, each call that returns keeps its books, and a call left by a panic leaves the same pairs in the same order. If they answer like an order whenever they do not panic, calls that panicked might as well not have been made.", "quantifier": "all comparators and equalities with any internal state, all histories of calls, every point at which they panic", "why_tests_cant": "The answers of such a comparator form an unbounded tree; tests use well-behaved keys.", "anchors": ["src/vector_map/mod.rs: VectorMap::lower_bound, insert, remove_entry, get, get_mut, entry", "src/vector_map/entry.rs"]}
{"id": "C105", "title": "Debug output shows the contents", "statement": "The {:?} of a container is the {:?} of its elements in iteration order, between brackets and with separators, maps printing key: value; containers with different contents print differently.", "quantifier": "all histories of calls on each container, all ways elements print", "why_tests_cant": "The output is a function of the whole contents; tests compare a few texts.", "anchors": ["src/vector/mod.rs: Debug for Vector", "src/deque/mod.rs: Debug for Deque", "src/queue.rs: Debug for Queue", "src/list/mod.rs: Debug for List", "src/hash_map/mod.rs: Debug for HashMap", "src/hash_set/mod.rs: Debug for HashSet", "src/map/mod.rs: Debug for Map", "src/vector_map/mod.rs: Debug for VectorMap", "src/string/mod.rs: Debug for String, Display for String"]}
{"id": "C106", "title": "Unsteady and panicking keys of hash maps", "statement": "Whatever the hash function and == of a hash map's keys answer each time they are run, also differently within one call, and wherever they panic, no call touches freed or uninitialised memory or runs forever, each call returns and keeps its books or is left by such a panic, nothing is dropped twice, and dropping the map frees everything but the entries lost by panics. If the answers do not depend on when they are asked for, the map behaves as with pure functions.", "quantifier": "all hash functions and equalities with any internal state, all histories of calls (one of more than 2147483776 may end with the growth policy's own panic), every point at which they panic", "why_tests_cant": "The answers form an unbounded tree, and a rehash may see other hashes than the lookup before it; tests use well-behaved keys.", "anchors": ["src/internal/hash_table/mod.rs: find_in_bucket, insert, insert_impl, rehash, remove_entry, entry", "src/internal/hash_table/entry.rs", "src/hash.rs: Hash", "src/equals.rs: Equals"]}
{"id": "C107", "title": "A deque survives destructors that panic", "statement": "If the destructor of an element panics while a deque or queue is dropped, every other element is still dropped exactly once and its memory is freed; the process is not aborted because of a single panic.", "quantifier": "all histories of calls, all sets of elements whose destructors panic", "why_tests_cant": "Tests use elements whose destructors do not panic.", "anchors": ["src/deque/mod.rs: Drop for Deque", "src/queue.rs: Queue"]}
{"id": "C108", "title": "Collecting from an iterator that panics", "statement": "If the iterator a container is being built from panics, the elements yielded so far are dropped exactly once each and all memory allocated meanwhile is released; a list being extended keeps the elements yielded so far at its end and stays usable.", "quantifier": "vectors, deques, queues, hash maps and hash sets, lists; all items yielded before the panic, all size hints, all histories before and after", "why_tests_cant": "Tests collect from iterators that do not panic.", "anchors": ["src/vector/mod.rs: FromIterator for Vector", "src/deque/mod.rs: FromIterator for Deque", "src/queue.rs: FromIterator for Queue", "src/internal/hash_table/mod.rs: FromIterator for HashTable", "src/list/mod.rs: Extend for List"]}
{"id": "C109", "title": "The length of a list is its number of elements", "statement": "len() is the number of elements of a list and is_empty() says whether there are none, at every length the memory allows; pushing succeeds whenever there is memory.", "quantifier": "all histories of calls, lists of every length, debug and release builds", "why_tests_cant": "The count is 32 bits wide; a test would need lists of more than 2^32 elements.", "anchors": ["src/list/mod.rs: List::len, List::is_empty, List::push_back, List::push_front, List::pop_back, List::pop_front, List::clear, Extend for List", "src/list/iter.rs: Iter::next"]}
{"id": "C110", "title": "Wrappers behave like what their names say", "statement": "A queue collected from an iterator yields the items first in, first out, and the deque it is turned into continues with the elements left; a hash set collected from keys contains exactly the keys equal to one of them and keeps the first of equal keys, and its iterator yields each key once, also after a round trip through the C++-compatible form; the conformant fixed list behaves like a sequence although its buffer need not be aligned for its nodes.", "quantifier": "all items, all histories of calls, all splits of an iteration, all placements of the object", "why_tests_cant": "Unbounded histories; the buffer's misalignment depends on where the object is placed.", "anchors": ["src/queue.rs: Queue::into_inner, FromIterator for Queue", "src/hash_set/mod.rs: FromIterator for HashSet", "src/hash_set/iter.rs: Iter", "src/fixed_list/conformant.rs: FixedList"]}
{"id": "C111", "title": "Deques grow as far as memory allows", "statement": "push_back and push_front of a deque succeed whenever there is memory, however many elements it has; should one panic, the deque is as before, the element is dropped once and no memory is lost.", "quantifier": "all histories of calls, deques of every length, debug and release builds", "why_tests_cant": "The size of the pointer array is 32 bits wide; a test would need billions of subarrays.", "anchors": ["src/deque/mod.rs: Deque::push_back, Deque::push_front, Deque::realloc_ptr_array", "src/deque/mod.rs: Deque.ptr_array_size"]}
{"id": "C112", "title": "C++ code can read Rust sequences", "statement": "A C++ function that is passed a Vector, FixedVector, Deque, List or FixedList by pointer and loops over it the way EASTL does visits exactly the elements, in order, and ends; backward loops over deques and lists visit them in reverse order; EASTL's size() is their number and operator[] of a deque gives the i-th element.", "quantifier": "all histories of calls, all element sizes, all states of the allocator", "why_tests_cant": "The C++ reader is a different program with its own iterator arithmetic; the repository has no C++ tests.", "anchors": ["src/vector/mod.rs: Vector", "src/fixed_vector/mod.rs: FixedVector", "src/deque/mod.rs: Deque", "src/deque/iter.rs: CompatIter, CompatIterMut", "src/list/mod.rs: List", "src/list/node.rs: ListNode, ListNodeBase", "src/fixed_list/mod.rs: FixedList"]}
{"id": "C113", "title": "Deques survive running out of memory", "statement": "When the allocator of a Deque has no memory left and returns a null pointer, a call on the deque reports the failure by a panic or an abort and touches no memory it should not; calls that need no memory work as usual.", "quantifier": "All element types, subarray sizes, histories of calls made while there was memory, and calls made afterwards; creation of a deque.", "why_tests_cant": "Tests never run out of memory; which push needs memory depends on the history.", "anchors": ["src/deque/mod.rs: push_back, push_front, init, realloc_ptr_array, allocate_ptr_array, allocate_subarray", "src/deque/iter.rs: set_subarray", "src/allocator.rs: DefaultAllocator"]}
{"id": "C114", "title": "A call refused for its index changes nothing", "statement": "insert and index assignment with an index out of range panic and leave the Vector, FixedVector or String as it was; a program that catches the panic and goes on gets the results of the history without the refused calls, and the values of the refused calls are dropped exactly once.", "quantifier": "All element types, histories of accepted and refused calls, indices, inline capacities and allocators' choices of addresses.", "why_tests_cant": "Tests with should_panic end at the panic; what the container is worth afterwards, in every state it can be refused in, is never looked at.", "anchors": ["src/vector/mod.rs: insert, deref_mut, as_slice_mut", "src/fixed_vector/mod.rs: Deref, DerefMut", "src/string/mod.rs: insert, null_terminate"]}
{"id": "C115", "title": "Every map C++ hands over can be read", "statement": "The crate cannot insert into Map and Set, so their contents come from C++. A tree of any shape and colouring that C++ writes to memory, wherever its nodes are, is read correctly by iteration, len and lookup; every increasing list of entries can be handed over as a red-black tree, on which all histories of calls behave as on the list and lookups visit logarithmically many nodes; if its nodes are blocks of the default allocator, dropping it in Rust gives back exactly those.", "quantifier": "All tree shapes and colourings, all entries, all strict weak orders, all distinct even non-null addresses below 2^64 of nodes and object, all histories of calls.", "why_tests_cant": "Rust tests cannot build a non-empty tree at all; a C++ test covers a few shapes.", "anchors": ["src/internal/rb_tree/mod.rs: get, find_in_tree, iter, len, drop, free_nodes", "src/internal/rb_tree/node.rs: Node, ParentColor, next", "src/map/mod.rs: Map", "src/set/mod.rs: Set"]}
{"id": "C116", "title": "VectorMap drops every key and value exactly once", "statement": "Every key and value given to a VectorMap by any history of calls, or by building it from an array or an iterator, is at the end handed to the caller or dropped, exactly once: the second copy of a key, the key of a removed pair, a default not needed, and the arguments of a call that the comparator or == left by a panic included. A construction that panics drops everything it was given and leaves nothing allocated.", "quantifier": "all histories, comparators and == (also unsteady and panicking), destructors or none for keys and values, contents given at construction", "why_tests_cant": "a double drop of a duplicate key shows only with a key type that owns memory, for the right history; leaks show nowhere", "anchors": ["src/vector_map/mod.rs: insert, remove, remove_entry, entry, clear, From, FromIterator", "src/vector_map/entry.rs", "src/vector/mod.rs: clear, Drop"]}
{"id": "C117", "title": "Entry closures that panic leave a hash map intact", "statement": "If the closure of and_modify or or_insert_with panics and the caller catches the panic, the HashMap stays usable: a modified value is what the closure left, an entry whose default could not be made is not there and its key is dropped, all other entries and all later calls are as if the map were a finite map; at the end every key and value, those made by closures included, was handed out or dropped exactly once.", "quantifier": "all histories of calls with panicking and non-panicking closures, all keys, values, hash functions, node placements; up to 2557710464 entries", "why_tests_cant": "tests pass closures that return; a map left half-changed by an unwinding closure shows only in later calls", "anchors": ["src/internal/hash_table/entry.rs: and_modify, or_insert_with", "src/hash_map/entry.rs", "src/internal/hash_table/mod.rs: entry, insert_impl"]}
{"id": "C118", "title": "Fixed containers have the layout of the byte-buffer variant and room for exactly N nodes", "statement": "A FixedList has the size, the alignment and the buffer offset of a conformant::FixedList with the same parameters, and at the same address both start with the same pool, so either side can work on the other's object; likewise a FixedMap against the same variant of a map. Wherever the object is, its pool has exactly N aligned nodes inside the object, and ends before the object does.", "quantifier": "all sizes and alignments of the elements, keys, values, comparator and overflow allocator, all N, all addresses; 64-bit targets", "why_tests_cant": "a test compiles a few element types; over-aligned types and other allocators change padding in ways no test instantiates, and conformant::FixedList needs a nightly compiler", "anchors": ["src/fixed_list/mod.rs: FixedList, new_in", "src/fixed_list/conformant.rs: FixedList, new_in", "src/fixed_map/mod.rs: FixedMapImpl, new", "src/list/mod.rs: List", "src/list/node.rs", "src/internal/rb_tree/mod.rs: RBTree", "src/fixed_pool/mod.rs: init"]}
{"id": "C119", "title": "How often a hash map hashes and compares keys", "statement": "A call of HashMap that takes a key hashes it once and compares it with the stored keys of its bucket, in iteration order and no further than the first equal one; it asks nothing else of keys unless the map grows. A call that makes the map grow hashes in addition every stored key once and the new key once more. len, is_empty and clear ask nothing of keys. Over a whole history with at most N entries the hash function is called once per keyed call and at most 2N + log2 N + 1 times more.", "quantifier": "all histories up to 2557710464 entries, hash functions and equalities keeping their contract, calls, keys, values, node placements", "why_tests_cant": "results do not show how often a user's Hash or PartialEq implementation runs; a test that counts sees one history", "anchors": ["src/internal/hash_table/mod.rs: get, get_mut, insert, entry, remove_entry, find_in_bucket, bucket_for_key, insert_impl, rehash, clear", "src/hash_map/mod.rs", "src/hash_map/entry.rs"]}
{"id": "C120", "title": "Hash of a String and of the pointer to its text", "statement": "For every String with storage whose text is terminated, hashing the String and hashing the pointer to its text with the default hash give the same value.", "quantifier": "all histories of string calls, all characters, all allocators", "why_tests_cant": "The pushed characters range over all of Unicode; the tests hash one ASCII word.", "anchors": ["src/hash.rs: Hash<*const c_char>, fnv1", "src/string/mod.rs: push, insert, as_bytes, Hash"]}
{"id": "C121", "title": "Hash of foreign bytes that are not UTF-8", "statement": "The default hash of a NUL-terminated foreign string is defined for every byte content and is the hash of the text that Unicode's substitution of maximal subparts reads from it: encoded characters are kept, the longest beginning of a character that is there, or else a single byte, becomes U+FFFD. The bytes are hashed unchanged exactly if they are UTF-8, and strings that differ only in bytes that no UTF-8 text contains hash alike.", "quantifier": "all byte strings without NUL, anywhere in memory", "why_tests_cant": "All byte strings of every length; where an ill-formed part ends depends on tables of second bytes.", "anchors": ["src/hash.rs: Hash<*const c_char>"]}
{"id": "C122", "title": "Threads may have what their contents permit", "statement": "A container, iterator or entry can be handed over to another thread exactly if the elements, allocator and comparator it owns (or borrows) can, and can be shared between threads exactly if these can.", "quantifier": "all element, key and value types, allocators, comparators, hash functions and equalities, with any combination of Send and Sync, and all types of the crate", "why_tests_cant": "Whether a type is Send or Sync is decided by the compiler for each instance; a test that compiles shows it for its own types only, and that something must not compile is not tested at all.", "anchors": ["src/vector/mod.rs: unsafe impl Send, Sync", "src/hash_map/mod.rs: unsafe impl Send, Sync", "src/map/mod.rs: unsafe impl Send, Sync", "src/deque/mod.rs: unsafe impl Send, Sync", "src/list/mod.rs: List", "src/set/mod.rs: Set"]}
{"id": "C123", "title": "An allocator that panics does no harm", "statement": "If the allocator of a vector, fixed vector, string, list, fixed list, deque, hash map or vector map panics when a call asks it for memory, and the program catches the panic and goes on, the call has changed nothing: the contents are as before, what was passed to the call is dropped exactly once, later calls return what they would have returned without it, and nothing is undefined behaviour. Extending a list keeps the elements appended before the refusal. A fixed container asks for memory only when its inline storage is used up.", "quantifier": "all histories of calls, any of which may be refused any of its requests for memory; all element, key and value types; deque elements of any size including none; hash maps up to 2147483776 entries", "why_tests_cant": "The allocator can panic at every request of every history; the crate's tests never make it fail.", "anchors": ["src/allocator.rs: Allocator, DefaultAllocator::allocate_raw_aligned", "src/vector/mod.rs: reserve, grow, push, insert, append, assign", "src/deque/mod.rs: init, realloc_ptr_array, push_back, push_front, Drop", "src/internal/hash_table/mod.rs: insert_impl, rehash", "src/internal/hash_table/rehash_policy.rs", "src/list/mod.rs: push_back, push_front, Extend", "src/fixed_list/mod.rs: new_in", "src/fixed_pool/with_overflow.rs: allocate_raw_aligned", "src/fixed_vector/allocator.rs", "src/string/mod.rs: insert, push, reserve, assign", "src/vector_map/mod.rs: insert, entry, FromIterator", "src/vector_map/entry.rs: VacantEntry::insert"]}
{"id": "C124", "title": "What a FixedVector lends out can be taken away", "statement": "The vector inside a FixedVector, which it lends out mutably, may be taken, exchanged or cloned by safe code (std::mem::take, replace and swap; clone), and so may whole FixedVectors be exchanged, without harm: the vector obtained keeps its elements as long as it lives, whatever becomes of the FixedVector; what the FixedVector is left with works on; every element and every block is released exactly once.", "quantifier": "all element types, inline sizes, allocators, histories before and after, overflowed or not", "why_tests_cant": "Whether memory is used after its owner is gone depends on when the two objects end and on which addresses an allocator reuses; a test that reads a dead stack slot usually still finds the old values.", "anchors": ["src/fixed_vector/mod.rs: deref_mut, deref, has_overflowed", "src/fixed_vector/allocator.rs: FixedVectorAllocator, deallocate_raw_aligned", "src/vector/mod.rs: clone, drop"]}
{"id": "C125", "title": "Pointers to elements stay valid", "statement": "A pointer to an element, as foreign code that shares the container keeps it, stays valid through later calls: for a list until that element is popped or the list cleared, for a deque until it is popped (or remove is called), for a hash map until its entry is removed, whatever else is added and removed and however often the container rehashes or reallocates its pointer array; for a vector or fixed vector until a call changes the capacity. What is read through it is what the container then holds at the place where the element has gone.", "quantifier": "all element, key and value types; all histories of calls before the pointer is taken and after it; hash maps up to 2557710464 entries", "why_tests_cant": "Which calls move which elements depends on the whole history, on the sizes reached and on the addresses the allocator returns; a stale pointer usually still reads the old value.", "anchors": ["src/vector/mod.rs: push, insert, remove, pop, reserve", "src/deque/mod.rs: push_back, push_front, pop_back, pop_front, realloc_ptr_array", "src/list/mod.rs: push_back, push_front, pop_back, pop_front", "src/internal/hash_table/mod.rs: insert, remove_entry, rehash", "src/fixed_vector/mod.rs"]}
{"id": "C126", "title": "Lists may change their place", "statement": "A list that is moved to another place in memory, or exchanged with another one by std::mem::swap (which needs no unsafe code, lists being Unpin and lent out mutably), keeps its elements and works on; in particular it can be read to the end and dropped.", "quantifier": "all element types, all histories of one list or of two lists sharing an allocator, all old and new places, empty or not", "why_tests_cant": "Where the links of a list lead after a move depends on both places and on what is stored later at the old one; a test may find the old sentinel still intact.", "anchors": ["src/list/mod.rs: List, init_sentinel_node, clear, front, back, iter", "src/list/iter.rs: next", "src/fixed_list/mod.rs: deref_mut"]}
{"id": "C127", "title": "Elements can be assigned while iterating", "statement": "A program may, at any point of a history, iterate over a deque, list or hash map by iter_mut and assign to whatever it is given (a deque from both ends in any order, as far as it likes): it sees every element once, exactly the elements visited are replaced, each overwritten value is dropped exactly once, and later calls and loops find the new values.", "quantifier": "all element, key and value types, all histories of calls and loops in any order, all values assigned; hash maps up to 2557710464 entries", "why_tests_cant": "The references an iterator hands out depend on the whole history that laid out the elements, and loops of any length may come between any calls.", "anchors": ["src/deque/mod.rs: iter_mut", "src/deque/iter.rs: IterMut", "src/list/mod.rs: iter_mut", "src/list/iter.rs: IterMut", "src/hash_map/mod.rs: iter_mut"]}
{"id": "C128", "title": "Containers that C++ built can be used", "statement": "A vector, string, vector map, fixed vector, deque, list, fixed list or hash map that C++ code built, in any state EASTL allows (a vector with any spare room or none allocated, a fixed vector in its buffer or overflowed, a deque starting anywhere in its pointer array and subarray, list nodes in any order in memory, a fixed list with any free list and any nodes overflowed, a hash table with any number of buckets and any resize threshold), behaves in Rust like its contents: every history of calls returns what it returns on the mathematical sequence or finite map of its contents, every element is dropped or handed out exactly once, and dropping the container gives back the memory that C++ allocated for it, without touching any other.", "quantifier": "all states of such containers, all element, key and value types, all placements in memory, all histories of calls and loops; hash maps up to 2147483776 entries, with the default load factor", "why_tests_cant": "The crate's tests contain no C++ code, and build every container with Rust calls, which never reach many of the states C++ code may hand over.", "anchors": ["src/vector/mod.rs: Vector", "src/string/mod.rs: String", "src/vector_map/mod.rs", "src/fixed_vector/mod.rs: FixedVector", "src/deque/mod.rs: Deque", "src/deque/iter.rs: CompatIterMut", "src/list/mod.rs: List", "src/list/node.rs", "src/fixed_list/mod.rs: FixedList", "src/fixed_pool/with_overflow.rs: FixedPoolWithOverflow", "src/internal/hash_table/mod.rs: HashTable", "src/internal/hash_table/node.rs: Node"]}
{"id": "C129", "title": "Containers may contain vectors", "statement": "A vector, deque or list whose elements are vectors behaves like a sequence of sequences, and a hash map or vector map whose values are vectors like a finite map to sequences: a program that builds vectors, moves them into the container, calls the container, reads the vectors it returns or lends, and calls vectors inside it through mutable references observes exactly what it would on that, and panics where that does. When the container is dropped, everything the vectors owned is given back, and every element of a vector inside is handed to the program or dropped exactly once.", "quantifier": "all element types, all programs of such items of any length and order, all allocators and placements in memory", "why_tests_cant": "The destructor of an element now frees memory of its own: a missed, repeated or early drop of an element by the outer container depends on the whole history and shows up as a leak or double free, not as a wrong value.", "anchors": ["src/vector/mod.rs: push, pop, insert, remove, clear, Drop", "src/deque/mod.rs: push_back, push_front, pop_back, pop_front, remove, front_mut, back_mut, Drop", "src/list/mod.rs: push_back, push_front, pop_back, pop_front, clear, front_mut, back_mut, Drop", "src/hash_map/mod.rs: insert, remove, remove_entry, entry, get, get_mut, clear", "src/internal/hash_table/mod.rs: Drop", "src/vector_map/mod.rs: insert, remove, remove_entry, entry, get, get_mut, clear"]}
{"id": "C130", "title": "References obey Rust's aliasing rules", "statement": "The library never breaks the aliasing rules that references and pointers obey (Stacked Borrows, the model Miri checks): whatever a program calls, every access by the library goes through a pointer that still has the permission for it on every cell it touches, so that the optimiser's assumptions hold.", "quantifier": "all histories of calls on a vector and then on its owning iterator, with and without destructors, beginning with any permissions on other memory; for deques and hash tables the slices of their pointer and bucket arrays after any history; for lists and fixed vectors their construction at any place and the first push; for pools any reused node", "why_tests_cant": "Breaking the aliasing rules has no effect on the result until an optimiser uses them, so a compiled test sees nothing; and whether a reference covers what is accessed depends on the number of elements.", "anchors": ["src/vector/mod.rs: as_slice, as_slice_mut, clear, append, assign, drop, deref_mut", "src/vector/into_iter.rs: as_slice_mut, next, next_back, drop", "src/deque/mod.rs: realloc_ptr_array, drop", "src/internal/hash_table/mod.rs: buckets_mut, rehash", "src/list/mod.rs: init_sentinel_node, push_back, push_front", "src/fixed_vector/mod.rs: init_base_vec", "src/fixed_pool/mod.rs: allocate"]}
{"id": "C131", "title": "Owning iterators may be used up", "statement": "An owning iterator of a vector can be advanced from either end as far as one likes, then looked at as a slice and dropped: every reference made on the way points to an element of the vector's block.", "quantifier": "all element types, all histories of the vector, all interleavings of next and next_back", "why_tests_cant": "A reference to one element behind the block has no effect that a test could see; whether it arises depends on whether the vector's length happens to equal its capacity and on how much was taken from which end.", "anchors": ["src/vector/into_iter.rs: as_slice, as_slice_mut, drop, next, next_back", "src/vector/mod.rs: into_iter, from"]}
{"id": "C132", "title": "Constructors and moves make valid values", "statement": "Constructing or moving a container never makes a value that its type does not allow, such as an integer without a value: whatever is left uninitialised has a type for which that is allowed.", "quantifier": "all element, key and value types, all node counts of the fixed containers", "why_tests_cant": "An invalid value has no effect a test could see unless an optimiser uses it; and whether bytes are initialised is not observable in a compiled program.", "anchors": ["src/fixed_list/conformant.rs: FixedList, new_in", "src/fixed_list/mod.rs: FixedList, new_in", "src/fixed_map/mod.rs: FixedMap, new", "src/fixed_vector/mod.rs: FixedVector, new_in, move_new"]}
{"id": "C133", "title": "Hash maps may have strings as keys", "statement": "A hash map or set whose keys are the crate's strings behaves like a finite map from byte strings: a program that builds strings, passes them as keys by value or reference and reads the keys it is given observes exactly what it would on that, whichever two string objects with the same bytes it uses. Only live strings are hashed or compared. When the map is dropped, every string's memory has been given back exactly once: keys in the map, keys the map dropped because an equal one was there, keys handed back and keys only lent.", "quantifier": "all byte strings, all value types, all programs of map calls of any length whose map never has more than 2557710464 entries, all allocators and placements in memory", "why_tests_cant": "Equality of keys is decided by what pointers point to, and the map keeps copies of those pointers while it grows, moves nodes between buckets and drops duplicates; a key freed early or twice depends on the whole history.", "anchors": ["src/hash_map/mod.rs: insert, get, remove, remove_entry, entry, contains_key", "src/string/mod.rs: eq, hash, from, as_str", "src/internal/hash_table/mod.rs: HashTable, Drop"]}
{"id": "C134", "title": "References obey the newer aliasing rules", "statement": "The library never breaks the newer and more permissive aliasing rules for references and pointers (Tree Borrows): whatever a program calls, every access by the library goes through a pointer that, like all those it was made of, still allows it on every cell it touches.", "quantifier": "all histories of calls on a vector and then on its owning iterator, with and without destructors, beginning with any permissions; for deques and hash tables the slices of their pointer and bucket arrays after any history; for lists and fixed vectors their construction at any place and the first push; for pools any reused node", "why_tests_cant": "Breaking the aliasing rules has no effect on the result until an optimiser uses them, so a compiled test sees nothing; and which pointers were ended by a write depends on all references made since the container was constructed.", "anchors": ["src/vector/mod.rs: as_slice, as_slice_mut, clear, append, assign, drop, deref_mut", "src/vector/into_iter.rs: as_slice_mut, next, next_back, drop", "src/deque/mod.rs: realloc_ptr_array, drop", "src/internal/hash_table/mod.rs: buckets_mut, rehash", "src/list/mod.rs: init_sentinel_node, push_back, push_front", "src/fixed_vector/mod.rs: init_base_vec", "src/fixed_pool/mod.rs: allocate"]}
{"id": "C135", "title": "Elements may be rearranged in place", "statement": "The slice a vector, fixed vector or owning iterator lends out is its elements: exchanging or replacing elements through it (swap, reverse, sort, mem::replace) and calls on the container may follow one another in any order and have the effect they have on a sequence. Any rearrangement of the elements can be reached in this way. No element is dropped or lost by it, no memory is taken, and when the container is dropped everything in it is dropped exactly once.", "quantifier": "all element types with and without destructors, all histories of calls, exchanges and replacements of any length, all indices, all rearrangements, all interleavings with the iterator's next and next_back, all allocators", "why_tests_cant": "The slice aliases the block the container goes on to grow, shift and free; whether what was written through it survives, and is dropped once, depends on the calls that follow.", "anchors": ["src/vector/mod.rs: as_slice_mut, deref_mut, pop, insert, remove, Drop", "src/vector/into_iter.rs: as_slice_mut, next, next_back, drop", "src/fixed_vector/mod.rs: deref_mut"]}
{"id": "C136", "title": "Strings may be changed in place", "statement": "The str a string lends out mutably is its text: changing the case of its ASCII letters and calls on the string may follow one another and have the effect they have on a text. For any text whatever this keeps it valid UTF-8 of the same length, changes ASCII letters only, keeps the terminator and takes no memory.", "quantifier": "all texts, all histories of ASCII calls and case changes of any length, all allocators", "why_tests_cant": "Validity of UTF-8 after bytewise changes is a claim about all byte sequences; the compiler trusts it unchecked.", "anchors": ["src/string/mod.rs: deref_mut, push, pop, insert, remove, as_str"]}
{"id": "C137", "title": "An entry of a map can be removed", "statement": "Removing the entry of a key from a map returns the entry, or none if there is no such key, and afterwards the map contains all other entries and not this one.", "quantifier": "all maps C++ code can hand over, all keys, contained or not, all histories of calls", "why_tests_cant": "A test of a call that always panics can only be made to expect the panic; that no map and no key escape it, and that it leaves the map as it was, is a claim about all of them.", "anchors": ["src/map/mod.rs: remove_entry", "src/internal/rb_tree/mod.rs: remove_entry"]}
{"id": "C138", "title": "Characters put into a string come back", "statement": "A character that was pushed is returned by the next pop, one that was inserted is returned by remove at that index, and the string is then as before; in any history of calls the characters returned are those a text would return.", "quantifier": "all characters, all strings, all indices, all histories of calls of any length without assign", "why_tests_cant": "There are over a million characters, and which of them survive being stored as one byte shows only when they are read back, at any later time and from any position.", "anchors": ["src/string/mod.rs: push, pop, insert, remove, len"]}
{"id": "C139", "title": "Container objects have the layout C++ expects", "statement": "C++ code that is given a container object, or gives one to Rust, finds every field where it expects it: fields are at the offsets, and objects have the size and alignment, of the EASTL class with the same allocator and comparator, whatever the element type.", "quantifier": "all sizes and alignments of allocators and comparators, with and without fields, on a 64-bit target", "why_tests_cant": "offset_of! is asserted for one element type and the default allocator; other allocators change padding, and classes without fields take a byte in C++ and none in Rust.", "anchors": ["src/vector/mod.rs: Vector", "src/deque/mod.rs: Deque", "src/deque/iter.rs: CompatIterMut", "src/queue.rs: Queue", "src/list/mod.rs: List", "src/internal/hash_table/mod.rs: HashTable", "src/internal/hash_table/rehash_policy.rs: PrimeRehashPolicy", "src/internal/rb_tree/mod.rs: RBTree", "src/set/mod.rs: Set", "src/string/mod.rs: String", "src/fixed_pool/with_overflow.rs: FixedPoolWithOverflow", "src/fixed_vector/allocator.rs: FixedVectorAllocator", "src/allocator.rs: DefaultAllocator", "src/vector_map/mod.rs: VectorMap"]}
{"id": "C140", "title": "Iterating over a hash map keeps its order", "statement": "Looking up, overwriting and removing entries leaves the other entries of a hash map in the order in which iteration yields them; an overwritten entry keeps its place. Adding an entry puts it among the others without reordering them unless the number of buckets grows.", "quantifier": "all keys, values, hash functions and equalities, all histories of calls of any length before and between two iterations", "why_tests_cant": "An order is relative to all other entries and to the whole history; a test fixes one hash function and a few keys, mostly in different buckets.", "anchors": ["src/internal/hash_table/mod.rs: insert, insert_impl, remove_entry, clear, entry, iter, rehash", "src/internal/hash_table/iter.rs: next"]}
{"id": "C141", "title": "Printing reports errors", "statement": "Printing a container to a writer that refuses a text, or with an element that reports an error, writes what comes before and nothing after, and reports the error; otherwise it writes everything and reports success.", "quantifier": "all writers, all ways elements may print, including those that go on after errors, all histories of calls on the container before", "why_tests_cant": "Writers can fail at any text, elements at any position and in any combination, and a test prints to strings, which never fail.", "anchors": ["src/vector/mod.rs: fmt", "src/fixed_vector/mod.rs: fmt", "src/deque/mod.rs: fmt", "src/queue.rs: fmt", "src/list/mod.rs: fmt", "src/fixed_list/mod.rs: fmt", "src/fixed_list/conformant.rs: fmt", "src/hash_map/mod.rs: fmt", "src/hash_set/mod.rs: fmt", "src/map/mod.rs: fmt", "src/vector_map/mod.rs: fmt"]}
{"id": "C142", "title": "A loop over a map takes time proportional to its entries", "statement": "Iterating over all entries of a map, set, hash map or hash set takes a number of steps (links followed, buckets looked at) proportional to the number of entries in it, and a single step in a map of n entries takes at most of the order of log n.", "quantifier": "all trees C++ code can hand over, of any shape, all histories of calls on hash maps of any length", "why_tests_cant": "Cost does not show in results; single steps of a tree iterator may climb its whole height, so linear time is a claim about the sum over all steps, and a hash map's cost depends on all that ever happened to it.", "anchors": ["src/internal/rb_tree/iter.rs: next", "src/internal/rb_tree/node.rs: next", "src/internal/hash_table/iter.rs: next, next_bucket", "src/internal/hash_table/mod.rs: iter, clear, remove_entry"]}
{"id": "C143", "title": "Calls move only the elements they must", "statement": "A call on a vector moves no elements except those behind the place of an insertion or removal, and all of them when there is no room; removing the i-th of n elements of a deque takes a number of steps and swaps proportional to the distance to the nearer end.", "quantifier": "all histories of calls on a vector or deque of any length before, all calls and indices", "why_tests_cant": "Moves and steps do not show in results, only in time, and depend on the length and capacity after arbitrary histories.", "anchors": ["src/vector/mod.rs: insert, push, remove, reserve, append, assign", "src/deque/mod.rs: remove", "src/util.rs: rotate", "src/deque/iter.rs: next"]}
{"id": "C144", "title": "Growing piece by piece is amortised", "statement": "Growing a vector or string to n elements moves of the order of n elements and asks for of the order of log n blocks, also if it grows by slices appended, by room reserved for one element at a time, or by assigning strings; a reservation does nothing if there is room.", "quantifier": "all allocators, all histories before, all elements and slices, any number of them", "why_tests_cant": "The cost shows only in time, and only as a sum over calls of any number; tests with small inputs cannot tell quadratic from linear.", "anchors": ["src/vector/mod.rs: append, reserve, push", "src/string/mod.rs: assign, reserve"]}
{"id": "C145", "title": "Dropping a map needs little stack", "statement": "Dropping a map or set of n entries, which frees the nodes by recursion, has at most 2 log2(n+1) calls active at a time and makes one call for each entry.", "quantifier": "all red-black trees C++ code can hand over, of any size, all allocators; for trees of any other shape, their height instead of the bound", "why_tests_cant": "Stack use does not show in results until it overflows; trees of a size where it would are not built in tests, nor can Rust code build any.", "anchors": ["src/internal/rb_tree/mod.rs: free_tree, free_nodes, drop"]}
{"id": "C146", "title": "Keeping a vector map sorted moves only what is greater", "statement": "Putting an entry into a vector map or taking one out moves exactly the entries with greater keys, all of them once more if there is no room, and other calls move none. Building a map from a slice asks for memory once and moves, for each new key, the greater ones among those before it: nothing if the keys increase, n(n-1)/2 if they decrease. Collecting from an iterator adds fewer moves than 2n and at most log2 n + 2 blocks.", "quantifier": "all strict weak orders and equalities consistent with them, all histories of calls before, all lists of pairs in any order and with any duplicates", "why_tests_cant": "Moves do not show in results; they depend on the order of all keys given and on which of them were given before.", "anchors": ["src/vector_map/mod.rs: insert, remove, remove_entry, entry, from, from_iter, lower_bound", "src/vector/mod.rs: insert, remove, with_capacity"]}
{"id": "C147", "title": "Strings on a 64-bit machine", "statement": "As long as every capacity asked for, with the terminator, fits in the address space, a string compiled with or without overflow checks does on a 64-bit machine what it does with unbounded integers: the same bytes, results and panics, the same capacity. Without that limit a debug build does the same or panics.", "quantifier": "both build modes, all placements by the system allocator, all memories, all histories of calls on a string whose capacities, computed from the history alone, fit; all histories in a debug build", "why_tests_cant": "The additions that could overflow only do so at sizes no test allocates, and the sum of capacity, request and terminator depends on the history.", "anchors": ["src/string/mod.rs: reserve, with_capacity, insert, push, assign", "src/string/null_terminator_allocator.rs: allocate_raw_aligned, deallocate_raw_aligned", "src/vector/mod.rs: reserve, insert, append"]}
{"id": "C148", "title": "String capacities that do not fit are refused", "statement": "Asking a string for more room than a 64-bit machine can address panics; it never returns with less room than asked for, and never writes outside the buffer.", "quantifier": "both build modes, all strings reachable by calls whose capacities fit, all requests", "why_tests_cant": "Needs requests near usize::MAX combined with particular lengths and capacities; the outcome differs between build modes, and tests run in one of them.", "anchors": ["src/string/mod.rs: reserve, with_capacity, push", "src/string/null_terminator_allocator.rs: allocate_raw_aligned", "src/vector/mod.rs: reserve, with_capacity"]}
{"id": "C149", "title": "Collecting into a vector whatever length is announced", "statement": "Collecting from an iterator on a 64-bit machine gives its elements in order, or panics, whatever least number of elements the iterator announces.", "quantifier": "both build modes, all element types by size and alignment, all placements by the system allocator, all announced numbers, right or wrong, all lists of elements yielded", "why_tests_cant": "Announcing 2^61 elements takes one line of safe code, such as collecting a range, but no test does so because it is expected to panic; the outcome depends on the build mode and the element size.", "anchors": ["src/vector/mod.rs: from_iter, with_capacity, reserve, push", "src/allocator.rs: allocate"]}
{"id": "C150", "title": "Dropping a hash map needs little stack", "statement": "The stack that dropping or clearing a hash map or set takes does not grow in proportion to the number of its entries.", "quantifier": "all histories of calls, hash functions, equalities and placements of nodes; for the refutation every number of entries up to the most a map can have, with integer keys and the crate's hash", "why_tests_cant": "Stack use does not show in results until it overflows, and it grows only with keys that share a bucket, which the few keys of a test do not.", "anchors": ["src/internal/hash_table/mod.rs: free_bucket, free_buckets, clear, drop", "src/hash.rs: DefaultHash"]}
{"id": "C151", "title": "Lookups compare few keys", "statement": "Looking up a key in a hash map with integer keys and the crate's hash compares it with a number of stored keys that does not grow with the map.", "quantifier": "all histories of calls, hash functions, equalities and placements of nodes; for the refutation every number of entries up to the most a map can have", "why_tests_cant": "The number of comparisons does not show in results, and keys chosen to share a bucket are not among those of tests.", "anchors": ["src/internal/hash_table/mod.rs: get, find_in_bucket, bucket_index", "src/hash.rs: DefaultHash"]}
{"id": "C152", "title": "Fixed containers with room for no element", "statement": "A fixed container whose number of inline elements is 0 can be made, and behaves as the container on its overflow allocator alone.", "quantifier": "all addresses, node sizes and alignments, placements by the overflow allocator, all histories of calls; for fixed vectors all addresses and memories", "why_tests_cant": "The count is a type parameter, so each count is a separate instance of the code, and tests use counts above 0.", "anchors": ["src/fixed_vector/mod.rs: new_in, init_base_vec", "src/fixed_list/mod.rs: new_in", "src/fixed_list/conformant.rs", "src/fixed_pool/mod.rs: init, can_allocate"]}
{"id": "C153", "title": "A string is a sequence of bytes, whatever the characters", "statement": "With any characters and any calls, a String behaves as a sequence of bytes: push and insert store the low byte of the character, pop and remove return the character numbered as the byte, assign appends the UTF-8 of its text, an index out of range panics and changes nothing; so what foreign code reads from the buffer is determined by the calls.", "quantifier": "all characters, all histories of calls including assign, with panics caught or not, with requests for memory refused or not", "why_tests_cant": "The effect of a call depends on all the bytes before it, and the tests use ASCII and no caught panics.", "anchors": ["src/string/mod.rs: push, pop, insert, remove, assign, reserve, as_bytes", "src/vector/mod.rs: insert, append"]}
{"id": "C154", "title": "Fixed vectors compute with machine integers", "statement": "A FixedVector on a 64-bit machine, where element counts and byte sizes are usize and may overflow, behaves as the mathematical sequence while the capacities asked for can exist in the address space, whatever the build mode, and is dropped without trace; beyond that it panics and is never undefined, provided that a release build is not asked for an initial capacity of 2^64 bytes or more.", "quantifier": "all element sizes and alignments, inline capacities, build modes, histories of calls, placements by the overflow allocator", "why_tests_cant": "Overflow needs requests near 2^63 bytes, which tests do not make, and depends on the build mode, of which tests run in one.", "anchors": ["src/fixed_vector/mod.rs: new_in, init_base_vec, deref, deref_mut", "src/fixed_vector/allocator.rs: allocate_raw_aligned, deallocate_raw_aligned", "src/vector/mod.rs: reserve, grow, push, insert, append, assign", "src/allocator.rs: allocate, deallocate"]}
{"id": "C155", "title": "Vector maps compute with machine integers", "statement": "A VectorMap on a 64-bit machine, made empty or with a capacity, behaves as the finite map with sorted keys while its capacity and twice its number of entries can exist in the address space, whatever the build mode, and dropping it drops its entries and gives back its memory; beyond that a debug build panics and is never undefined.", "quantifier": "all sizes and alignments of pairs, build modes, initial capacities, strict weak orders with a consistent equality, histories of calls, placements by the allocator", "why_tests_cant": "Overflow needs requests near 2^63 bytes, which tests do not make, and depends on the build mode, of which tests run in one.", "anchors": ["src/vector_map/mod.rs: with_capacity, insert, entry, remove, get", "src/vector/mod.rs: reserve, grow, insert", "src/allocator.rs: allocate, deallocate"]}
{"id": "C156", "title": "Hash maps and sets never overflow an integer", "statement": "The u32 counts of elements and buckets and the usize byte sizes of a HashMap or HashSet never overflow in any history of calls, so builds with and without overflow checks behave alike: as the finite map or set up to 2557710464 entries, and with a panic at the call that would add one more.", "quantifier": "all build modes, key and value types, hash functions, equalities that are symmetric and transitive, histories of calls of any length", "why_tests_cant": "Overflow would need more than four billion entries, and depends on the build mode, of which tests run in one.", "anchors": ["src/internal/hash_table/rehash_policy.rs: get_rehash_required", "src/internal/hash_table/mod.rs: insert, insert_impl, rehash, remove_entry", "src/internal/hash_table/entry.rs: or_insert, or_insert_with", "src/allocator.rs: allocate"]}
{"id": "C157", "title": "Fixed pools do the same in every build", "statement": "A FixedPool, with or without overflow, does the same in builds with and without debug assertions and overflow checks: it hands out only nodes that lie inside the memory it was given, are large enough for what was asked, and do not disturb each other when freed, or it panics.", "quantifier": "all build modes, memory addresses and lengths, node sizes and alignments, histories of allocations and deallocations", "why_tests_cant": "The memory's address decides whether it reaches an aligned node, and tests run in one build mode.", "anchors": ["src/fixed_pool/mod.rs: init, new, can_allocate, allocate_raw_aligned, deallocate_raw_aligned", "src/fixed_pool/with_overflow.rs: init, allocate_raw_aligned, deallocate_raw_aligned"]}
{"id": "C158", "title": "Fixed lists do the same in every build", "statement": "A fixed list of either kind does the same in builds with and without debug assertions and overflow checks: no assertion of its pool can fail, calls return what they return on a sequence, elements are put into the list's own nodes as long as one is free, and dropping the list gives back exactly what it took and drops every value it still holds once.", "quantifier": "all build modes, element types and alignments, node counts, addresses of the list, histories in which the list never has 2^32 elements; in release builds, but for len and is_empty, lists of any length", "why_tests_cant": "Tests run in one build mode and never fill a list whose buffer starts at an unfavourable address.", "anchors": ["src/fixed_list/mod.rs: new_in", "src/fixed_list/conformant.rs: new_in", "src/fixed_pool/mod.rs: init, allocate_raw_aligned, deallocate_raw_aligned", "src/fixed_pool/with_overflow.rs: init, allocate_raw_aligned, deallocate_raw_aligned", "src/list/mod.rs: push_back, push_front, pop_back, pop_front, clear"]}
{"id": "C159", "title": "Containers may contain strings", "statement": "A program that keeps strings in a vector, deque, list, hash map or vector map, calls the container, and calls the strings inside through the container's mutable references, observes what it would with sequences of bytes in a sequence or finite map; it panics only where those calls panic, and when the container is dropped all memory of the strings is given back.", "quantifier": "all programs of calls on the container and on the strings in it, all characters, allocators that do not fail, and in hash maps at most 2557710464 entries", "why_tests_cant": "Two levels of memory, where a string that moves with the container's storage must keep its own block; tests keep numbers in containers.", "anchors": ["src/string/mod.rs: String, push, pop, insert, remove, assign, reserve", "src/string/null_terminator_allocator.rs: NullTerminatorAllocator", "src/vector/mod.rs: push, insert, remove, clear, drop", "src/deque/mod.rs: push_back, pop_front, front_mut", "src/list/mod.rs: push_back, pop_front, back_mut, clear", "src/hash_map/mod.rs: insert, get_mut, remove, entry", "src/vector_map/mod.rs: insert, get_mut, remove, entry"]}
{"id": "C160", "title": "Ordered maps handed over by C++ may have vectors or strings as values", "statement": "A program that looks up and iterates an ordered map whose values are vectors or strings, and calls the values through get_mut, observes what it would on an increasing list of keys with sequences; dropping the map gives back all its memory and that of the values.", "quantifier": "all trees of any shape in all memories, all strict weak orders of the keys, all values, all programs of lookups, iterations and calls on the values", "why_tests_cant": "Maps cannot be filled from Rust, so tests have no map with values that own memory at all.", "anchors": ["src/map/mod.rs: contains_key, get, get_mut, is_empty, iter, len", "src/internal/rb_tree/mod.rs: get, get_mut, drop, free_nodes", "src/vector/mod.rs: push, insert, remove, clear, drop", "src/string/mod.rs: push, pop, insert, remove, assign"]}
{"id": "C161", "title": "Containers that C++ built, on a 64-bit machine", "statement": "A vector, fixed vector, string or vector map that C++ code built, whatever spare room it has, can be used with machine arithmetic: as long as the capacities it would need can exist, calls return what they return on its contents as a mathematical sequence, text or finite map, or panic where those panic, and dropping it gives back exactly its memory, every element having been dropped or handed out once. As soon as it would need a capacity that cannot exist, it panics and does nothing else.", "quantifier": "all contents, capacities that can exist, spare room, addresses of blocks, histories of calls, element types, allocators with enough memory, both build modes; slice arguments for elements with destructors excluded (C07), and in release builds requests of 2^63 bytes or more (C84)", "why_tests_cant": "Tests build every container in Rust, in one build mode, and cannot ask for more than 2^63 bytes from a container with memory.", "anchors": ["src/vector/mod.rs: push, insert, append, remove, pop, reserve, clear, drop", "src/fixed_vector/mod.rs: FixedVector", "src/string/mod.rs: push, insert, reserve", "src/vector_map/mod.rs: insert, remove, get", "src/allocator.rs: DefaultAllocator"]}
{"id": "C162", "title": "Deques, lists and hash maps that C++ built, on a 64-bit machine", "statement": "A deque, list or hash map that C++ code built, with a pointer array or bucket array of any size, can be used with machine integers: calls return what they return on its contents as a mathematical sequence or finite map, and dropping or clearing it gives back its memory. If it cannot grow any further a push panics and does nothing else.", "quantifier": "all contents, sizes and addresses of arrays and nodes, histories of calls, both build modes; lists of fewer than 2^32 elements, deques of at most (2^31 - 3) subarrays or with a pointer array that is full, hash maps of at most 2147483776 entries", "why_tests_cant": "The sizes at which the integers overflow need gigabytes of memory, and tests build every container in Rust, where these sizes do not occur.", "anchors": ["src/deque/mod.rs: push_back, push_front, realloc_ptr_array", "src/list/mod.rs: push_back, push_front, pop_back, pop_front, clear", "src/internal/hash_table/mod.rs: insert, remove, rehash", "src/hash_map/mod.rs: insert, remove, get"]}
{"id": "C163", "title": "Vector maps made from pairs, on a 64-bit machine", "statement": "From every slice or array of pairs, whatever its size, a vector map is made without a panic and without growing, in debug and release builds: its room is the number of pairs given. Collecting from an iterator panics if and only if the least power of two that is at least the number of different keys is a capacity that cannot exist. A map that is made has each key once, in increasing order, with the value given last, and dropping it gives back all memory.", "quantifier": "all lists of pairs (for slices: of fewer than 2^63 bytes, as Rust's slices are), key orders with consistent equality, pair layouts, allocators with enough memory, both build modes", "why_tests_cant": "Tests build maps of a few small pairs; which collections are refused depends on sizes near 2^63 and on repeated keys.", "anchors": ["src/vector_map/mod.rs: From<&[(K, V)]>, From<[(K, V); N]>, FromIterator, with_capacity, insert", "src/vector/mod.rs: with_capacity, insert", "src/allocator.rs: DefaultAllocator"]}
{"id": "C164", "title": "Hash maps and sets collected on a machine", "statement": "From an iterator with any number of items, of whatever multiplicity, a hash map or set is collected as long as there are at most 2557710464 different keys among them, in debug and release builds alike: its length is the number of different keys, each is bound to the value given last (the key stored being the one given first), and no other key is bound. With more different keys collecting panics; nothing else can happen.", "quantifier": "all lists of items of any length, key and value types, hash functions, equalities that are symmetric and transitive, both build modes", "why_tests_cant": "Tests collect a few items; the number of items may exceed what a u32 can count while the number of keys does not.", "anchors": ["src/internal/hash_table/mod.rs: from_iter, insert, insert_impl, rehash", "src/hash_map/mod.rs: from_iter", "src/hash_set/mod.rs: from_iter", "src/internal/hash_table/rehash_policy.rs: get_rehash_required"]}
{"id": "C165", "title": "Vectors and strings made from what exists, on a 64-bit machine", "statement": "From every slice or array, whatever its size, a vector is made without a panic, in debug and release builds: it has the same elements in the same order, its capacity is their number, and dropping it gives back all memory. Every vector or string reached without asking for a capacity that cannot exist can be cloned without a panic; a clone has the same contents and its length as capacity and leaves the original as it was, and that of a string is null terminated if it has storage. A text of at most 2^63 - 3 bytes becomes a null terminated string with the same bytes, which gives back all memory when dropped; one of the two greater lengths that a text can have makes it panic.", "quantifier": "all slices, arrays and texts of fewer than 2^63 bytes (as Rust's are), histories of calls before a clone, element layouts, allocators with enough memory, both build modes; for slices and clones of vectors, elements without destructor (C07)", "why_tests_cant": "Tests build vectors and strings of a few elements; the limits are near 2^63 bytes and differ by the terminator and the extra byte that reserving text takes.", "anchors": ["src/vector/mod.rs: from_in, From<&[T]>, From<[T; N]>, Clone, assign, reserve", "src/string/mod.rs: from_in, From<&str>, FromStr, Clone, assign, reserve", "src/allocator.rs: DefaultAllocator"]}
{"id": "C166", "title": "Pretty-printing", "statement": "Printed with {:#?}, a container that is not empty shows its brackets on lines of their own and between them each element, printed with {:#?} too, with every line of it indented by four spaces and a comma behind it, as Rust's own containers do; an empty one shows just the brackets. Printed with {:?} it shows everything with separators between the brackets.", "quantifier": "all containers, all histories of calls, all ways in which elements, keys and values print with and without the flag", "why_tests_cant": "Tests print a few elements; elements may print anything, over any number of lines, and the flag has to reach them through every formatting macro.", "anchors": ["src/list/mod.rs: Debug for List", "src/fixed_list/mod.rs: Debug for FixedList", "src/vector/mod.rs: Debug for Vector", "src/fixed_vector/mod.rs: Debug", "src/deque/mod.rs: Debug for Deque", "src/queue.rs: Debug for Queue", "src/hash_map/mod.rs: Debug", "src/hash_set/mod.rs: Debug for HashSet", "src/map/mod.rs: Debug for Map", "src/vector_map/mod.rs: Debug for VectorMap"]}
{"id": "C167", "title": "Width and precision of printed text", "statement": "A string printed with a width, fill, alignment or precision is cut and filled up as these ask for, as Rust's own strings are. A container printed with such options prints its elements with them, as Rust's own containers do.", "quantifier": "strings and containers after all histories of calls, all options, all ways in which elements, keys and values print under them", "why_tests_cant": "Tests print with a few formats; the options have to reach the contents through every formatting macro, for all widths, precisions and contents.", "anchors": ["src/string/mod.rs: Display for String", "src/list/mod.rs: Debug for List", "src/vector/mod.rs: Debug for Vector", "src/fixed_vector/mod.rs: Debug", "src/deque/mod.rs: Debug for Deque", "src/queue.rs: Debug for Queue", "src/hash_map/mod.rs: Debug", "src/hash_set/mod.rs: Debug for HashSet", "src/map/mod.rs: Debug for Map", "src/vector_map/mod.rs: Debug for VectorMap"]}
