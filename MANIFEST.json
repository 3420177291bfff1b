{
 "claims": [
  {
   "property": "C01",
   "status": "proved",
   "theorems": [
    "Verif.C01_vector_refines_sequence"
   ],
   "note": ""
  },
  {
   "property": "C02",
   "status": "proved",
   "theorems": [
    "Verif.C02_vector_capacity_law"
   ],
   "note": ""
  },
  {
   "property": "C03",
   "status": "proved",
   "theorems": [
    "Verif.C03_vector_push_amortised"
   ],
   "note": ""
  },
  {
   "property": "C04",
   "status": "proved",
   "theorems": [
    "Verif.C04_vector_bounds"
   ],
   "note": ""
  },
  {
   "property": "C05",
   "status": "proved",
   "theorems": [
    "Verif.C05_vector_memory"
   ],
   "note": ""
  },
  {
   "property": "C06",
   "status": "proved",
   "theorems": [
    "Verif.C06_vector_drop_exactly_once"
   ],
   "note": ""
  },
  {
   "property": "C07",
   "status": "partial",
   "theorems": [
    "Verif.C07_vector_assign_drops_partial",
    "Verif.C07_append_drops_uninitialised",
    "Verif.C07_from_slice_drops_uninitialised",
    "Verif.C07_clone_drops_uninitialised",
    "Verif.C07_assign_leaks",
    "Verif.C07_exact_histories_partial",
    "Verif.C07_slice_call_exact_iff"
   ],
   "note": "The code violates the property: append, assign of a longer slice, From<&[T]> and Clone drop uninitialised slots, assign of a shorter slice leaks. The violations are proved, and exactly which slice calls are sound after any history of sound calls; the partial theorems are the part that holds."
  },
  {
   "property": "C08",
   "status": "proved",
   "theorems": [
    "Verif.C08_vector_into_iter",
    "Verif.IterOp.partition"
   ],
   "note": ""
  },
  {
   "property": "C09",
   "status": "proved",
   "theorems": [
    "Verif.C09_with_capacity",
    "Verif.C09_from_slice",
    "Verif.C09_from_array",
    "Verif.C09_from_iter",
    "Verif.C09_clone"
   ],
   "note": "Slice and clone constructors for element types without destructor; see C07."
  },
  {
   "property": "C10",
   "status": "proved",
   "theorems": [
    "Verif.C10_clone_independent"
   ],
   "note": "For element types without destructor; for the others clone itself is undefined (C07)."
  },
  {
   "property": "C11",
   "status": "proved",
   "theorems": [
    "Verif.C11_fixed_vector_stays_inline",
    "Verif.C11_fixed_vector_spills",
    "Verif.C11_max_size"
   ],
   "note": ""
  },
  {
   "property": "C12",
   "status": "proved",
   "theorems": [
    "Verif.C12_fixed_vector_refines_sequence"
   ],
   "note": "append/assign for element types without destructor (C07)."
  },
  {
   "property": "C13",
   "status": "proved",
   "theorems": [
    "Verif.C13_fixed_vector_memory"
   ],
   "note": ""
  },
  {
   "property": "C14",
   "status": "partial",
   "theorems": [
    "Verif.C14_has_overflowed_partial",
    "Verif.C14_clear_reports_overflow",
    "Verif.C14_has_overflowed_iff"
   ],
   "note": "False for histories with clear: the violation is proved; the partial theorem covers all histories without clear."
  },
  {
   "property": "C15",
   "status": "partial",
   "theorems": [
    "Verif.C15_fixed_vector_life_partial",
    "Verif.C15_move_inline_partial",
    "Verif.C15_moved_vector_leaks"
   ],
   "note": "False in general: an overflowed, moved vector keeps the stale address of the old inline buffer and leaks a block the overflow allocator places there (proved). Proved for inline moves unconditionally and for all lives if the overflow allocator never returns the address of a former buffer."
  },
  {
   "property": "C16",
   "status": "proved",
   "theorems": [
    "Verif.C16_string_refines_text"
   ],
   "note": ""
  },
  {
   "property": "C17",
   "status": "partial",
   "theorems": [
    "Verif.C17_terminated_after_write_partial",
    "Verif.C17_terminated_always_partial",
    "Verif.C17_terminated_iff",
    "Verif.C17_clone_terminated",
    "Verif.C17_remove_unterminated",
    "Verif.C17_reserve_unterminated",
    "Verif.C17_with_capacity_unterminated"
   ],
   "note": "False after remove, reserve and with_capacity: violations proved. Proved after push, pop, insert, assign and for clones; C17_terminated_iff says exactly after which operations a string is terminated."
  },
  {
   "property": "C18",
   "status": "partial",
   "theorems": [
    "Verif.C18_assign_partial",
    "Verif.C18_from_str_partial",
    "Verif.C18_assign_appends"
   ],
   "note": "False: assign appends (proved). Holds exactly for empty strings (proved), hence for From<&str>."
  },
  {
   "property": "C19",
   "status": "partial",
   "theorems": [
    "Verif.C19_ascii_partial",
    "Verif.C19_adding_partial",
    "Verif.C19_push_breaks_utf8",
    "Verif.C19_remove_breaks_utf8",
    "Verif.C19_insert_breaks_utf8"
   ],
   "note": "False for push/insert of non-ASCII characters and for remove/pop of a byte of one (violations proved for all of them). Proved for ASCII histories and for histories that only add text."
  },
  {
   "property": "C20",
   "status": "proved",
   "theorems": [
    "Verif.C20_string_memory"
   ],
   "note": ""
  },
  {
   "property": "C21",
   "status": "proved",
   "theorems": [
    "Verif.C21_string_eq_hash"
   ],
   "note": ""
  },
  {
   "property": "C22",
   "status": "proved",
   "theorems": [
    "Verif.C22_vector_map_refines_map",
    "Verif.C22_vector_map_on_good_keys"
   ],
   "note": ""
  },
  {
   "property": "C23",
   "status": "proved",
   "theorems": [
    "Verif.C23_vector_map_sorted"
   ],
   "note": ""
  },
  {
   "property": "C24",
   "status": "proved",
   "theorems": [
    "Verif.C24_lower_bound",
    "Verif.C24_lower_bound_sorted"
   ],
   "note": ""
  },
  {
   "property": "C25",
   "status": "proved",
   "theorems": [
    "Verif.C25_bulk_construction"
   ],
   "note": ""
  },
  {
   "property": "C26",
   "status": "partial",
   "theorems": [
    "Verif.C26_insert_then_get_partial",
    "Verif.C26_survives_partial",
    "Verif.C26_coarse_comparator_loses_keys"
   ],
   "note": "False for every comparator that ties keys that == distinguishes (violation proved for all of them, after any history). Proved: order kept, and a key is found after its insertion until a call names another key tied with it."
  },
  {
   "property": "C27",
   "status": "proved",
   "theorems": [
    "Verif.C27_deque_refines_sequence",
    "Verif.C27_subarray_size",
    "Verif.C27_deque_of_any_size",
    "Verif.C27_deque_from_iter"
   ],
   "note": ""
  },
  {
   "property": "C28",
   "status": "proved",
   "theorems": [
    "Verif.C28_deque_iterates",
    "Verif.C28_deque_iter_mut_no_alias",
    "Verif.C28_deque_into_iter"
   ],
   "note": ""
  },
  {
   "property": "C29",
   "status": "proved",
   "theorems": [
    "Verif.C29_deque_len_exact"
   ],
   "note": ""
  },
  {
   "property": "C30",
   "status": "proved",
   "theorems": [
    "Verif.C30_deque_push_keeps_addresses",
    "Verif.C30_deque_pop_keeps_addresses"
   ],
   "note": ""
  },
  {
   "property": "C31",
   "status": "proved",
   "theorems": [
    "Verif.C31_deque_drop_exactly_once"
   ],
   "note": ""
  },
  {
   "property": "C32",
   "status": "partial",
   "theorems": [
    "Verif.C32_deque_drop_releases_partial",
    "Verif.C32_deque_drop_leaks"
   ],
   "note": "False: drop always leaks the subarray of the back end (proved for every history). The partial theorem: everything else is freed, with its own size."
  },
  {
   "property": "C33",
   "status": "proved",
   "theorems": [
    "Verif.C33_deque_memory_bound"
   ],
   "note": ""
  },
  {
   "property": "C34",
   "status": "proved",
   "theorems": [
    "Verif.C34_queue_fifo"
   ],
   "note": ""
  },
  {
   "property": "C35",
   "status": "proved",
   "theorems": [
    "Verif.C35_deque_compat_roundtrip",
    "Verif.C35_deque_iter_into_compat"
   ],
   "note": ""
  },
  {
   "property": "C68",
   "status": "proved",
   "theorems": [
    "Verif.C68_rotate"
   ],
   "note": ""
  },
  {
   "property": "C36",
   "status": "proved",
   "theorems": [
    "Verif.C36_list_refines_sequence"
   ],
   "note": ""
  },
  {
   "property": "C37",
   "status": "proved",
   "theorems": [
    "Verif.C37_list_iterates",
    "Verif.C37_list_iter_mut_no_alias"
   ],
   "note": ""
  },
  {
   "property": "C38",
   "status": "proved",
   "theorems": [
    "Verif.C38_list_frees_everything"
   ],
   "note": "For an allocator that ignores the layout given to deallocate; see C39."
  },
  {
   "property": "C39",
   "status": "partial",
   "theorems": [
    "Verif.C39_list_dealloc_layout_partial",
    "Verif.C39_list_dealloc_layout_fails",
    "Verif.C39_list_dealloc_layout_witness"
   ],
   "note": "False: nodes are freed with a wrong layout (proved for every nonempty list). The partial theorem: the address is always that of a block in use."
  },
  {
   "property": "C40",
   "status": "proved",
   "theorems": [
    "Verif.C40_list_never_moves"
   ],
   "note": ""
  },
  {
   "property": "C70",
   "status": "proved",
   "theorems": [
    "Verif.C70_lists_do_not_interfere"
   ],
   "note": ""
  },
  {
   "property": "C41",
   "status": "proved",
   "theorems": [
    "Verif.C41_pool_runs",
    "Verif.C41_pool_nodes_disjoint"
   ],
   "note": ""
  },
  {
   "property": "C42",
   "status": "proved",
   "theorems": [
    "Verif.C42_pool_capacity_exact",
    "Verif.C42_pool_lifo"
   ],
   "note": ""
  },
  {
   "property": "C43",
   "status": "partial",
   "theorems": [
    "Verif.C43_overflow_routes_partial",
    "Verif.C43_overflow_misroutes",
    "Verif.C43_overflow_misroutes_reachable"
   ],
   "note": "False when the pool memory ends where its object ends: an overflow block at that address is freed into the pool (proved, with a reachable state). Proved when at least one byte of the object follows, as in FixedList and FixedMap."
  },
  {
   "property": "C44",
   "status": "proved",
   "theorems": [
    "Verif.C44_fixed_list_refines_sequence",
    "Verif.C44_fixed_list_inline_first",
    "Verif.C44_fixed_list_frees_everything",
    "Verif.FixedObj.plain",
    "Verif.FixedObj.conformant"
   ],
   "note": "Both FixedList and conformant::FixedList. Frees with an allocator that ignores the layout, see C39."
  },
  {
   "property": "C45",
   "status": "proved",
   "theorems": [
    "Verif.C45_hash_map_refines_map",
    "Verif.C45_any_history"
   ],
   "note": "For up to 2557710464 entries; every history that would go beyond panics (C45_any_history, C53)."
  },
  {
   "property": "C46",
   "status": "proved",
   "theorems": [
    "Verif.C46_hash_len_counts_keys"
   ],
   "note": ""
  },
  {
   "property": "C47",
   "status": "proved",
   "theorems": [
    "Verif.C47_hash_iterates_once",
    "Verif.C47_hash_iter_mut_updates",
    "Verif.C127_hash_iter_mut_part"
   ],
   "note": "Loops with iter_mut that stop early: C127_hash_iter_mut_part."
  },
  {
   "property": "C48",
   "status": "proved",
   "theorems": [
    "Verif.C48_rehash_invisible",
    "Verif.C48_nodes_stay"
   ],
   "note": ""
  },
  {
   "property": "C49",
   "status": "proved",
   "theorems": [
    "Verif.C49_hash_insert"
   ],
   "note": ""
  },
  {
   "property": "C50",
   "status": "proved",
   "theorems": [
    "Verif.C50_hash_entry"
   ],
   "note": ""
  },
  {
   "property": "C51",
   "status": "partial",
   "theorems": [
    "Verif.C51_load_factor_partial",
    "Verif.C51_load_factor_exceeded",
    "Verif.C51_load_factor_exceeded_reached"
   ],
   "note": "False: f32 rounding lets 17961080 entries sit in 17961079 buckets (proved, and reached). Proved below that size, and an excess of at most 195 at all sizes."
  },
  {
   "property": "C52",
   "status": "proved",
   "theorems": [
    "Verif.C52_bucket_counts_prime",
    "Verif.C52_bucket_counts_grow",
    "Verif.C52_bucket_counts_determined"
   ],
   "note": ""
  },
  {
   "property": "C53",
   "status": "partial",
   "theorems": [
    "Verif.C53_policy_answers_partial",
    "Verif.C53_policy_panics",
    "Verif.C53_policy_panics_reached",
    "Verif.C53_past_limit_panics",
    "Verif.C53_set_past_limit_panics"
   ],
   "note": "False: at 2557710464 entries the next new key panics (proved, and reached). Proved for all smaller sizes."
  },
  {
   "property": "C54",
   "status": "proved",
   "theorems": [
    "Verif.C54_hash_frees_once"
   ],
   "note": ""
  },
  {
   "property": "C55",
   "status": "partial",
   "theorems": [
    "Verif.C55_drop_releases_partial",
    "Verif.C55_bucket_arrays_leak",
    "Verif.C55_leak_exact"
   ],
   "note": "False: bucket arrays are never deallocated (proved for every map that ever held an entry; C55_leak_exact says which arrays remain: one per number of buckets the map has had). Nodes are all released."
  },
  {
   "property": "C56",
   "status": "proved",
   "theorems": [
    "Verif.C56_static_array_unwritten"
   ],
   "note": ""
  },
  {
   "property": "C57",
   "status": "partial",
   "theorems": [
    "Verif.C57_hash_set_partial",
    "Verif.C57_insert_result_inverted"
   ],
   "note": "False: HashSet::insert returns true when the key was already present (proved for every history). All effects and all other results are those of a set."
  },
  {
   "property": "C58",
   "status": "proved",
   "theorems": [
    "Verif.C58_hash_clear"
   ],
   "note": ""
  },
  {
   "property": "C59",
   "status": "proved",
   "theorems": [
    "Verif.C59_hash_compat_round_trip"
   ],
   "note": ""
  },
  {
   "property": "C71",
   "status": "proved",
   "theorems": [
    "Verif.C71_hash_maps_do_not_interfere"
   ],
   "note": ""
  },
  {
   "property": "C72",
   "status": "proved",
   "theorems": [
    "Verif.C72_hash_from_iter"
   ],
   "note": ""
  },
  {
   "property": "C60",
   "status": "proved",
   "theorems": [
    "Verif.C60_tree_lookup",
    "Verif.C60_tree_lookup_iff"
   ],
   "note": ""
  },
  {
   "property": "C61",
   "status": "proved",
   "theorems": [
    "Verif.C61_tree_iter",
    "Verif.C61_set_iter",
    "Verif.C61_tree_iter_mut",
    "Verif.C61_tree_iter_calls",
    "Verif.C61_tree_iter_mut_calls",
    "Verif.C61_iter_from_begin",
    "Verif.C61_iter_rightmost_begin"
   ],
   "note": "For objects whose first word is the left-most node, as the crate documents it. If the first word is the right-most node (the slot of a node's right child, as in C++), only the last entry is yielded."
  },
  {
   "property": "C62",
   "status": "proved",
   "theorems": [
    "Verif.C62_drop_frees_each_node_once",
    "Verif.C62_drop_returns_memory"
   ],
   "note": ""
  },
  {
   "property": "C63",
   "status": "partial",
   "theorems": [
    "Verif.C63_clear_partial",
    "Verif.C63_clear_leaves_dangling_tree"
   ],
   "note": "False for every non-empty tree: clear frees the nodes but does not reset the tree, later calls use freed memory (proved). True for empty trees, and each node is freed once."
  },
  {
   "property": "C64",
   "status": "partial",
   "theorems": [
    "Verif.C64_entries_dropped_iff_partial"
   ],
   "note": "False: no destructor is ever run (proved for every tree). True exactly for empty trees or types without destructors."
  },
  {
   "property": "C65",
   "status": "proved",
   "theorems": [
    "Verif.C65_parent_color_lossless",
    "Verif.C65_color_total",
    "Verif.C65_odd_pointer"
   ],
   "note": ""
  },
  {
   "property": "C66",
   "status": "proved",
   "theorems": [
    "Verif.C66_unsigned_hash",
    "Verif.C66_signed_hash",
    "Verif.C66_bool_hash"
   ],
   "note": ""
  },
  {
   "property": "C67",
   "status": "proved",
   "theorems": [
    "Verif.C67_string_hashes_agree",
    "Verif.C67_own_pointer"
   ],
   "note": "For contents that are UTF-8; other foreign bytes are C121."
  },
  {
   "property": "C69",
   "status": "proved",
   "theorems": [
    "Verif.C69_fixed_map_new",
    "Verif.C69_fixed_map_overflow_new",
    "Verif.C69_fixed_map_drop"
   ],
   "note": ""
  },
  {
   "property": "C73",
   "status": "proved",
   "theorems": [
    "Verif.C73_tree_history",
    "Verif.C73_new_tree_empty"
   ],
   "note": ""
  },
  {
   "property": "C74",
   "status": "proved",
   "theorems": [
    "Verif.C74_insertion_position"
   ],
   "note": ""
  },
  {
   "property": "C75",
   "status": "proved",
   "theorems": [
    "Verif.C75_set_left",
    "Verif.C75_set_right",
    "Verif.C75_set_parent"
   ],
   "note": ""
  },
  {
   "property": "C76",
   "status": "partial",
   "theorems": [
    "Verif.C76_moved_tree_partial",
    "Verif.C76_moved_tree_dangles"
   ],
   "note": "False for every non-empty tree: iteration over a moved tree reads the place it was moved from (proved). Lookup, and iteration over an empty tree, still work."
  },
  {
   "property": "C77",
   "status": "proved",
   "theorems": [
    "Verif.C77_float_hash_respects_eq",
    "Verif.C77_float_hash_value",
    "Verif.C77_float_hash_is_floor"
   ],
   "note": ""
  },
  {
   "property": "C78",
   "status": "proved",
   "theorems": [
    "Verif.C78_vectors_do_not_interfere",
    "Verif.C78_deques_do_not_interfere"
   ],
   "note": "Slice copies for element types with destructor are excluded as in C01."
  },
  {
   "property": "C79",
   "status": "proved",
   "theorems": [
    "Verif.C79_comparators",
    "Verif.C79_greater_reverses"
   ],
   "note": ""
  },
  {
   "property": "C80",
   "status": "proved",
   "theorems": [
    "Verif.C80_vector_map_any_comparator",
    "Verif.C80_hash_map_any_keys"
   ],
   "note": "Functions may change from call to call, not within a call. Hash maps: histories of at most 2557710464 calls, beyond which the growth policy panics (C53); their bucket arrays leak (C55)."
  },
  {
   "property": "C81",
   "status": "partial",
   "theorems": [
    "Verif.C81_number_keys_partial",
    "Verif.C81_number_histories_partial",
    "Verif.C81_order_of_values",
    "Verif.C81_nan_unordered",
    "Verif.C81_nan_never_found",
    "Verif.C81_nan_hides_keys"
   ],
   "note": "False for NaN: it is never found, is inserted again each time and hides other keys (proved). True for histories that store no NaN, with Less and with Greater: they behave as on a finite map."
  },
  {
   "property": "C82",
   "status": "proved",
   "theorems": [
    "Verif.C82_hash_binding_persists",
    "Verif.C82_float_keys"
   ],
   "note": "Up to the number of entries at which the growth policy gives up (C53)."
  },
  {
   "property": "C83",
   "status": "proved",
   "theorems": [
    "Verif.C83_machine_vector",
    "Verif.C83_debug_vector",
    "Verif.C83_layouts_agree",
    "Verif.C83_machine_capacity",
    "Verif.C83_machine_vector_same"
   ],
   "note": "Slice copies for element types with destructor are excluded as in C01. The system allocator does not fail (C85)."
  },
  {
   "property": "C84",
   "status": "partial",
   "theorems": [
    "Verif.C84_debug_reserve_partial",
    "Verif.C84_modest_requests_partial",
    "Verif.C84_modest_no_ub_partial",
    "Verif.C84_modest_with_capacity_partial",
    "Verif.C84_modest_fixed_requests_partial",
    "Verif.C84_release_with_capacity_ub",
    "Verif.C84_release_reserve_ub",
    "Verif.C84_release_reserve_shrinks",
    "Verif.C84_release_fixed_reserve_ub",
    "Verif.C84_release_map_with_capacity_ub",
    "Verif.C84_pushes"
   ],
   "note": "True in debug builds. False in release builds, where the byte count and the new capacity wrap around (proved for every element size of at least two bytes, resp. every reachable vector), also for fixed vectors and vector maps. True in release builds too for histories in which each request by itself is for less than 2^63 bytes."
  },
  {
   "property": "C85",
   "status": "partial",
   "theorems": [
    "Verif.C85_growing_calls_ub",
    "Verif.C85_other_calls_partial",
    "Verif.C85_room_partial",
    "Verif.C85_out_of_memory_ub",
    "Verif.C85_string_out_of_memory_ub"
   ],
   "note": "False: the null pointer is used unchecked (proved for every reachable vector and string). True of calls that need no memory."
  },
  {
   "property": "C86",
   "status": "proved",
   "theorems": [
    "Verif.C86_zero_sized_elements"
   ],
   "note": "The real `len` and `capacity` panic as well (`offset_from` on a zero-sized type), which the model does not show."
  },
  {
   "property": "C87",
   "status": "proved",
   "theorems": [
    "Verif.C87_cxx_iteration"
   ],
   "note": "The C++ side is EASTL's iterator, restated in the model; it is not part of the repository."
  },
  {
   "property": "C88",
   "status": "partial",
   "theorems": [
    "Verif.C88_compat_iterators_partial",
    "Verif.C88_rust_begin_skips",
    "Verif.C88_rust_end_missed",
    "Verif.C88_cxx_begin_repeats",
    "Verif.C88_cxx_empty_ub"
   ],
   "note": "False: Rust's bucket pointer is one bucket ahead of the C++ one and its end has a null node instead of the sentinel. C++ skips a bucket or runs out of the array, never stops at Rust's end, and Rust repeats a bucket or follows the sentinel (all proved). The current node and the bucket of the end agree."
  },
  {
   "property": "C89",
   "status": "partial",
   "theorems": [
    "Verif.C89_vector_drop_partial",
    "Verif.C89_clear_drops_twice"
   ],
   "note": "False: the pointers are reset only after all destructors ran, so all elements are dropped again (proved for every reachable vector and string). True: a drop without earlier panic runs each destructor once."
  },
  {
   "property": "C90",
   "status": "partial",
   "theorems": [
    "Verif.C90_panicking_clone_partial",
    "Verif.C90_append_exposes_uninitialised",
    "Verif.C90_assign_exposes_uninitialised"
   ],
   "note": "False for append and assign that have to grow: the length is raised before the clones are made (proved for every reachable vector and string). True, with and without room: the old elements and the clones made so far are in place; assign within the length is sound."
  },
  {
   "property": "C91",
   "status": "partial",
   "theorems": [
    "Verif.C91_list_clear_partial",
    "Verif.C91_list_clear_dangles",
    "Verif.C91_list_clear_drops_twice"
   ],
   "note": "False: the sentinel is reset only at the end; freed nodes are used if the panicking element is not the first, otherwise it is dropped twice (proved for every reachable list). True: the call itself drops each element at most once."
  },
  {
   "property": "C92",
   "status": "partial",
   "theorems": [
    "Verif.C92_hash_clear_partial",
    "Verif.C92_hash_clear_corrupts"
   ],
   "note": "False: buckets are reset only at the end; afterwards freed nodes are used or an entry is dropped twice (proved for every reachable map and every set of panicking destructors). True: the call itself drops each key and value at most once."
  },
  {
   "property": "C93",
   "status": "partial",
   "theorems": [
    "Verif.C93_hash_node_layout_iff",
    "Verif.C93_hash_node_layout_partial",
    "Verif.C93_overaligned_key_differs",
    "Verif.C93_hash_set_node_layout"
   ],
   "note": "False for over-aligned types: the Rust node is flat, the C++ node contains a padded pair (proved: the exact condition, and the difference for every key aligned to 16 with a value of at most 8 bytes). True for alignments up to 8 and for all sets."
  },
  {
   "property": "C94",
   "status": "partial",
   "theorems": [
    "Verif.C94_tuple_layout_partial",
    "Verif.C94_tuple_layout_unspecified"
   ],
   "note": "False: the entries are Rust tuples, whose field order is unspecified (a permitted, different layout is constructed for all types of non-zero size). True if tuples are laid out in order."
  },
  {
   "property": "C95",
   "status": "partial",
   "theorems": [
    "Verif.C95_iter_in_place_partial",
    "Verif.C95_iter_outlives_deque",
    "Verif.C95_iter_sees_popped"
   ],
   "note": "False: the iterators carry the lifetime of the deque's type parameter, so safe code may change or drop the deque first; then freed memory is read, or an element already given away is seen (proved for every reachable non-empty deque). True if nothing was added or removed in between. That the signatures permit this is read off the source; lifetimes are not modelled."
  },
  {
   "property": "C96",
   "status": "partial",
   "theorems": [
    "Verif.C96_one_iterator_partial",
    "Verif.C96_deque_iter_mut_aliases",
    "Verif.C96_list_iter_mut_aliases",
    "Verif.C96_hash_iter_mut_aliases"
   ],
   "note": "False: two mutable iterators can exist at once (Deque/Queue: lifetime not tied to the borrow; List: shared borrow; HashMap: the iterator can be cloned), and what is written through one is seen through the other (proved for every reachable non-empty container). True of one iterator driven from both ends. That the signatures permit this is read off the source."
  },
  {
   "property": "C97",
   "status": "proved",
   "theorems": [
    "Verif.C97_vector_map_comparisons"
   ],
   "note": "Exact number of comparisons, for any comparator."
  },
  {
   "property": "C98",
   "status": "proved",
   "theorems": [
    "Verif.C98_tree_lookup_cost",
    "Verif.C98_tree_position_cost"
   ],
   "note": "The red-black invariant is a hypothesis: the crate itself builds no trees."
  },
  {
   "property": "C99",
   "status": "proved",
   "theorems": [
    "Verif.C99_rehash_amortised"
   ],
   "note": "Up to 2557710464 entries, beyond which the policy panics (C53)."
  },
  {
   "property": "C100",
   "status": "partial",
   "theorems": [
    "Verif.C100_list_out_of_memory",
    "Verif.C100_hash_insert_out_of_memory",
    "Verif.C100_hash_out_of_memory_partial",
    "Verif.C100_hash_no_bucket_array",
    "Verif.C100_hash_full_needs_array"
   ],
   "note": "True of lists: the call panics with the list unchanged. False of hash maps: inserting a new key writes through the null pointer (proved for every reachable map and every call that adds a key). True of calls that add no key. A call that needs a larger bucket array and gets none writes through the null pointer as well, and no other call needs one (the model with the bucket allocator as an argument is proved to be the model of the other properties in stepA_default). Deques are C113."
  },
  {
   "property": "C101",
   "status": "proved",
   "theorems": [
    "Verif.C101_key_panics_are_safe",
    "Verif.C101_late_panic_is_none"
   ],
   "note": "Hash function and equality may also differ from call to call. A history of more than 2147483776 calls may end with the policy's panic (C53), because lost entries stay counted."
  },
  {
   "property": "C102",
   "status": "partial",
   "theorems": [
    "Verif.C102_panic_loses_entries",
    "Verif.C102_panic_changes_nothing_partial"
   ],
   "note": "False: if the hash of an entry panics while the table grows, after at least one but before the last entry was moved, some entry is lost for good although len still counts it (proved for every reachable map, every growing insertion and every such point). True of every call that does not grow the table, and of panics before the first or after the last entry is moved."
  },
  {
   "property": "C103",
   "status": "partial",
   "theorems": [
    "Verif.C103_steady_queue_moves_pointers",
    "Verif.C103_queue_cost_unbounded",
    "Verif.C103_push_front_cost_unbounded",
    "Verif.C103_push_back_amortised_partial",
    "Verif.C103_push_front_logarithmic_partial",
    "Verif.C103_call_cost_partial"
   ],
   "note": "False: a deque used as a queue of constant length moves all but one of its pointers once per subarray, because the pointers are moved by the least amount that makes room (proved for arbitrarily long queues and any number of rounds; the model has no u32 bound). True of push_back alone (3/S per call), and each push moves at most n/S + 2 pointers, other calls none. push_front alone moves logarithmically many pointers on average, which is also proved to be unbounded: the array is shifted by half of the free space, so its pointers are moved once per halving before it grows."
  },
  {
   "property": "C104",
   "status": "proved",
   "theorems": [
    "Verif.C104_unsteady_comparator_is_safe",
    "Verif.C104_calls_return",
    "Verif.C104_panics_leave_no_trace"
   ],
   "note": "Comparator and == run on a state of any type and may panic. Drops of single keys and values by unwinding are not logged by the model of vectors."
  },
  {
   "property": "C105",
   "status": "partial",
   "theorems": [
    "Verif.C105_vector_debug",
    "Verif.C105_deque_debug",
    "Verif.C105_list_debug",
    "Verif.C105_hash_map_debug",
    "Verif.C105_hash_set_debug",
    "Verif.C105_map_debug",
    "Verif.C105_vector_map_debug",
    "Verif.C105_string_debug",
    "Verif.C105_contents_readable_partial",
    "Verif.C105_strings_print_alike"
   ],
   "note": "The printed text is as claimed for every container. That different contents print differently is proved for elements that print without commas and false otherwise: String escapes nothing, so a vector of two strings prints like a vector of one (proved for all pairs). For Map the tree is given, as the crate builds none. {:#?} is C166."
  },
  {
   "property": "C106",
   "status": "proved",
   "theorems": [
    "Verif.C106_unsteady_keys_are_safe",
    "Verif.C106_steady_keys"
   ],
   "note": "Hash function and == run on a state of any type and may panic; C101 is the case of pure functions that panic after a number of runs. The policy's panic after more than 2147483776 calls as in C101."
  },
  {
   "property": "C107",
   "status": "partial",
   "theorems": [
    "Verif.C107_deque_drop_abandons",
    "Verif.C107_deque_drop_partial"
   ],
   "note": "False: the elements behind the one whose destructor panics are never dropped and the whole memory of the deque is lost, because drop is a plain loop (proved for every history and every such element). True: the process is never aborted by it, and a prefix of the elements is dropped, each once, in order."
  },
  {
   "property": "C108",
   "status": "partial",
   "theorems": [
    "Verif.C108_vector_collect",
    "Verif.C108_deque_collect_partial",
    "Verif.C108_list_extend",
    "Verif.C108_hash_collect_partial",
    "Verif.C108_vector_map_collect"
   ],
   "note": "Elements are dropped exactly once in all cases, vectors and vector maps release all memory, lists stay usable. Deques keep one subarray allocated (proved) and hash maps their bucket arrays, the leaks of C32 and C55."
  },
  {
   "property": "C109",
   "status": "partial",
   "theorems": [
    "Verif.C109_count_wraps",
    "Verif.C109_debug_push_panics",
    "Verif.C109_count_exact_partial",
    "Verif.C109_release_any_size_partial"
   ],
   "note": "False: the count is a u32. In release builds a list whose length is a multiple of 2^32 says it is empty, in debug builds push panics at 2^32 - 1 elements (both proved for every history leading there). True below 2^32 elements in every build; above, release builds go wrong in len and is_empty only: all other results, iteration, destruction and the drop of every element are proved right for every length."
  },
  {
   "property": "C110",
   "status": "proved",
   "theorems": [
    "Verif.C110_queue_collect_into_inner",
    "Verif.C110_hash_set_collect",
    "Verif.C110_hash_set_iter",
    "Verif.C110_conformant_list"
   ],
   "note": "What HashSet::insert returns is C57."
  },
  {
   "property": "C111",
   "status": "partial",
   "theorems": [
    "Verif.C111_never_larger",
    "Verif.C111_long_push_panics",
    "Verif.C111_below_limit_partial",
    "Verif.C111_panics_are_clean_partial"
   ],
   "note": "False: the size of the pointer array is a u32 that overflows when it grows from 10*2^28-2 slots, so a deque never has more than (10*2^28-2)*S elements (S per subarray) and some push of a longer sequence panics, in both builds; each such panic of a release build leaks a pointer array. True: histories that stay below (10*2^28-3)*S elements never panic, and for any history the calls that return act as if the panicking pushes had not been made, every element accounted for."
  },
  {
   "property": "C112",
   "status": "proved",
   "theorems": [
    "Verif.C112_cxx_reads_vector",
    "Verif.C112_cxx_reads_fixed_vector",
    "Verif.C112_cxx_reads_deque",
    "Verif.C112_cxx_reads_list",
    "Verif.C112_cxx_reads_fixed_list"
   ],
   "note": "The C++ functions are transcribed from EASTL's headers, which are not in the repository. Slice copies of elements with a destructor are excluded as in C01."
  },
  {
   "property": "C113",
   "status": "partial",
   "theorems": [
    "Verif.C113_other_calls_partial",
    "Verif.C113_allocating_push_ub",
    "Verif.C113_pushes_soon_ub"
   ],
   "note": "False: the null pointer is used unchecked. Every push that starts a subarray is undefined behaviour in every reachable state, and as many pushes at one end as a subarray has elements always get there; so is creating a deque. True of all calls that need no memory."
  },
  {
   "property": "C114",
   "status": "proved",
   "theorems": [
    "Verif.C114_vector_refused",
    "Verif.C114_refused_call",
    "Verif.C114_fixed_vector_refused",
    "Verif.C114_string_refused"
   ],
   "note": "Slice copies of elements with a destructor are excluded as in C01, non-ASCII text and assign as in C16."
  },
  {
   "property": "C115",
   "status": "proved",
   "theorems": [
    "Verif.C115_every_shape",
    "Verif.C115_every_content",
    "Verif.C115_built_map_dropped"
   ],
   "note": "The layout C++ writes is that of the Rust structs (C65, C94); how C++ came to build the tree is not modelled. Dropping runs no destructors of entries (C64)."
  },
  {
   "property": "C116",
   "status": "proved",
   "theorems": [
    "Verif.C116_drops_are_honest",
    "Verif.C116_each_exactly_once",
    "Verif.C116_bulk_construction"
   ],
   "note": "Destructors that panic are not covered here. From a slice (clones) is the array case with the clones."
  },
  {
   "property": "C117",
   "status": "proved",
   "theorems": [
    "Verif.C117_panicking_closures",
    "Verif.C117_each_exactly_once"
   ],
   "note": "What a closure leaves behind when it panics is a value of the model's choice; what the closure itself owns is the caller's. Sizes as in C45."
  },
  {
   "property": "C118",
   "status": "partial",
   "theorems": [
    "Verif.C118_fixed_list_layout_iff",
    "Verif.C118_fixed_list_same_partial",
    "Verif.C118_overaligned_differs",
    "Verif.C118_fixed_list_room",
    "Verif.C118_fixed_map_layout_iff",
    "Verif.C118_fixed_map_room"
   ],
   "note": "The layouts agree exactly if the elements are not aligned more strictly than the header; for elements aligned to 16 or more they do not, which is proved. The number of nodes is right in every case."
  },
  {
   "property": "C119",
   "status": "proved",
   "theorems": [
    "Verif.C119_key_calls",
    "Verif.C119_hash_total"
   ],
   "note": "Counted on the model with a stateful hash function and equality (C106), which with steady answers is the model of C45; computing one hash is one call, whatever the Hash implementation feeds to the hasher."
  },
  {
   "property": "C120",
   "status": "partial",
   "theorems": [
    "Verif.C120_hash_and_pointer_partial",
    "Verif.C120_pushed_char_differs"
   ],
   "note": "False: push stores the low byte of a character, which is hashed as it is in the String but read as U+FFFD through the pointer; of a string of one pushed character the two hashes agree exactly if that byte is 1 to 127. True for UTF-8 contents without NUL."
  },
  {
   "property": "C121",
   "status": "proved",
   "theorems": [
    "Verif.C121_reads_as_unicode",
    "Verif.C121_foreign_hash",
    "Verif.C121_unchanged_iff",
    "Verif.C121_never_bytes_collide"
   ],
   "note": "to_string_lossy is Rust's standard library, modelled from its published source."
  },
  {
   "property": "C122",
   "status": "partial",
   "theorems": [
    "Verif.C122_containers_like_contents",
    "Verif.C122_holders_like_contents",
    "Verif.C122_lists_and_sets_confined",
    "Verif.C122_iterators_confined",
    "Verif.C122_nothing_smuggled_partial",
    "Verif.C122_parts"
   ],
   "note": "One direction is true of every type of the crate: nothing is permitted that the contents forbid. The other is false of lists, fixed lists, sets, fixed maps, the owning iterator of vectors and all borrowing iterators, which have no Send or Sync whatever they contain (proved); true of the other containers. That no method writes through a shared reference is not part of this; List::iter_mut does (C96), but lists cannot be shared."
  },
  {
   "property": "C123",
   "status": "partial",
   "theorems": [
    "Verif.C123_vector_refusals",
    "Verif.C123_vector_refused_call",
    "Verif.C123_fixed_vector_refusals",
    "Verif.C123_fixed_vector_refused_call",
    "Verif.C123_string_refusals",
    "Verif.C123_string_refused_call",
    "Verif.C123_list_refusals",
    "Verif.C123_fixed_list_refusals",
    "Verif.C123_fixed_list_refused_call",
    "Verif.C123_fixed_list_overflow_refused",
    "Verif.C123_vector_map_refusals",
    "Verif.C123_vector_map_refused_call",
    "Verif.C123_vector_map_refusals_any_order",
    "Verif.C123_vector_map_built",
    "Verif.C123_hash_refusals_partial",
    "Verif.C123_hash_first_array_refused",
    "Verif.C123_deque_refusals_partial",
    "Verif.C123_deque_push_back_forgets",
    "Verif.C123_deque_new_refused",
    "Verif.C123_deque_new_granted_partial",
    "Verif.C123_deque_zero_sized_aborts"
   ],
   "note": "True of vectors (slice copies of elements with a destructor excluded as in C01). False of hash maps: if the first bucket array is refused, the next insertion writes to the shared static array; true of maps that have one. False of deques: a push_back that is refused a subarray forgets its element; a constructor that is refused memory frees a null pointer; a deque of zero-sized elements cannot be created and aborts. Otherwise true of deques. True of lists and fixed lists, of fixed vectors, of vector maps, and of strings (with the restrictions of C16)."
  },
  {
   "property": "C124",
   "status": "partial",
   "theorems": [
    "Verif.C124_taken_vector_dangles",
    "Verif.C124_swapped_vector_dangles",
    "Verif.C124_exchanged_objects",
    "Verif.C124_taken_vector_partial",
    "Verif.C124_left_behind",
    "Verif.C124_clone_partial",
    "Verif.C124_clone_leaks"
   ],
   "note": "False: a vector taken or exchanged before it overflowed points into the storage of its former owner; used after that it is undefined behaviour in every case. Whole objects exchanged keep their old elements and depend on each other's storage. A clone copies the address of the inline storage and can leak. True of vectors that overflowed and of clones if the overflow allocator never returns that address; what is left behind is always sound. Clones of elements with a destructor are excluded as in C01."
  },
  {
   "property": "C125",
   "status": "proved",
   "theorems": [
    "Verif.C125_vector_pointers",
    "Verif.C125_fixed_vector_pointers",
    "Verif.C125_deque_pointers",
    "Verif.C125_list_pointers",
    "Verif.C125_hash_pointers"
   ],
   "note": "Trees cannot be changed through the crate. A key unequal to itself has no entry that a lookup finds and is excluded."
  },
  {
   "property": "C126",
   "status": "partial",
   "theorems": [
    "Verif.C126_moved_list_dangles",
    "Verif.C126_exchanged_lists_dangle",
    "Verif.C126_moved_list_partial",
    "Verif.C126_exchanged_fixed_list_dangles"
   ],
   "note": "False of every list, also empty ones: the nodes keep pointing at the old place, so clear and drop are undefined behaviour and iteration does not stop. The constructors are unsafe and forbid moving, but nothing in the types prevents it. Length, first and last element and the elements an iterator yields at first are right. Of fixed lists, the list inside exchanged with any other is proved; moving the whole object with its inline nodes is not part of this."
  },
  {
   "property": "C127",
   "status": "proved",
   "theorems": [
    "Verif.C127_deque_iter_mut",
    "Verif.C127_list_iter_mut",
    "Verif.C127_hash_iter_mut",
    "Verif.C127_hash_iter_mut_part"
   ],
   "note": "C127_hash_iter_mut: a loop over a hash map that replaces all values by a function of key and value. C127_hash_iter_mut_part: loops that assign given values and may stop early, with the values dropped; the specification is a relation, since the order of iteration is not determined. Slices of vectors: index assignment in C01."
  },
  {
   "property": "C128",
   "status": "proved",
   "theorems": [
    "Verif.C128_handed_vector",
    "Verif.C128_handed_string",
    "Verif.C128_handed_vector_map",
    "Verif.C128_handed_fixed_vector",
    "Verif.C128_handed_deque",
    "Verif.C128_handed_list",
    "Verif.C128_handed_fixed_list",
    "Verif.C128_handed_hash",
    "Verif.C128_limit_is_exact"
   ],
   "note": "What C++ hands over is described by Handed/Model.lean after the layouts in /repo; EASTL itself is not in /repo. Slice copies of elements with destructors are excluded as in C07, the layout passed when a list node is freed as in C39; one subarray of a deque (C32) and the bucket arrays of a hash map (C55) are not given back. Ordered maps: C115."
  },
  {
   "property": "C129",
   "status": "proved",
   "theorems": [
    "Verif.C129_vector_of_vectors",
    "Verif.C129_deque_of_vectors",
    "Verif.C129_list_of_vectors",
    "Verif.C129_hash_map_of_vectors",
    "Verif.C129_vector_map_of_vectors"
   ],
   "note": "The two levels have separate memories. Calls that clone slices are excluded as in C07 (of vectors always, of elements if they have destructors), extend of a list is excluded. One subarray of a deque is not given back (C32); the layout passed when a list node is freed is C39; the bucket arrays of a hash map are not given back (C55), and its programs have at most 2557710464 items (C53). Of entry, or_insert is modelled here. Panics end the program that is considered."
  },
  {
   "property": "C130",
   "status": "partial",
   "theorems": [
    "Verif.C130_vector_borrows_partial",
    "Verif.C130_vector_slice_ub",
    "Verif.C130_into_iter_borrows_partial",
    "Verif.C130_into_iter_slice_partial",
    "Verif.C130_into_iter_looks_partial",
    "Verif.C130_deque_slice_ub",
    "Verif.C130_hash_slice_ub",
    "Verif.C130_list_push_ub",
    "Verif.C130_fixed_vector_push_ub",
    "Verif.C130_pool_reuse_ub"
   ],
   "note": "False: as_slice, as_slice_mut, clear, drop, append and assign of a vector, the drop and as_slice of its iterator, the drop and growth of a deque and the growth and iter_mut of a hash table make a slice of several elements from a reference to the first one, whose permission covers only that one. The first insertion into a hash map makes a mutable reference to the static empty bucket; the first push on a list and on a fixed vector uses pointers into itself that have been invalidated by borrowing it; a pool's reused node comes as a pointer to its link. Proved exactly for vectors: every call that does not look at two or more elements as a slice is fine, every one that does is undefined behaviour. The rules are those of Stacked Borrows without protectors and two-phase borrows; for the newer Tree Borrows, which accepts these slices, see C134. Element accesses inside deques, hash tables and trees, and lists after the first push, are not part of this."
  },
  {
   "property": "C131",
   "status": "partial",
   "theorems": [
    "Verif.C131_into_iter_references_partial",
    "Verif.C131_for_loop_ub"
   ],
   "note": "False: if everything was taken from the front and the vector was full, as_slice and drop make a reference to what lies behind the block, for instance at the end of every for loop over a vector made from an array. Proved for all other cases. Of the rules for references only that they point into a live block is used."
  },
  {
   "property": "C132",
   "status": "partial",
   "theorems": [
    "Verif.C132_buffers_valid_partial",
    "Verif.C132_conformant_buffer_ub",
    "Verif.C132_move_reads_uninitialised",
    "Verif.C132_move_partial"
   ],
   "note": "Moving a FixedVector to fresh storage exchanges its allocator with one that was never initialised. False also for conformant::FixedList (behind an unstable feature): its buffer is an array of u8 made by MaybeUninit::uninit().assume_init(). Proved for the buffers of the other fixed containers, for all element types and sizes."
  },
  {
   "property": "C133",
   "status": "proved",
   "theorems": [
    "Verif.C133_hash_map_of_strings"
   ],
   "note": "Strings and the map's nodes are in separate memories. Hashing and comparing are made after the call that asks for them, which is the same as neither changes memory. Bucket arrays are not given back (C55). What happens to values is C54. Strings have no order, so they cannot be keys of a vector map with the default comparator."
  },
  {
   "property": "C134",
   "status": "partial",
   "theorems": [
    "Verif.C134_vector_borrows",
    "Verif.C134_into_iter_borrows_partial",
    "Verif.C134_into_iter_slice_partial",
    "Verif.C134_into_iter_looks_partial",
    "Verif.C134_deque_slices",
    "Verif.C134_hash_slices",
    "Verif.C134_pool_reuse",
    "Verif.C134_list_push_ub",
    "Verif.C134_fixed_vector_slice_ub"
   ],
   "note": "False for lists, whose first push writes through a pointer to the sentinel that was ended when init_sentinel_node stored the other one, and for fixed vectors, whose begin pointer is ended by the first write through the end pointer, so that looking at one that is not empty is undefined behaviour. Proved for all histories of vectors, for their iterators but for the case of C131, for the slices of deques and hash tables and for pools. The rules are those of Tree Borrows without protectors and interior mutability."
  },
  {
   "property": "C135",
   "status": "proved",
   "theorems": [
    "Verif.C135_vector_slices",
    "Verif.C135_fixed_vector_slices",
    "Verif.C135_any_order",
    "Verif.C135_into_iter_slices"
   ],
   "note": "Exchanges and replacements of single elements are modelled; other slice methods are sequences of these (every permutation is reached). Calls that clone slices are excluded for elements with destructors as in C07. Aliasing rules: C130, C134."
  },
  {
   "property": "C136",
   "status": "proved",
   "theorems": [
    "Verif.C136_string_edited",
    "Verif.C136_case_of_any_text"
   ],
   "note": "Calls on non-ASCII characters and assign are excluded from the histories as in C16, C18, C19; the case change itself is proved for any text."
  },
  {
   "property": "C137",
   "status": "partial",
   "theorems": [
    "Verif.C137_remove_entry_panics",
    "Verif.C137_attempts_partial"
   ],
   "note": "False: remove_entry is unimplemented and panics on every map and for every key. Proved that attempts do no harm: all other calls in a history answer as if there had been none."
  },
  {
   "property": "C138",
   "status": "partial",
   "theorems": [
    "Verif.C138_string_narrows",
    "Verif.C138_latin_history_partial",
    "Verif.C138_char_comes_back_iff"
   ],
   "note": "False exactly of the characters above U+00FF, of which only the low byte is stored. Proved for all others, although the bytes between U+0080 and U+00FF are not UTF-8 (C19), and proved exactly what comes back otherwise."
  },
  {
   "property": "C139",
   "status": "partial",
   "theorems": [
    "Verif.C139_vector_layout_iff",
    "Verif.C139_deque_layout_iff",
    "Verif.C139_list_layout_iff",
    "Verif.C139_hash_table_layout_iff",
    "Verif.C139_tree_layout_iff",
    "Verif.C139_vector_map_layout_iff",
    "Verif.C139_overflow_pool_layout_iff",
    "Verif.C139_fixed_vector_allocator_layout_iff",
    "Verif.C139_default_allocator",
    "Verif.C139_wrapper_layout_unspecified",
    "Verif.C139_layout_partial"
   ],
   "note": "False for allocators and comparators without fields, exactly as the iff theorems say, and not guaranteed for String, Set and the comparators, which are not repr(C). The EASTL classes are restated in Spec/Objects.lean."
  },
  {
   "property": "C140",
   "status": "proved",
   "theorems": [
    "Verif.C140_call_keeps_order",
    "Verif.C140_order_kept",
    "Verif.C140_survivors_in_order"
   ],
   "note": "That growing the number of buckets does reorder is shown by the example; when it grows is C52."
  },
  {
   "property": "C141",
   "status": "partial",
   "theorems": [
    "Verif.C141_vector_prints",
    "Verif.C141_deque_prints",
    "Verif.C141_list_prints",
    "Verif.C141_listing_delivers",
    "Verif.C141_hash_map_prints_partial",
    "Verif.C141_hash_set_prints_partial",
    "Verif.C141_map_prints_partial",
    "Verif.C141_vector_map_prints_partial",
    "Verif.C141_hash_map_panics",
    "Verif.C141_string_prints",
    "Verif.C141_ascii_string_prints"
   ],
   "note": "False for maps and hash sets, which panic if a key or value reports an error; refusing writers are reported by all."
  },
  {
   "property": "C142",
   "status": "partial",
   "theorems": [
    "Verif.C142_tree_walk",
    "Verif.C142_tree_step",
    "Verif.C142_hash_walk_partial",
    "Verif.C142_hash_empty_walk",
    "Verif.C142_hash_empty_walk_reached"
   ],
   "note": "Proved for maps and sets. False for hash maps, which never give up buckets: the loop looks at each bucket once, and there are about as many as there ever were entries (proved in both directions). Loops over vectors, deques and lists have no inner loops and are not included."
  },
  {
   "property": "C143",
   "status": "partial",
   "theorems": [
    "Verif.C143_vector_moves",
    "Verif.C143_deque_remove_partial",
    "Verif.C143_deque_remove_walks"
   ],
   "note": "Proved for vectors, exactly. For deques the pairs swapped are as many as they should be, but the iterators remove uses step over every element up to it one by one, 2n+1 steps in all at whatever index, so removing at an end is as slow as in the middle."
  },
  {
   "property": "C144",
   "status": "partial",
   "theorems": [
    "Verif.C144_room_made_partial",
    "Verif.C144_append_quadratic",
    "Verif.C144_reserve_quadratic",
    "Verif.C144_reserve_always_moves",
    "Verif.C144_string_assign",
    "Verif.C144_string_assign_nothing"
   ],
   "note": "False: append reserves exactly what is missing, reserve always reallocates, and String::assign reserves anew each time. Proved that once room is made no append moves or allocates; that pushes are amortised is C03."
  },
  {
   "property": "C145",
   "status": "proved",
   "theorems": [
    "Verif.C145_drop_depth_is_height",
    "Verif.C145_drop_depth_logarithmic",
    "Verif.C145_drop_depth_default"
   ],
   "note": "The bound is for red-black trees."
  },
  {
   "property": "C146",
   "status": "proved",
   "theorems": [
    "Verif.C146_vector_map_moves",
    "Verif.C146_from_pairs_moves",
    "Verif.C146_from_iter_moves",
    "Verif.C146_sorted_input"
   ],
   "note": "Comparisons are C97."
  },
  {
   "property": "C147",
   "status": "proved",
   "theorems": [
    "Verif.C147_machine_string",
    "Verif.C147_machine_string_same",
    "Verif.C147_machine_string_capacity",
    "Verif.C147_debug_string"
   ],
   "note": "The limit is stated on capacities computed from the calls alone (Spec/TextLimits.lean)."
  },
  {
   "property": "C148",
   "status": "partial",
   "theorems": [
    "Verif.C148_release_reserve_lost",
    "Verif.C148_release_reserve_ub",
    "Verif.C148_release_longer_than_capacity",
    "Verif.C148_debug_reserve_partial",
    "Verif.C148_modest_requests_partial",
    "Verif.C148_with_capacity_partial",
    "Verif.C148_pushes"
   ],
   "note": "False in release builds: reserve(usize::MAX) does nothing, and slightly smaller requests give a buffer too small for the text or a capacity below the length, after which a push writes out of bounds. True in debug builds, of with_capacity, and in release builds while each request is for fewer than 2^63 bytes."
  },
  {
   "property": "C149",
   "status": "partial",
   "theorems": [
    "Verif.C149_collect_partial",
    "Verif.C149_modest_collect_partial",
    "Verif.C149_debug_collect_partial",
    "Verif.C149_release_collect_ub",
    "Verif.C149_exact_collect_partial",
    "Verif.C149_announced_collect_partial"
   ],
   "note": "False in release builds: the size in bytes wraps around, e.g. for (0..(1 << 61) + 1).collect::<Vector<u64>>(), which is undefined behaviour. True in debug builds, and in both for announced numbers of fewer than 2^64 bytes."
  },
  {
   "property": "C150",
   "status": "partial",
   "theorems": [
    "Verif.C150_drop_depth_partial",
    "Verif.C150_drop_depth_linear"
   ],
   "note": "False: free_bucket calls itself for the next node before it frees its own, so there are as many calls active as entries in the fullest bucket; n multiples of the number of buckets take n."
  },
  {
   "property": "C151",
   "status": "partial",
   "theorems": [
    "Verif.C151_lookup_compares_partial",
    "Verif.C151_lookup_linear"
   ],
   "note": "False for integer keys chosen to collide, since integers are their own hash and the number of buckets depends only on the number of entries (C52)."
  },
  {
   "property": "C152",
   "status": "partial",
   "theorems": [
    "Verif.C152_fixed_list_of_none_partial",
    "Verif.C152_fixed_list_of_none_drop_partial",
    "Verif.C152_fixed_vector_of_none_panics",
    "Verif.C152_fixed_vector_new_iff"
   ],
   "note": "False for FixedVector, whose constructor takes the address of the first element of the buffer and panics if there is none. Proved for fixed lists in both layouts."
  },
  {
   "property": "C153",
   "status": "proved",
   "theorems": [
    "Verif.C153_string_is_bytes",
    "Verif.C153_string_is_bytes_uncaught",
    "Verif.C153_string_refusals"
   ],
   "note": "Completes C16, C114, C123 and C138, which speak of texts: any characters, and assign too."
  },
  {
   "property": "C154",
   "status": "proved",
   "theorems": [
    "Verif.C154_machine_fixed_vector",
    "Verif.C154_debug_fixed_vector",
    "Verif.C154_machine_fixed_same",
    "Verif.C154_machine_storage"
   ],
   "note": "Slice copies for element types with destructor are excluded as in C01. The system allocator does not fail (C85). For release builds beyond the address space see C84."
  },
  {
   "property": "C155",
   "status": "proved",
   "theorems": [
    "Verif.C155_machine_vector_map",
    "Verif.C155_any_vector_map",
    "Verif.C155_exact_vector_map",
    "Verif.C155_debug_vector_map"
   ],
   "note": "The system allocator does not fail (C85). For release builds asked for an initial capacity of 2^64 bytes or more see C84."
  },
  {
   "property": "C156",
   "status": "proved",
   "theorems": [
    "Verif.C156_hash_machine",
    "Verif.C156_set_machine",
    "Verif.C156_hash_machine_map",
    "Verif.C156_sum_would_wrap"
   ],
   "note": "Maps and sets with the default allocator. C156_sum_would_wrap shows that the builds would differ if the count could reach the end of a u32."
  },
  {
   "property": "C157",
   "status": "partial",
   "theorems": [
    "Verif.C157_pool_builds_partial",
    "Verif.C157_overflow_pool_builds_partial",
    "Verif.C157_short_memory_release",
    "Verif.C157_small_nodes_release",
    "Verif.C157_wrong_request_release"
   ],
   "note": "True if the memory reaches the first aligned address, nodes can hold a pointer, and requests are for one node. Otherwise only debug builds panic: a release build hands out nodes behind the memory, nodes that freeing their neighbour overwrites, or nodes smaller than asked for."
  },
  {
   "property": "C158",
   "status": "proved",
   "theorems": [
    "Verif.C158_fixed_list_builds",
    "Verif.C158_fixed_list_release",
    "Verif.C158_inline_first"
   ],
   "note": "FixedObj is the object of either kind of fixed list (FixedObj.plain, FixedObj.conformant); the buffer does not end at the last address. The system allocator does not fail. For len past 2^32 see C109."
  },
  {
   "property": "C159",
   "status": "proved",
   "theorems": [
    "Verif.C159_vector_of_strings",
    "Verif.C159_deque_of_strings",
    "Verif.C159_list_of_strings",
    "Verif.C159_hash_map_to_strings",
    "Verif.C159_vector_map_to_strings"
   ],
   "note": "As C129 with strings in place of vectors. Append and assign of vectors and extend of lists, which take several elements at once, are not among the calls on the container. Memory that deques and hash maps never give back: C32, C55."
  },
  {
   "property": "C160",
   "status": "partial",
   "theorems": [
    "Verif.C160_map_to_vectors_partial",
    "Verif.C160_map_to_strings_partial"
   ],
   "note": "All of it is true except that the memory of the values is given back: dropping the tree runs no destructor (C64), so the values leak exactly if one of them has memory. Changing values during iter_mut is C73."
  },
  {
   "property": "C161",
   "status": "proved",
   "theorems": [
    "Verif.C161_handed_vector",
    "Verif.C161_handed_fixed_vector",
    "Verif.C161_handed_string",
    "Verif.C161_handed_vector_map",
    "Verif.C161_exact_vector_map"
   ],
   "note": "What C++ hands over is described by Handed/Model.lean as in C128; the machine is that of C84. Strings: returned values are stated for ASCII text and arguments other than assign (C17), refusals for all."
  },
  {
   "property": "C162",
   "status": "partial",
   "theorems": [
    "Verif.C162_handed_deque_partial",
    "Verif.C162_full_deque_panics_partial",
    "Verif.C162_full_deque_overrun",
    "Verif.C162_handed_list",
    "Verif.C162_handed_hash"
   ],
   "note": "False of deques with a full pointer array of 2^32 - 2 slots: in a release build its size wraps around to itself and push_back writes behind it. True of all other full arrays that cannot be doubled, of deques of at most (2^31 - 3) subarrays, and of lists and hash maps. What C++ hands over is described by Handed/Model.lean as in C128; faults of lists and deques that do not depend on integers are C39 and C32. The system allocator does not fail."
  },
  {
   "property": "C163",
   "status": "proved",
   "theorems": [
    "Verif.C163_from_slice",
    "Verif.C163_from_iterator"
   ],
   "note": "The system allocator does not fail (C85). Cloning the pairs of a slice is taken to give equal pairs; iterators that panic are in C108."
  },
  {
   "property": "C164",
   "status": "proved",
   "theorems": [
    "Verif.C164_collect_hash_map",
    "Verif.C164_collect_hash_set"
   ],
   "note": "Maps and sets with the default allocator, which does not fail. Iterators that panic are in C108. Strengthens C72, which limits the number of items."
  },
  {
   "property": "C165",
   "status": "proved",
   "theorems": [
    "Verif.C165_from_slice",
    "Verif.C165_from_array",
    "Verif.C165_clone",
    "Verif.C165_from_str",
    "Verif.C165_string_clone"
   ],
   "note": "The system allocator does not fail (C85). Collecting from iterators is C149; slices of elements with destructors are C07."
  },
  {
   "property": "C166",
   "status": "partial",
   "theorems": [
    "Verif.C166_list_pretty_partial",
    "Verif.C166_lines",
    "Verif.C166_nested_lines",
    "Verif.C166_vector_flat",
    "Verif.C166_deque_flat",
    "Verif.C166_hash_map_flat",
    "Verif.C166_hash_set_flat",
    "Verif.C166_map_flat",
    "Verif.C166_vector_map_flat"
   ],
   "note": "True of List and FixedList, whatever their elements print. False of all others, which pass their contents through a formatting macro that says {:?} and so print with {:#?} exactly as with {:?}, contents included (proved for all histories). The formatting functions of the standard library and itertools are modelled from their published source. For Map the tree is given, as the crate builds none."
  },
  {
   "property": "C167",
   "status": "partial",
   "theorems": [
    "Verif.C167_string_display_partial",
    "Verif.C167_list_debug",
    "Verif.C167_vector_ignores",
    "Verif.C167_deque_ignores",
    "Verif.C167_hash_map_ignores",
    "Verif.C167_hash_set_ignores",
    "Verif.C167_map_ignores",
    "Verif.C167_vector_map_ignores"
   ],
   "note": "True of List and FixedList. False of String, whose Display writes its text with {} and so ignores width, fill, alignment and precision: right only if these ask for a text of the length it has (proved for all ASCII histories). False of all other containers, which print their contents without options (proved for all histories). For Map the tree is given, as the crate builds none. Sign, zero padding and radix of numbers are part of how elements print."
  }
 ]
}