# Axioms of the claimed theorems

Generated from `Lean.collectAxioms` on every theorem named in MANIFEST.json.

| theorem | axioms |
|---|---|
| `C01_vector_refines_sequence` | Classical.choice, Quot.sound, propext |
| `C02_vector_capacity_law` | Classical.choice, Quot.sound, propext |
| `C03_vector_push_amortised` | Classical.choice, Quot.sound, propext |
| `C04_vector_bounds` | Classical.choice, Quot.sound, propext |
| `C05_vector_memory` | Classical.choice, Quot.sound, propext |
| `C06_vector_drop_exactly_once` | Classical.choice, Quot.sound, propext |
| `C07_vector_assign_drops_partial` | Classical.choice, Quot.sound, propext |
| `C07_append_drops_uninitialised` | Classical.choice, Quot.sound, propext |
| `C07_from_slice_drops_uninitialised` | Classical.choice, Quot.sound, propext |
| `C07_clone_drops_uninitialised` | Classical.choice, Quot.sound, propext |
| `C07_assign_leaks` | Classical.choice, Quot.sound, propext |
| `C07_exact_histories_partial` | Classical.choice, Quot.sound, propext |
| `C07_slice_call_exact_iff` | Classical.choice, Quot.sound, propext |
| `C08_vector_into_iter` | Classical.choice, Quot.sound, propext |
| `IterOp.partition` | Quot.sound, propext |
| `C09_with_capacity` | Classical.choice, Quot.sound, propext |
| `C09_from_slice` | Classical.choice, Quot.sound, propext |
| `C09_from_array` | Classical.choice, Quot.sound, propext |
| `C09_from_iter` | Classical.choice, Quot.sound, propext |
| `C09_clone` | Classical.choice, Quot.sound, propext |
| `C10_clone_independent` | Classical.choice, Quot.sound, propext |
| `C11_fixed_vector_stays_inline` | Classical.choice, Quot.sound, propext |
| `C11_fixed_vector_spills` | Classical.choice, Quot.sound, propext |
| `C11_max_size` | Quot.sound, propext |
| `C12_fixed_vector_refines_sequence` | Classical.choice, Quot.sound, propext |
| `C13_fixed_vector_memory` | Classical.choice, Quot.sound, propext |
| `C14_has_overflowed_partial` | Classical.choice, Quot.sound, propext |
| `C14_clear_reports_overflow` | Classical.choice, Quot.sound, propext |
| `C14_has_overflowed_iff` | Classical.choice, Quot.sound, propext |
| `C15_fixed_vector_life_partial` | Classical.choice, Quot.sound, propext |
| `C15_move_inline_partial` | Classical.choice, Quot.sound, propext |
| `C15_moved_vector_leaks` | Classical.choice, Quot.sound, propext |
| `C16_string_refines_text` | Classical.choice, Quot.sound, propext |
| `C17_terminated_after_write_partial` | Classical.choice, Quot.sound, propext |
| `C17_terminated_always_partial` | Classical.choice, Quot.sound, propext |
| `C17_terminated_iff` | Classical.choice, Quot.sound, propext |
| `C17_clone_terminated` | Classical.choice, Quot.sound, propext |
| `C17_remove_unterminated` | Classical.choice, Quot.sound, propext |
| `C17_reserve_unterminated` | Classical.choice, Quot.sound, propext |
| `C17_with_capacity_unterminated` | Classical.choice, Quot.sound, propext |
| `C18_assign_partial` | Classical.choice, Quot.sound, propext |
| `C18_from_str_partial` | Classical.choice, Quot.sound, propext |
| `C18_assign_appends` | Classical.choice, Quot.sound, propext |
| `C19_ascii_partial` | Classical.choice, Quot.sound, propext |
| `C19_adding_partial` | Classical.choice, Quot.sound, propext |
| `C19_push_breaks_utf8` | Classical.choice, Quot.sound, propext |
| `C19_remove_breaks_utf8` | Classical.choice, Quot.sound, propext |
| `C19_insert_breaks_utf8` | Classical.choice, Quot.sound, propext |
| `C20_string_memory` | Classical.choice, Quot.sound, propext |
| `C21_string_eq_hash` | Classical.choice, Quot.sound, propext |
| `C22_vector_map_refines_map` | Classical.choice, Quot.sound, propext |
| `C22_vector_map_on_good_keys` | Classical.choice, Quot.sound, propext |
| `C23_vector_map_sorted` | Classical.choice, Quot.sound, propext |
| `C24_lower_bound` | Classical.choice, Quot.sound, propext |
| `C24_lower_bound_sorted` | Classical.choice, Quot.sound, propext |
| `C25_bulk_construction` | Classical.choice, Quot.sound, propext |
| `C26_insert_then_get_partial` | Classical.choice, Quot.sound, propext |
| `C26_survives_partial` | Classical.choice, Quot.sound, propext |
| `C26_coarse_comparator_loses_keys` | Classical.choice, Quot.sound, propext |
| `C27_deque_refines_sequence` | Classical.choice, Quot.sound, propext |
| `C27_subarray_size` | Classical.choice, Quot.sound, propext |
| `C27_deque_of_any_size` | Classical.choice, Quot.sound, propext |
| `C27_deque_from_iter` | Classical.choice, Quot.sound, propext |
| `C28_deque_iterates` | Classical.choice, Quot.sound, propext |
| `C28_deque_iter_mut_no_alias` | Classical.choice, Quot.sound, propext |
| `C28_deque_into_iter` | Classical.choice, Quot.sound, propext |
| `C29_deque_len_exact` | Classical.choice, Quot.sound, propext |
| `C30_deque_push_keeps_addresses` | Classical.choice, Quot.sound, propext |
| `C30_deque_pop_keeps_addresses` | Classical.choice, Quot.sound, propext |
| `C31_deque_drop_exactly_once` | Classical.choice, Quot.sound, propext |
| `C32_deque_drop_releases_partial` | Classical.choice, Quot.sound, propext |
| `C32_deque_drop_leaks` | Classical.choice, Quot.sound, propext |
| `C33_deque_memory_bound` | Classical.choice, Quot.sound, propext |
| `C34_queue_fifo` | Classical.choice, Quot.sound, propext |
| `C35_deque_compat_roundtrip` | Classical.choice, Quot.sound, propext |
| `C35_deque_iter_into_compat` | Classical.choice, Quot.sound, propext |
| `C68_rotate` | Classical.choice, Quot.sound, propext |
| `C36_list_refines_sequence` | Classical.choice, Quot.sound, propext |
| `C37_list_iterates` | Classical.choice, Quot.sound, propext |
| `C37_list_iter_mut_no_alias` | Classical.choice, Quot.sound, propext |
| `C38_list_frees_everything` | Classical.choice, Quot.sound, propext |
| `C39_list_dealloc_layout_partial` | Classical.choice, Quot.sound, propext |
| `C39_list_dealloc_layout_fails` | Classical.choice, Quot.sound, propext |
| `C39_list_dealloc_layout_witness` | Quot.sound, propext |
| `C40_list_never_moves` | Classical.choice, Quot.sound, propext |
| `C70_lists_do_not_interfere` | Classical.choice, Quot.sound, propext |
| `C41_pool_runs` | Classical.choice, Quot.sound, propext |
| `C41_pool_nodes_disjoint` | Classical.choice, Quot.sound, propext |
| `C42_pool_capacity_exact` | Classical.choice, Quot.sound, propext |
| `C42_pool_lifo` | Classical.choice, Quot.sound, propext |
| `C43_overflow_routes_partial` | Classical.choice, Quot.sound, propext |
| `C43_overflow_misroutes` | Quot.sound, propext |
| `C43_overflow_misroutes_reachable` | Classical.choice, Quot.sound, propext |
| `C44_fixed_list_refines_sequence` | Classical.choice, Quot.sound, propext |
| `C44_fixed_list_inline_first` | Classical.choice, Quot.sound, propext |
| `C44_fixed_list_frees_everything` | Classical.choice, Quot.sound, propext |
| `FixedObj.plain` | Classical.choice, Quot.sound, propext |
| `FixedObj.conformant` | Classical.choice, Quot.sound, propext |
| `C45_hash_map_refines_map` | Classical.choice, Quot.sound, propext |
| `C45_any_history` | Classical.choice, Quot.sound, propext |
| `C46_hash_len_counts_keys` | Classical.choice, Quot.sound, propext |
| `C47_hash_iterates_once` | Classical.choice, Quot.sound, propext |
| `C47_hash_iter_mut_updates` | Classical.choice, Quot.sound, propext |
| `C127_hash_iter_mut_part` | Classical.choice, Quot.sound, propext |
| `C48_rehash_invisible` | Classical.choice, Quot.sound, propext |
| `C48_nodes_stay` | Classical.choice, Quot.sound, propext |
| `C49_hash_insert` | Classical.choice, Quot.sound, propext |
| `C50_hash_entry` | Classical.choice, Quot.sound, propext |
| `C51_load_factor_partial` | Classical.choice, Quot.sound, propext |
| `C51_load_factor_exceeded` | Classical.choice, Quot.sound, propext |
| `C51_load_factor_exceeded_reached` | Classical.choice, Quot.sound, propext |
| `C52_bucket_counts_prime` | Classical.choice, Quot.sound, propext |
| `C52_bucket_counts_grow` | Classical.choice, Quot.sound, propext |
| `C52_bucket_counts_determined` | Classical.choice, Quot.sound, propext |
| `C53_policy_answers_partial` | Classical.choice, Quot.sound, propext |
| `C53_policy_panics` | Classical.choice, Quot.sound, propext |
| `C53_policy_panics_reached` | Classical.choice, Quot.sound, propext |
| `C53_past_limit_panics` | Classical.choice, Quot.sound, propext |
| `C53_set_past_limit_panics` | Classical.choice, Quot.sound, propext |
| `C54_hash_frees_once` | Classical.choice, Quot.sound, propext |
| `C55_drop_releases_partial` | Classical.choice, Quot.sound, propext |
| `C55_bucket_arrays_leak` | Classical.choice, Quot.sound, propext |
| `C55_leak_exact` | Classical.choice, Quot.sound, propext |
| `C56_static_array_unwritten` | Classical.choice, Quot.sound, propext |
| `C57_hash_set_partial` | Classical.choice, Quot.sound, propext |
| `C57_insert_result_inverted` | Classical.choice, Quot.sound, propext |
| `C58_hash_clear` | Classical.choice, Quot.sound, propext |
| `C59_hash_compat_round_trip` | Classical.choice, Quot.sound, propext |
| `C71_hash_maps_do_not_interfere` | Classical.choice, Quot.sound, propext |
| `C72_hash_from_iter` | Classical.choice, Quot.sound, propext |
| `C60_tree_lookup` | Quot.sound, propext |
| `C60_tree_lookup_iff` | Quot.sound, propext |
| `C61_tree_iter` | Classical.choice, Quot.sound, propext |
| `C61_set_iter` | Classical.choice, Quot.sound, propext |
| `C61_tree_iter_mut` | Classical.choice, Quot.sound, propext |
| `C61_tree_iter_calls` | Classical.choice, Quot.sound, propext |
| `C61_tree_iter_mut_calls` | Classical.choice, Quot.sound, propext |
| `C61_iter_from_begin` | Quot.sound, propext |
| `C61_iter_rightmost_begin` | Quot.sound, propext |
| `C62_drop_frees_each_node_once` | Quot.sound, propext |
| `C62_drop_returns_memory` | Classical.choice, Quot.sound, propext |
| `C63_clear_partial` | Classical.choice, Quot.sound, propext |
| `C63_clear_leaves_dangling_tree` | Classical.choice, Quot.sound, propext |
| `C64_entries_dropped_iff_partial` | Classical.choice, Quot.sound, propext |
| `C65_parent_color_lossless` | Classical.choice, Quot.sound, propext |
| `C65_color_total` | Classical.choice, Quot.sound, propext |
| `C65_odd_pointer` | Classical.choice, Quot.sound, propext |
| `C66_unsigned_hash` | Quot.sound, propext |
| `C66_signed_hash` | Classical.choice, Quot.sound, propext |
| `C66_bool_hash` | Quot.sound, propext |
| `C67_string_hashes_agree` | Classical.choice, Quot.sound, propext |
| `C67_own_pointer` | Classical.choice, Quot.sound, propext |
| `C69_fixed_map_new` | Classical.choice, Quot.sound, propext |
| `C69_fixed_map_overflow_new` | Classical.choice, Quot.sound, propext |
| `C69_fixed_map_drop` | Classical.choice, Quot.sound, propext |
| `C73_tree_history` | Classical.choice, Quot.sound, propext |
| `C73_new_tree_empty` | Quot.sound, propext |
| `C74_insertion_position` | Quot.sound, propext |
| `C75_set_left` | Classical.choice, Quot.sound, propext |
| `C75_set_right` | Classical.choice, Quot.sound, propext |
| `C75_set_parent` | Classical.choice, Quot.sound, propext |
| `C76_moved_tree_partial` | Quot.sound, propext |
| `C76_moved_tree_dangles` | Quot.sound, propext |
| `C77_float_hash_respects_eq` | Quot.sound, propext |
| `C77_float_hash_value` | Quot.sound, propext |
| `C77_float_hash_is_floor` | Classical.choice, Quot.sound, propext |
| `C78_vectors_do_not_interfere` | Classical.choice, Quot.sound, propext |
| `C78_deques_do_not_interfere` | Classical.choice, Quot.sound, propext |
| `C79_comparators` | propext |
| `C79_greater_reverses` | Classical.choice, Quot.sound, propext |
| `C80_vector_map_any_comparator` | Classical.choice, Quot.sound, propext |
| `C80_hash_map_any_keys` | Classical.choice, Quot.sound, propext |
| `C81_number_keys_partial` | Classical.choice, Quot.sound, propext |
| `C81_number_histories_partial` | Classical.choice, Quot.sound, propext |
| `C81_order_of_values` | Classical.choice, Quot.sound, propext |
| `C81_nan_unordered` | propext |
| `C81_nan_never_found` | Classical.choice, Quot.sound, propext |
| `C81_nan_hides_keys` | Classical.choice, Quot.sound, propext |
| `C82_hash_binding_persists` | Classical.choice, Quot.sound, propext |
| `C82_float_keys` | Classical.choice, Quot.sound, propext |
| `C83_machine_vector` | Classical.choice, Quot.sound, propext |
| `C83_debug_vector` | Classical.choice, Quot.sound, propext |
| `C83_layouts_agree` | Quot.sound, propext |
| `C83_machine_capacity` | Classical.choice, Quot.sound, propext |
| `C83_machine_vector_same` | Classical.choice, Quot.sound, propext |
| `C84_debug_reserve_partial` | Classical.choice, Quot.sound, propext |
| `C84_modest_requests_partial` | Classical.choice, Quot.sound, propext |
| `C84_modest_no_ub_partial` | Classical.choice, Quot.sound, propext |
| `C84_modest_with_capacity_partial` | Classical.choice, Quot.sound, propext |
| `C84_modest_fixed_requests_partial` | Classical.choice, Quot.sound, propext |
| `C84_release_with_capacity_ub` | Quot.sound, propext |
| `C84_release_reserve_ub` | Classical.choice, Quot.sound, propext |
| `C84_release_reserve_shrinks` | Classical.choice, Quot.sound, propext |
| `C84_release_fixed_reserve_ub` | Classical.choice, Quot.sound, propext |
| `C84_release_map_with_capacity_ub` | Quot.sound, propext |
| `C84_pushes` | Classical.choice, Quot.sound, propext |
| `C85_growing_calls_ub` | Classical.choice, Quot.sound, propext |
| `C85_other_calls_partial` | Classical.choice, Quot.sound, propext |
| `C85_room_partial` | Classical.choice, Quot.sound, propext |
| `C85_out_of_memory_ub` | Classical.choice, Quot.sound, propext |
| `C85_string_out_of_memory_ub` | Classical.choice, Quot.sound, propext |
| `C86_zero_sized_elements` | Quot.sound, propext |
| `C87_cxx_iteration` | Classical.choice, Quot.sound, propext |
| `C88_compat_iterators_partial` | Classical.choice, Quot.sound, propext |
| `C88_rust_begin_skips` | Classical.choice, Quot.sound, propext |
| `C88_rust_end_missed` | Classical.choice, Quot.sound, propext |
| `C88_cxx_begin_repeats` | Classical.choice, Quot.sound, propext |
| `C88_cxx_empty_ub` | Classical.choice, Quot.sound, propext |
| `C89_vector_drop_partial` | Classical.choice, Quot.sound, propext |
| `C89_clear_drops_twice` | Classical.choice, Quot.sound, propext |
| `C90_panicking_clone_partial` | Classical.choice, Quot.sound, propext |
| `C90_append_exposes_uninitialised` | Classical.choice, Quot.sound, propext |
| `C90_assign_exposes_uninitialised` | Classical.choice, Quot.sound, propext |
| `C91_list_clear_partial` | Classical.choice, Quot.sound, propext |
| `C91_list_clear_dangles` | Classical.choice, Quot.sound, propext |
| `C91_list_clear_drops_twice` | Classical.choice, Quot.sound, propext |
| `C92_hash_clear_partial` | Classical.choice, Quot.sound, propext |
| `C92_hash_clear_corrupts` | Classical.choice, Quot.sound, propext |
| `C93_hash_node_layout_iff` | Classical.choice, Quot.sound, propext |
| `C93_hash_node_layout_partial` | Classical.choice, Quot.sound, propext |
| `C93_overaligned_key_differs` | Classical.choice, Quot.sound, propext |
| `C93_hash_set_node_layout` | Classical.choice, Quot.sound, propext |
| `C94_tuple_layout_partial` | Classical.choice, Quot.sound, propext |
| `C94_tuple_layout_unspecified` | Classical.choice, Quot.sound, propext |
| `C95_iter_in_place_partial` | Classical.choice, Quot.sound, propext |
| `C95_iter_outlives_deque` | Classical.choice, Quot.sound, propext |
| `C95_iter_sees_popped` | Classical.choice, Quot.sound, propext |
| `C96_one_iterator_partial` | Classical.choice, Quot.sound, propext |
| `C96_deque_iter_mut_aliases` | Classical.choice, Quot.sound, propext |
| `C96_list_iter_mut_aliases` | Classical.choice, Quot.sound, propext |
| `C96_hash_iter_mut_aliases` | Classical.choice, Quot.sound, propext |
| `C97_vector_map_comparisons` | Classical.choice, Quot.sound, propext |
| `C98_tree_lookup_cost` | Classical.choice, Quot.sound, propext |
| `C98_tree_position_cost` | Classical.choice, Quot.sound, propext |
| `C99_rehash_amortised` | Classical.choice, Quot.sound, propext |
| `C100_list_out_of_memory` | Classical.choice, Quot.sound, propext |
| `C100_hash_insert_out_of_memory` | Classical.choice, Quot.sound, propext |
| `C100_hash_out_of_memory_partial` | Classical.choice, Quot.sound, propext |
| `C100_hash_no_bucket_array` | Classical.choice, Quot.sound, propext |
| `C100_hash_full_needs_array` | Classical.choice, Quot.sound, propext |
| `C101_key_panics_are_safe` | Classical.choice, Quot.sound, propext |
| `C101_late_panic_is_none` | Classical.choice, Quot.sound, propext |
| `C102_panic_loses_entries` | Classical.choice, Quot.sound, propext |
| `C102_panic_changes_nothing_partial` | Classical.choice, Quot.sound, propext |
| `C103_steady_queue_moves_pointers` | Classical.choice, Quot.sound, propext |
| `C103_queue_cost_unbounded` | Classical.choice, Quot.sound, propext |
| `C103_push_front_cost_unbounded` | Classical.choice, Quot.sound, propext |
| `C103_push_back_amortised_partial` | Classical.choice, Quot.sound, propext |
| `C103_push_front_logarithmic_partial` | Classical.choice, Quot.sound, propext |
| `C103_call_cost_partial` | Classical.choice, Quot.sound, propext |
| `C104_unsteady_comparator_is_safe` | Classical.choice, Quot.sound, propext |
| `C104_calls_return` | Quot.sound, propext |
| `C104_panics_leave_no_trace` | Classical.choice, Quot.sound, propext |
| `C105_vector_debug` | Classical.choice, Quot.sound, propext |
| `C105_deque_debug` | Classical.choice, Quot.sound, propext |
| `C105_list_debug` | Classical.choice, Quot.sound, propext |
| `C105_hash_map_debug` | Classical.choice, Quot.sound, propext |
| `C105_hash_set_debug` | Classical.choice, Quot.sound, propext |
| `C105_map_debug` | Classical.choice, Quot.sound, propext |
| `C105_vector_map_debug` | Classical.choice, Quot.sound, propext |
| `C105_string_debug` | Classical.choice, Quot.sound, propext |
| `C105_contents_readable_partial` | Classical.choice, Quot.sound, propext |
| `C105_strings_print_alike` | Classical.choice, Quot.sound, propext |
| `C106_unsteady_keys_are_safe` | Classical.choice, Quot.sound, propext |
| `C106_steady_keys` | Quot.sound, propext |
| `C107_deque_drop_abandons` | Classical.choice, Quot.sound, propext |
| `C107_deque_drop_partial` | Classical.choice, Quot.sound, propext |
| `C108_vector_collect` | Classical.choice, Quot.sound, propext |
| `C108_deque_collect_partial` | Classical.choice, Quot.sound, propext |
| `C108_list_extend` | Classical.choice, Quot.sound, propext |
| `C108_hash_collect_partial` | Classical.choice, Quot.sound, propext |
| `C108_vector_map_collect` | Classical.choice, Quot.sound, propext |
| `C109_count_wraps` | Classical.choice, Quot.sound, propext |
| `C109_debug_push_panics` | Classical.choice, Quot.sound, propext |
| `C109_count_exact_partial` | Classical.choice, Quot.sound, propext |
| `C109_release_any_size_partial` | Classical.choice, Quot.sound, propext |
| `C110_queue_collect_into_inner` | Classical.choice, Quot.sound, propext |
| `C110_hash_set_collect` | Classical.choice, Quot.sound, propext |
| `C110_hash_set_iter` | Classical.choice, Quot.sound, propext |
| `C110_conformant_list` | Classical.choice, Quot.sound, propext |
| `C111_never_larger` | Classical.choice, Quot.sound, propext |
| `C111_long_push_panics` | Classical.choice, Quot.sound, propext |
| `C111_below_limit_partial` | Classical.choice, Quot.sound, propext |
| `C111_panics_are_clean_partial` | Classical.choice, Quot.sound, propext |
| `C112_cxx_reads_vector` | Classical.choice, Quot.sound, propext |
| `C112_cxx_reads_fixed_vector` | Classical.choice, Quot.sound, propext |
| `C112_cxx_reads_deque` | Classical.choice, Quot.sound, propext |
| `C112_cxx_reads_list` | Classical.choice, Quot.sound, propext |
| `C112_cxx_reads_fixed_list` | Classical.choice, Quot.sound, propext |
| `C113_other_calls_partial` | Classical.choice, Quot.sound, propext |
| `C113_allocating_push_ub` | Classical.choice, Quot.sound, propext |
| `C113_pushes_soon_ub` | Classical.choice, Quot.sound, propext |
| `C114_vector_refused` | Classical.choice, Quot.sound, propext |
| `C114_refused_call` | Classical.choice, Quot.sound, propext |
| `C114_fixed_vector_refused` | Classical.choice, Quot.sound, propext |
| `C114_string_refused` | Classical.choice, Quot.sound, propext |
| `C115_every_shape` | Classical.choice, Quot.sound, propext |
| `C115_every_content` | Classical.choice, Quot.sound, propext |
| `C115_built_map_dropped` | Classical.choice, Quot.sound, propext |
| `C116_drops_are_honest` | Classical.choice, Quot.sound, propext |
| `C116_each_exactly_once` | Classical.choice, Quot.sound, propext |
| `C116_bulk_construction` | Classical.choice, Quot.sound, propext |
| `C117_panicking_closures` | Classical.choice, Quot.sound, propext |
| `C117_each_exactly_once` | Classical.choice, Quot.sound, propext |
| `C118_fixed_list_layout_iff` | Classical.choice, Quot.sound, propext |
| `C118_fixed_list_same_partial` | Classical.choice, Quot.sound, propext |
| `C118_overaligned_differs` | Quot.sound, propext |
| `C118_fixed_list_room` | Classical.choice, Quot.sound, propext |
| `C118_fixed_map_layout_iff` | Classical.choice, Quot.sound, propext |
| `C118_fixed_map_room` | Classical.choice, Quot.sound, propext |
| `C119_key_calls` | Classical.choice, Quot.sound, propext |
| `C119_hash_total` | Classical.choice, Quot.sound, propext |
| `C120_hash_and_pointer_partial` | Classical.choice, Quot.sound, propext |
| `C120_pushed_char_differs` | Classical.choice, Quot.sound, propext |
| `C121_reads_as_unicode` | Classical.choice, Quot.sound, propext |
| `C121_foreign_hash` | Classical.choice, Quot.sound, propext |
| `C121_unchanged_iff` | Classical.choice, Quot.sound, propext |
| `C121_never_bytes_collide` | Classical.choice, Quot.sound, propext |
| `C122_containers_like_contents` | Quot.sound, propext |
| `C122_holders_like_contents` | Quot.sound, propext |
| `C122_lists_and_sets_confined` | Quot.sound, propext |
| `C122_iterators_confined` | Quot.sound, propext |
| `C122_nothing_smuggled_partial` | Quot.sound, propext |
| `C122_parts` | Quot.sound, propext |
| `C123_vector_refusals` | Classical.choice, Quot.sound, propext |
| `C123_vector_refused_call` | Classical.choice, Quot.sound, propext |
| `C123_fixed_vector_refusals` | Classical.choice, Quot.sound, propext |
| `C123_fixed_vector_refused_call` | Classical.choice, Quot.sound, propext |
| `C123_string_refusals` | Classical.choice, Quot.sound, propext |
| `C123_string_refused_call` | Classical.choice, Quot.sound, propext |
| `C123_list_refusals` | Classical.choice, Quot.sound, propext |
| `C123_fixed_list_refusals` | Classical.choice, Quot.sound, propext |
| `C123_fixed_list_refused_call` | Classical.choice, Quot.sound, propext |
| `C123_fixed_list_overflow_refused` | Classical.choice, Quot.sound, propext |
| `C123_vector_map_refusals` | Classical.choice, Quot.sound, propext |
| `C123_vector_map_refused_call` | Classical.choice, Quot.sound, propext |
| `C123_vector_map_refusals_any_order` | Classical.choice, Quot.sound, propext |
| `C123_vector_map_built` | Classical.choice, Quot.sound, propext |
| `C123_hash_refusals_partial` | Classical.choice, Quot.sound, propext |
| `C123_hash_first_array_refused` | Classical.choice, Quot.sound, propext |
| `C123_deque_refusals_partial` | Classical.choice, Quot.sound, propext |
| `C123_deque_push_back_forgets` | Classical.choice, Quot.sound, propext |
| `C123_deque_new_refused` | Quot.sound, propext |
| `C123_deque_new_granted_partial` | Quot.sound, propext |
| `C123_deque_zero_sized_aborts` | Quot.sound, propext |
| `C124_taken_vector_dangles` | Classical.choice, Quot.sound, propext |
| `C124_swapped_vector_dangles` | Classical.choice, Quot.sound, propext |
| `C124_exchanged_objects` | Classical.choice, Quot.sound, propext |
| `C124_taken_vector_partial` | Classical.choice, Quot.sound, propext |
| `C124_left_behind` | Classical.choice, Quot.sound, propext |
| `C124_clone_partial` | Classical.choice, Quot.sound, propext |
| `C124_clone_leaks` | Quot.sound, propext |
| `C125_vector_pointers` | Classical.choice, Quot.sound, propext |
| `C125_fixed_vector_pointers` | Classical.choice, Quot.sound, propext |
| `C125_deque_pointers` | Classical.choice, Quot.sound, propext |
| `C125_list_pointers` | Classical.choice, Quot.sound, propext |
| `C125_hash_pointers` | Classical.choice, Quot.sound, propext |
| `C126_moved_list_dangles` | Classical.choice, Quot.sound, propext |
| `C126_exchanged_lists_dangle` | Classical.choice, Quot.sound, propext |
| `C126_moved_list_partial` | Classical.choice, Quot.sound, propext |
| `C126_exchanged_fixed_list_dangles` | Classical.choice, Quot.sound, propext |
| `C127_deque_iter_mut` | Classical.choice, Quot.sound, propext |
| `C127_list_iter_mut` | Classical.choice, Quot.sound, propext |
| `C127_hash_iter_mut` | Classical.choice, Quot.sound, propext |
| `C127_hash_iter_mut_part` | Classical.choice, Quot.sound, propext |
| `C128_handed_vector` | Classical.choice, Quot.sound, propext |
| `C128_handed_string` | Classical.choice, Quot.sound, propext |
| `C128_handed_vector_map` | Classical.choice, Quot.sound, propext |
| `C128_handed_fixed_vector` | Classical.choice, Quot.sound, propext |
| `C128_handed_deque` | Classical.choice, Quot.sound, propext |
| `C128_handed_list` | Classical.choice, Quot.sound, propext |
| `C128_handed_fixed_list` | Classical.choice, Quot.sound, propext |
| `C128_handed_hash` | Classical.choice, Quot.sound, propext |
| `C128_limit_is_exact` | Classical.choice, Quot.sound, propext |
| `C129_vector_of_vectors` | Classical.choice, Quot.sound, propext |
| `C129_deque_of_vectors` | Classical.choice, Quot.sound, propext |
| `C129_list_of_vectors` | Classical.choice, Quot.sound, propext |
| `C129_hash_map_of_vectors` | Classical.choice, Quot.sound, propext |
| `C129_vector_map_of_vectors` | Classical.choice, Quot.sound, propext |
| `C130_vector_borrows_partial` | Classical.choice, Quot.sound, propext |
| `C130_vector_slice_ub` | Classical.choice, Quot.sound, propext |
| `C130_into_iter_borrows_partial` | Classical.choice, Quot.sound, propext |
| `C130_into_iter_slice_partial` | Classical.choice, Quot.sound, propext |
| `C130_into_iter_looks_partial` | Classical.choice, Quot.sound, propext |
| `C130_deque_slice_ub` | Classical.choice, Quot.sound, propext |
| `C130_hash_slice_ub` | Classical.choice, Quot.sound, propext |
| `C130_list_push_ub` | Classical.choice, Quot.sound, propext |
| `C130_fixed_vector_push_ub` | Classical.choice, Quot.sound, propext |
| `C130_pool_reuse_ub` | Classical.choice, Quot.sound, propext |
| `C131_into_iter_references_partial` | Classical.choice, Quot.sound, propext |
| `C131_for_loop_ub` | Classical.choice, Quot.sound, propext |
| `C132_buffers_valid_partial` | Classical.choice, Quot.sound, propext |
| `C132_conformant_buffer_ub` | Classical.choice, Quot.sound, propext |
| `C132_move_reads_uninitialised` | Classical.choice, Quot.sound, propext |
| `C132_move_partial` | Classical.choice, Quot.sound, propext |
| `C133_hash_map_of_strings` | Classical.choice, Quot.sound, propext |
| `C134_vector_borrows` | Classical.choice, Quot.sound, propext |
| `C134_into_iter_borrows_partial` | Classical.choice, Quot.sound, propext |
| `C134_into_iter_slice_partial` | Classical.choice, Quot.sound, propext |
| `C134_into_iter_looks_partial` | Classical.choice, Quot.sound, propext |
| `C134_deque_slices` | Classical.choice, Quot.sound, propext |
| `C134_hash_slices` | Classical.choice, Quot.sound, propext |
| `C134_pool_reuse` | Quot.sound, propext |
| `C134_list_push_ub` | Classical.choice, Quot.sound, propext |
| `C134_fixed_vector_slice_ub` | Classical.choice, Quot.sound, propext |
| `C135_vector_slices` | Classical.choice, Quot.sound, propext |
| `C135_fixed_vector_slices` | Classical.choice, Quot.sound, propext |
| `C135_any_order` | Classical.choice, Quot.sound, propext |
| `C135_into_iter_slices` | Classical.choice, Quot.sound, propext |
| `C136_string_edited` | Classical.choice, Quot.sound, propext |
| `C136_case_of_any_text` | Classical.choice, Quot.sound, propext |
| `C137_remove_entry_panics` | Classical.choice, Quot.sound, propext |
| `C137_attempts_partial` | Classical.choice, Quot.sound, propext |
| `C138_string_narrows` | Classical.choice, Quot.sound, propext |
| `C138_latin_history_partial` | Classical.choice, Quot.sound, propext |
| `C138_char_comes_back_iff` | Classical.choice, Quot.sound, propext |
| `C139_vector_layout_iff` | Classical.choice, Quot.sound, propext |
| `C139_deque_layout_iff` | Classical.choice, Quot.sound, propext |
| `C139_list_layout_iff` | Classical.choice, Quot.sound, propext |
| `C139_hash_table_layout_iff` | Classical.choice, Quot.sound, propext |
| `C139_tree_layout_iff` | Classical.choice, Quot.sound, propext |
| `C139_vector_map_layout_iff` | Classical.choice, Quot.sound, propext |
| `C139_overflow_pool_layout_iff` | Quot.sound, propext |
| `C139_fixed_vector_allocator_layout_iff` | Quot.sound, propext |
| `C139_default_allocator |` | none |
| `C139_wrapper_layout_unspecified` | Quot.sound, propext |
| `C139_layout_partial` | Quot.sound, propext |
| `C140_call_keeps_order` | Classical.choice, Quot.sound, propext |
| `C140_order_kept` | Classical.choice, Quot.sound, propext |
| `C140_survivors_in_order` | Classical.choice, Quot.sound, propext |
| `C141_vector_prints` | Classical.choice, Quot.sound, propext |
| `C141_deque_prints` | Classical.choice, Quot.sound, propext |
| `C141_list_prints` | Classical.choice, Quot.sound, propext |
| `C141_listing_delivers` | Classical.choice, Quot.sound, propext |
| `C141_hash_map_prints_partial` | Classical.choice, Quot.sound, propext |
| `C141_hash_set_prints_partial` | Classical.choice, Quot.sound, propext |
| `C141_map_prints_partial` | Classical.choice, Quot.sound, propext |
| `C141_vector_map_prints_partial` | Classical.choice, Quot.sound, propext |
| `C141_hash_map_panics` | Classical.choice, Quot.sound, propext |
| `C141_string_prints` | Classical.choice, Quot.sound, propext |
| `C141_ascii_string_prints` | Classical.choice, Quot.sound, propext |
| `C142_tree_walk` | Classical.choice, Quot.sound, propext |
| `C142_tree_step` | Classical.choice, Quot.sound, propext |
| `C142_hash_walk_partial` | Classical.choice, Quot.sound, propext |
| `C142_hash_empty_walk` | Classical.choice, Quot.sound, propext |
| `C142_hash_empty_walk_reached` | Classical.choice, Quot.sound, propext |
| `C143_vector_moves` | Classical.choice, Quot.sound, propext |
| `C143_deque_remove_partial` | Classical.choice, Quot.sound, propext |
| `C143_deque_remove_walks` | Classical.choice, Quot.sound, propext |
| `C144_room_made_partial` | Classical.choice, Quot.sound, propext |
| `C144_append_quadratic` | Classical.choice, Quot.sound, propext |
| `C144_reserve_quadratic` | Classical.choice, Quot.sound, propext |
| `C144_reserve_always_moves` | Classical.choice, Quot.sound, propext |
| `C144_string_assign` | Classical.choice, Quot.sound, propext |
| `C144_string_assign_nothing` | Classical.choice, Quot.sound, propext |
| `C145_drop_depth_is_height` | Quot.sound, propext |
| `C145_drop_depth_logarithmic` | Classical.choice, Quot.sound, propext |
| `C145_drop_depth_default` | Classical.choice, Quot.sound, propext |
| `C146_vector_map_moves` | Classical.choice, Quot.sound, propext |
| `C146_from_pairs_moves` | Classical.choice, Quot.sound, propext |
| `C146_from_iter_moves` | Classical.choice, Quot.sound, propext |
| `C146_sorted_input` | Classical.choice, Quot.sound, propext |
| `C147_machine_string` | Classical.choice, Quot.sound, propext |
| `C147_machine_string_same` | Classical.choice, Quot.sound, propext |
| `C147_machine_string_capacity` | Classical.choice, Quot.sound, propext |
| `C147_debug_string` | Classical.choice, Quot.sound, propext |
| `C148_release_reserve_lost` | Quot.sound, propext |
| `C148_release_reserve_ub` | Classical.choice, Quot.sound, propext |
| `C148_release_longer_than_capacity` | Classical.choice, Quot.sound, propext |
| `C148_debug_reserve_partial` | Classical.choice, Quot.sound, propext |
| `C148_modest_requests_partial` | Classical.choice, Quot.sound, propext |
| `C148_with_capacity_partial` | Classical.choice, Quot.sound, propext |
| `C148_pushes` | Classical.choice, Quot.sound, propext |
| `C149_collect_partial` | Classical.choice, Quot.sound, propext |
| `C149_modest_collect_partial` | Classical.choice, Quot.sound, propext |
| `C149_debug_collect_partial` | Classical.choice, Quot.sound, propext |
| `C149_release_collect_ub` | Quot.sound, propext |
| `C149_exact_collect_partial` | Classical.choice, Quot.sound, propext |
| `C149_announced_collect_partial` | Classical.choice, Quot.sound, propext |
| `C150_drop_depth_partial` | Classical.choice, Quot.sound, propext |
| `C150_drop_depth_linear` | Classical.choice, Quot.sound, propext |
| `C151_lookup_compares_partial` | Classical.choice, Quot.sound, propext |
| `C151_lookup_linear` | Classical.choice, Quot.sound, propext |
| `C152_fixed_list_of_none_partial` | Classical.choice, Quot.sound, propext |
| `C152_fixed_list_of_none_drop_partial` | Classical.choice, Quot.sound, propext |
| `C152_fixed_vector_of_none_panics` | Quot.sound, propext |
| `C152_fixed_vector_new_iff` | Quot.sound, propext |
| `C153_string_is_bytes` | Classical.choice, Quot.sound, propext |
| `C153_string_is_bytes_uncaught` | Classical.choice, Quot.sound, propext |
| `C153_string_refusals` | Classical.choice, Quot.sound, propext |
| `C154_machine_fixed_vector` | Classical.choice, Quot.sound, propext |
| `C154_debug_fixed_vector` | Classical.choice, Quot.sound, propext |
| `C154_machine_fixed_same` | Classical.choice, Quot.sound, propext |
| `C154_machine_storage` | Classical.choice, Quot.sound, propext |
| `C155_machine_vector_map` | Classical.choice, Quot.sound, propext |
| `C155_any_vector_map` | Classical.choice, Quot.sound, propext |
| `C155_exact_vector_map` | Classical.choice, Quot.sound, propext |
| `C155_debug_vector_map` | Classical.choice, Quot.sound, propext |
| `C156_hash_machine` | Classical.choice, Quot.sound, propext |
| `C156_set_machine` | Classical.choice, Quot.sound, propext |
| `C156_hash_machine_map` | Classical.choice, Quot.sound, propext |
| `C156_sum_would_wrap` | Quot.sound, propext |
| `C157_pool_builds_partial` | Classical.choice, Quot.sound, propext |
| `C157_overflow_pool_builds_partial` | Classical.choice, Quot.sound, propext |
| `C157_short_memory_release` | Classical.choice, Quot.sound, propext |
| `C157_small_nodes_release` | Classical.choice, Quot.sound, propext |
| `C157_wrong_request_release` | Quot.sound, propext |
| `C158_fixed_list_builds` | Classical.choice, Quot.sound, propext |
| `C158_fixed_list_release` | Classical.choice, Quot.sound, propext |
| `C158_inline_first` | Classical.choice, Quot.sound, propext |
| `C159_vector_of_strings` | Classical.choice, Quot.sound, propext |
| `C159_deque_of_strings` | Classical.choice, Quot.sound, propext |
| `C159_list_of_strings` | Classical.choice, Quot.sound, propext |
| `C159_hash_map_to_strings` | Classical.choice, Quot.sound, propext |
| `C159_vector_map_to_strings` | Classical.choice, Quot.sound, propext |
| `C160_map_to_vectors_partial` | Classical.choice, Quot.sound, propext |
| `C160_map_to_strings_partial` | Classical.choice, Quot.sound, propext |
| `C161_handed_vector` | Classical.choice, Quot.sound, propext |
| `C161_handed_fixed_vector` | Classical.choice, Quot.sound, propext |
| `C161_handed_string` | Classical.choice, Quot.sound, propext |
| `C161_handed_vector_map` | Classical.choice, Quot.sound, propext |
| `C161_exact_vector_map` | Classical.choice, Quot.sound, propext |
| `C162_handed_deque_partial` | Classical.choice, Quot.sound, propext |
| `C162_full_deque_panics_partial` | Classical.choice, Quot.sound, propext |
| `C162_full_deque_overrun` | Classical.choice, Quot.sound, propext |
| `C162_handed_list` | Classical.choice, Quot.sound, propext |
| `C162_handed_hash` | Classical.choice, Quot.sound, propext |
| `C163_from_slice` | Classical.choice, Quot.sound, propext |
| `C163_from_iterator` | Classical.choice, Quot.sound, propext |
| `C164_collect_hash_map` | Classical.choice, Quot.sound, propext |
| `C164_collect_hash_set` | Classical.choice, Quot.sound, propext |
| `C165_from_slice` | Classical.choice, Quot.sound, propext |
| `C165_from_array` | Classical.choice, Quot.sound, propext |
| `C165_clone` | Classical.choice, Quot.sound, propext |
| `C165_from_str` | Classical.choice, Quot.sound, propext |
| `C165_string_clone` | Classical.choice, Quot.sound, propext |
| `C166_list_pretty_partial` | Classical.choice, Quot.sound, propext |
| `C166_lines` | Classical.choice, Quot.sound, propext |
| `C166_nested_lines` | Classical.choice, Quot.sound, propext |
| `C166_vector_flat` | Classical.choice, Quot.sound, propext |
| `C166_deque_flat` | Classical.choice, Quot.sound, propext |
| `C166_hash_map_flat` | Classical.choice, Quot.sound, propext |
| `C166_hash_set_flat` | Classical.choice, Quot.sound, propext |
| `C166_map_flat` | Classical.choice, Quot.sound, propext |
| `C166_vector_map_flat` | Classical.choice, Quot.sound, propext |
| `C167_string_display_partial` | Classical.choice, Quot.sound, propext |
| `C167_list_debug` | Classical.choice, Quot.sound, propext |
| `C167_vector_ignores` | Classical.choice, Quot.sound, propext |
| `C167_deque_ignores` | Classical.choice, Quot.sound, propext |
| `C167_hash_map_ignores` | Classical.choice, Quot.sound, propext |
| `C167_hash_set_ignores` | Classical.choice, Quot.sound, propext |
| `C167_map_ignores` | Classical.choice, Quot.sound, propext |
| `C167_vector_map_ignores` | Classical.choice, Quot.sound, propext |
