# Axioms the claimed theorems depend on

Generated by `tools/axioms.py` (`#print axioms` for each theorem named in MANIFEST.json).

## Classical.choice, Quot.sound, propext (417 theorems)

* C01: C01_search_sound, C01_search_prefix
* C02: C02_search_no_panic, C02_search_terminates, C02_search_empty, C02_search_zero_panics
* C03: C03_search_exact, C03_search_exact_connected
* C04: C04_locally_optimal, C04_improves_entry, C04_descent
* C05: C05_neighbor_sets_only
* C06: C06_save_load_preserves_graph, C06_long_lists_cut, C06_builder, C06_builder_size, C06_builder_save_returns
* C07: C07_save_load_preserves_search
* C08: C08_resave_identical, C08_earlier_bytes_untouched
* C09: C09_effects_complete, C09_crash_detected, C09_crash_detected_nonempty
* C10: C10_earlier_failures_reported_partial, C10_last_failure_swallowed, C10_failures_never_corrupt, C10_no_failures
* C11: C11_codec_lossless, C11_codec_independent, C11_long_lists_lose_ids
* C12: C12_offsets_address_every_node, C12_bad_steps_rejected, C12_boundary_accepts_everything, C12_step_65535_lost
* C13: C13_metadata_roundtrip, C13_nineteen_layers_fit, C13_inconsistent_rejected, C13_panic_leaves_no_index, C13_too_many_layers_panics
* C14: C14_build_partial_exact, C14_build_all
* C15: C15_layers_nested, C15_earlier_layers_kept
* C16: C16_neighbors_valid, C16_upper_layers_half, C16_index_wellformed
* C17: C17_neighbors_nodup
* C18: C18_no_panic, C18_has_outcome, C18_never_stuck, C18_rounds_finite
* C19: C19_zero_never_linked, C19_zero_has_no_neighbors
* C21: C21_reload_resumes, C21_reload_reachable
* C22: C22_schedule, C22_schedule_good, C22_schedule_good_float, C22_built_layer_sizes, C22_build_layers, C22_few_layers, C22_multiplier_below_one, C22_multiplier_one
* C23: C23_size_bounded, C23_slots
* C24: C24_reorder_order, C24_reorder_by_keys_order, C24_two_layers_not_reordered, C24_reorder_by_keys_again
* C25: C25_reorder_preserves, C25_reorder_saveable
* C26: C26_reorder_search, C26_reorder_search_same, C26_moving_zero_changes_results, C26_reorder_search_exhaustive
* C27: C27_panics_below_two_layers, C27_panics_on_partial_index, C27_violated, C27_reorder_returns_partial, C27_builder_partial
* C28: C28_permute_vectors, C28_permute_no_permutation, C28_permute_terms_wrong_length, C28_permute_terms, C28_permute_runs_forever, C28_permute_panics
* C29: C29_vectors_are_lists
* C30: C30_write_load_partial, C30_truncated, C30_truncation_is_silent, C30_empty_does_not_load
* C31: C31_terms_are_lists, C31_push_panics_iff, C31_pushes_succeed, C31_iter
* C32: C32_write_load, C32_write_range, C32_write_range_reported_size, C32_extend, C32_truncated
* C33: C33_odd_byte_roundtrip
* C34: C34_shards_partial, C34_panics
* C35: C35_chunks, C35_compute, C35_compute_values
* C36: C36_embedding_is_sum, C36_components, C36_embeddings_are_pushed, C36_pushed_sum, C36_push_embedding_panics_iff
* C37: C37_distance, C37_self_and_zero, C37_scale, C37_rounding_error, C37_error_1024
* C38: C38_dot_product, C38_rounding_error
* C39: C39_no_overflow, C39_bound_is_sharp
* C40: C40_quantize, C40_degenerate, C40_rounded, C40_f32_max_becomes_126
* C41: C41_new, C41_capacity, C41_no_panic, C41_insert_result, C41_ids_distinct, C41_ids_cover, C41_all_inserted, C41_multiplier_fits, C41_plan_must_fit
* C42: C42_snapshot_consistent, C42_batches_whole, C42_contains_earlier, C42_no_insert_in_progress, C42_snapshot_loads
* C43: C43_runs_finite_partial, C43_only_deadlock_partial, C43_unguarded_partial, C43_searches_return_partial, C43_no_saves_partial, C43_no_inserts_partial, C43_single_inserts_partial, C43_multiplier_strict, C43_violated, C43_violated_guard
* C44: C44_search_sound_partial, C44_nonempty_partial, C44_nonempty_when_partial, C44_violated_until_full, C44_violated, C44_quiescent_partial
* C45: C45_lockstep, C45_append_panics, C45_word_with_space
* C46: C46_quantised_distance
* C47: C47_save_load, C47_parser_agrees, C47_duplicate_word_last_wins, C47_empty_does_not_load, C47_truncated, C47_truncated_pair
* C48: C48_parse, C48_parse_succeeds_iff, C48_save_load
* C49: C49_every_element_linked
* C50: C50_small_connected, C50_small_exact, C50_planned_layers, C50_one_build_connected, C50_one_build_exact, C50_bound_is_sharp
* C51: C51_arithmetic, C51_finite_never_panics, C51_panics_iff, C51_symmetric, C51_error, C51_error_any_dim, C51_tiny_and_huge
* C52: C52_quantised_distance, C52_self_distance_not_zero, C52_quantize, C52_quantize_overflow, C52_quantize_zero, C52_quantize_infinite
* C53: C53_distance, C53_skipped_iff_zero, C53_search, C53_search_any_dim, C53_small_exact, C53_every_vector_linked, C53_dimension_3072, C53_lost_vector
* C54: C54_distance, C54_skipped_iff_zero, C54_search, C54_small_exact, C54_every_vector_linked, C54_quantisation_error
* C55: C55_keys, C55_panics_iff, C55_real_norms, C55_reorder, C55_reorder_needs_all_indexed
* C56: C56_push, C56_push_panics_iff, C56_own_text, C56_unknown_text
* C57: C57_distance, C57_skipped_iff_no_terms, C57_search, C57_small_exact, C57_every_element_linked, C57_push
* C58: C58_unambiguous, C58_words_file, C58_text_ids, C58_element_files
* C59: C59_larger_search_no_worse, C59_ties_can_hurt
* C60: C60_saved_linked, C60_inserted_linked, C60_search_finds_inserted
* C61: C61_num_elements, C61_append_returns, C61_convertible, C61_build, C61_open, C61_search_angular, C61_small_exact_angular, C61_search_angular_int, C61_resume, C61_default_layer, C61_save_returns, C61_few_layers, C61_two_layers, C61_session
* C62: C62_index, C62_reordered, C62_builder, C62_overwrite_index, C62_overwrite_builder, C62_detached_save
* C63: C63_reorder, C63_reorder_panics, C63_resave
* C64: C64_len, C64_words_distinct, C64_append, C64_embedding, C64_dist, C64_reopen, C64_save_returns, C64_save_over_own_file, C64_empty_does_not_open, C64_open_iff, C64_open_shows, C64_session, C64_dist_cosine
* C65: C65_needs_files, C65_num_elements, C65_append_returns, C65_build, C65_save_returns, C65_new_returns, C65_resume, C65_open, C65_search, C65_search_vector, C65_unknown_text, C65_small_exact, C65_session
* C66: C66_reorder, C66_reorder_panics, C66_search, C66_search_same, C66_wordless_text_breaks_search, C66_reorder_twice, C66_resave
* C67: C67_embeddings, C67_embeddings_detached, C67_builder, C67_index, C67_overwrite_index, C67_overwrite_builder, C67_embeddings_file_lost, C67_detached_save
* C68: C68_one_layer, C68_is_a_build, C68_deterministic, C68_returns, C68_reproducible, C68_program_is_a_build, C68_parallel_differs
* C69: C69_same_search, C69_each_layer, C69_total, C69_built
* C70: C70_unambiguous, C70_accepted_iff, C70_only_sizes_matter, C70_refused, C70_saved_header
* C71: C71_search_sound, C71_search_prefix, C71_search_ends, C71_more_panics, C71_same_as_search, C71_saved_search
* C72: C72_index_in_bounds, C72_index_views, C72_index_aligned_iff_partial, C72_one_layer_aligned, C72_index_misaligned
* C73: C73_crash_vectors, C73_crash_texts, C73_complete, C73_concurrent, C73_failures, C73_no_failure, C73_complete_texts, C73_elements_missing, C73_opens_without_elements, C73_failure_unnoticed, C73_failure_reported
* C74: C74_deterministic, C74_symmetric, C74_returns_angular, C74_returns_angular_int, C74_error_angular, C74_error_angular_any_dim, C74_error_angular_int, C74_same_as_search
* C75: C75_shard_names_distinct, C75_shard_name, C75_shard_beside, C75_deterministic, C75_parse, C75_parse_panics, C75_parse_anywhere, C75_shards_frame, C75_shards, C75_binary_input, C75_shards_rerun, C75_shard_names_clash, C75_compute, C75_compute_in_place, C75_compute_fails, C75_compute_over_embeddings, C75_text_to_vectors
* C76: C76_seen, C76_comparable, C76_monotone, C76_sees_inserted, C76_guard, C76_part_of_batch, C76_insert_waits
* C77: C77_reorder_then_build, C77_reorder_possible
* C78: C78_any_dimensions, C78_common_part, C78_filled_with_zeros, C78_positions_mixed, C78_quantised_truncated
* C79: C79_average_degree, C79_average_degree_reinserted
* C80: C80_keeps_smallest, C80_full_and_peek
* C81: C81_size_at_most, C81_four_bytes_per_neighbor, C81_size_at_least, C81_builder
* C82: C82_error, C82_skipped_iff_zero, C82_search, C82_small_exact, C82_sum, C82_tiny_vector_panics
* C83: C83_push_lists, C83_read_lists, C83_offsets, C83_one_thread, C83_returns_a_build, C83_one_thread_returns, C83_only_this_assertion, C83_debug_build_can_panic
* C84: C84_search, C84_search_rescaled, C84_build_partial, C84_program, C84_one_thread, C84_search_built
* C85: C85_sizes, C85_same_shape, C85_same_shape_formula, C85_expected_number_needed
* C86: C86_reserved, C86_reserved_any, C86_multiplier_one, C86_upper, C86_upper_complete, C86_layers
* C87: C87_search, C87_search_builder, C87_build, C87_push_later, C87_pushes_first, C87_one_thread
* C88: C88_scale_rounded, C88_scale_power, C88_distance, C88_quantize, C88_quantize_power, C88_factor_three, C88_opposite

## Quot.sound, propext (25 theorems)

* C11: C11_debug_panics
* C20: C20_select, C20_select_total, C20_limit_keeps_closest
* C23: C23_push_refused
* C28: C28_permute_run
* C29: C29_extend_with_new_panics, C29_subslice_resize, C29_with_width
* C30: C30_load_write, C30_reported_size_off_by_8
* C33: C33_odd_byte_bijective, C33_max_value
* C34: C34_enough_elements
* C35: C35_no_elements
* C37: C37_symmetric
* C45: C45_known_word, C45_lookup, C45_unknown_words_skipped, C45_empty_vector_breaks_lockstep
* C48: C48_line
* C69: C69_reserve
* C72: C72_vectors_in_bounds, C72_texts_in_bounds, C72_vectors_aligned

## none (2 theorems)

* C15: C15_push_keeps_layers
* C29: C29_empty_vector_lost

## propext (9 theorems)

* C18: C18_schedules_finite
* C28: C28_permute_wrong_length
* C38: C38_unequal_lengths
* C41: C41_fresh_fits
* C46: C46_symmetric
* C72: C72_texts_aligned
* C80: C80_no_room
* C83: C83_offsets_behind, C83_fixed_width

