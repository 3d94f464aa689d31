{
 "claims": [
  {
   "property": "C01",
   "status": "proved",
   "theorems": [
    "Granne.C01_search_sound",
    "Granne.C01_search_prefix"
   ],
   "note": ""
  },
  {
   "property": "C02",
   "status": "proved",
   "theorems": [
    "Granne.C02_search_no_panic",
    "Granne.C02_search_terminates",
    "Granne.C02_search_empty",
    "Granne.C02_search_zero_panics"
   ],
   "note": ""
  },
  {
   "property": "C03",
   "status": "proved",
   "theorems": [
    "Granne.C03_search_exact",
    "Granne.C03_search_exact_connected"
   ],
   "note": ""
  },
  {
   "property": "C04",
   "status": "proved",
   "theorems": [
    "Granne.C04_locally_optimal",
    "Granne.C04_improves_entry",
    "Granne.C04_descent"
   ],
   "note": ""
  },
  {
   "property": "C05",
   "status": "proved",
   "theorems": [
    "Granne.C05_neighbor_sets_only"
   ],
   "note": ""
  },
  {
   "property": "C06",
   "status": "proved",
   "theorems": [
    "Granne.C06_save_load_preserves_graph",
    "Granne.C06_long_lists_cut",
    "Granne.C06_builder",
    "Granne.C06_builder_size",
    "Granne.C06_builder_save_returns"
   ],
   "note": ""
  },
  {
   "property": "C07",
   "status": "proved",
   "theorems": [
    "Granne.C07_save_load_preserves_search"
   ],
   "note": ""
  },
  {
   "property": "C08",
   "status": "proved",
   "theorems": [
    "Granne.C08_resave_identical",
    "Granne.C08_earlier_bytes_untouched"
   ],
   "note": ""
  },
  {
   "property": "C09",
   "status": "proved",
   "theorems": [
    "Granne.C09_effects_complete",
    "Granne.C09_crash_detected",
    "Granne.C09_crash_detected_nonempty"
   ],
   "note": "Crash = any proper prefix of the single-byte effects in issue order (also through the BufWriter, C10_failures_never_corrupt). Reordering of writes by the OS is not modelled."
  },
  {
   "property": "C10",
   "status": "partial",
   "theorems": [
    "Granne.C10_earlier_failures_reported_partial",
    "Granne.C10_last_failure_swallowed",
    "Granne.C10_failures_never_corrupt",
    "Granne.C10_no_failures"
   ],
   "note": "The property is violated by the code (C10_last_failure_swallowed, for every index). Proved instead: every failure before the final Drop of the BufWriter is reported, and no failure pattern leaves a fresh file that loads as a wrong index."
  },
  {
   "property": "C11",
   "status": "proved",
   "theorems": [
    "Granne.C11_codec_lossless",
    "Granne.C11_codec_independent",
    "Granne.C11_long_lists_lose_ids",
    "Granne.C11_debug_panics"
   ],
   "note": ""
  },
  {
   "property": "C12",
   "status": "proved",
   "theorems": [
    "Granne.C12_offsets_address_every_node",
    "Granne.C12_bad_steps_rejected",
    "Granne.C12_boundary_accepts_everything",
    "Granne.C12_step_65535_lost"
   ],
   "note": ""
  },
  {
   "property": "C13",
   "status": "proved",
   "theorems": [
    "Granne.C13_metadata_roundtrip",
    "Granne.C13_nineteen_layers_fit",
    "Granne.C13_inconsistent_rejected",
    "Granne.C13_panic_leaves_no_index",
    "Granne.C13_too_many_layers_panics"
   ],
   "note": "Includes a matching negative theorem: an index with more than 500 layers cannot be saved."
  },
  {
   "property": "C14",
   "status": "proved",
   "theorems": [
    "Granne.C14_build_partial_exact",
    "Granne.C14_build_all"
   ],
   "note": ""
  },
  {
   "property": "C15",
   "status": "proved",
   "theorems": [
    "Granne.C15_layers_nested",
    "Granne.C15_earlier_layers_kept",
    "Granne.C15_push_keeps_layers"
   ],
   "note": ""
  },
  {
   "property": "C16",
   "status": "proved",
   "theorems": [
    "Granne.C16_neighbors_valid",
    "Granne.C16_upper_layers_half",
    "Granne.C16_index_wellformed"
   ],
   "note": ""
  },
  {
   "property": "C17",
   "status": "proved",
   "theorems": [
    "Granne.C17_neighbors_nodup"
   ],
   "note": ""
  },
  {
   "property": "C18",
   "status": "proved",
   "theorems": [
    "Granne.C18_no_panic",
    "Granne.C18_has_outcome",
    "Granne.C18_never_stuck",
    "Granne.C18_schedules_finite",
    "Granne.C18_rounds_finite"
   ],
   "note": "No panic, an outcome exists, no stuck state, no infinite schedule, no infinite sequence of layers."
  },
  {
   "property": "C19",
   "status": "proved",
   "theorems": [
    "Granne.C19_zero_never_linked",
    "Granne.C19_zero_has_no_neighbors"
   ],
   "note": ""
  },
  {
   "property": "C20",
   "status": "proved",
   "theorems": [
    "Granne.C20_select",
    "Granne.C20_select_total",
    "Granne.C20_limit_keeps_closest"
   ],
   "note": ""
  },
  {
   "property": "C21",
   "status": "proved",
   "theorems": [
    "Granne.C21_reload_resumes",
    "Granne.C21_reload_reachable"
   ],
   "note": "Also added as a constructor of Reachable, so C14-C20 and C23 hold for reloaded builders too."
  },
  {
   "property": "C22",
   "status": "proved",
   "theorems": [
    "Granne.C22_schedule",
    "Granne.C22_schedule_good",
    "Granne.C22_schedule_good_float",
    "Granne.C22_built_layer_sizes",
    "Granne.C22_build_layers",
    "Granne.C22_few_layers",
    "Granne.C22_multiplier_below_one",
    "Granne.C22_multiplier_one"
   ],
   "note": "Exact real arithmetic; rounding of f64 is covered only through the assumption FloatOk of C22_schedule_good_float. Also: with a layer multiplier below 1 building two or more elements never ends (C22_multiplier_below_one); with 1 the index has one layer (C22_multiplier_one)."
  },
  {
   "property": "C23",
   "status": "proved",
   "theorems": [
    "Granne.C23_size_bounded",
    "Granne.C23_push_refused",
    "Granne.C23_slots"
   ],
   "note": ""
  },
  {
   "property": "C24",
   "status": "proved",
   "theorems": [
    "Granne.C24_reorder_order",
    "Granne.C24_reorder_by_keys_order",
    "Granne.C24_two_layers_not_reordered",
    "Granne.C24_reorder_by_keys_again"
   ],
   "note": "Also: with exactly two layers reorder changes nothing (C24_two_layers_not_reordered)."
  },
  {
   "property": "C25",
   "status": "proved",
   "theorems": [
    "Granne.C25_reorder_preserves",
    "Granne.C25_reorder_saveable"
   ],
   "note": ""
  },
  {
   "property": "C26",
   "status": "proved",
   "theorems": [
    "Granne.C26_reorder_search",
    "Granne.C26_reorder_search_same",
    "Granne.C26_moving_zero_changes_results",
    "Granne.C26_reorder_search_exhaustive"
   ],
   "note": "C26_moving_zero_changes_results shows that the condition on element 0 is needed for reorder_by_keys."
  },
  {
   "property": "C27",
   "status": "partial",
   "theorems": [
    "Granne.C27_panics_below_two_layers",
    "Granne.C27_panics_on_partial_index",
    "Granne.C27_violated",
    "Granne.C27_reorder_returns_partial",
    "Granne.C27_builder_partial"
   ],
   "note": "The property is violated by the code: C27_violated (a loaded index of a fully built builder), C27_panics_below_two_layers, C27_panics_on_partial_index. Proved: reorder returns on every index with at least two layers that covers all its elements, also as saved from a builder and loaded."
  },
  {
   "property": "C28",
   "status": "proved",
   "theorems": [
    "Granne.C28_permute_vectors",
    "Granne.C28_permute_wrong_length",
    "Granne.C28_permute_no_permutation",
    "Granne.C28_permute_terms_wrong_length",
    "Granne.C28_permute_terms",
    "Granne.C28_permute_run",
    "Granne.C28_permute_runs_forever",
    "Granne.C28_permute_panics"
   ],
   "note": ""
  },
  {
   "property": "C29",
   "status": "proved",
   "theorems": [
    "Granne.C29_vectors_are_lists",
    "Granne.C29_empty_vector_lost",
    "Granne.C29_extend_with_new_panics",
    "Granne.C29_subslice_resize",
    "Granne.C29_with_width"
   ],
   "note": "Pushing a vector of dimension 0 onto a new collection is excluded (it is lost, C29_empty_vector_lost)."
  },
  {
   "property": "C30",
   "status": "partial",
   "theorems": [
    "Granne.C30_write_load_partial",
    "Granne.C30_load_write",
    "Granne.C30_truncated",
    "Granne.C30_truncation_is_silent",
    "Granne.C30_empty_does_not_load",
    "Granne.C30_reported_size_off_by_8"
   ],
   "note": "The positive part is proved for every dimension >= 1; the property fails for the new, empty collection (C30_empty_does_not_load) and for the reported size (C30_reported_size_off_by_8). Truncated files: C30_truncated, C30_truncation_is_silent."
  },
  {
   "property": "C31",
   "status": "proved",
   "theorems": [
    "Granne.C31_terms_are_lists",
    "Granne.C31_push_panics_iff",
    "Granne.C31_pushes_succeed",
    "Granne.C31_iter"
   ],
   "note": "ids and totals beyond the limits are shown to panic, exactly."
  },
  {
   "property": "C32",
   "status": "proved",
   "theorems": [
    "Granne.C32_write_load",
    "Granne.C32_write_range",
    "Granne.C32_write_range_reported_size",
    "Granne.C32_extend",
    "Granne.C32_truncated"
   ],
   "note": ""
  },
  {
   "property": "C33",
   "status": "proved",
   "theorems": [
    "Granne.C33_odd_byte_roundtrip",
    "Granne.C33_odd_byte_bijective",
    "Granne.C33_max_value"
   ],
   "note": ""
  },
  {
   "property": "C34",
   "status": "partial",
   "theorems": [
    "Granne.C34_shards_partial",
    "Granne.C34_enough_elements",
    "Granne.C34_panics"
   ],
   "note": "The property is violated by the code: C34_panics (10 elements, 7 shards). Proved: the exact condition for success, that it holds with at least (s-1)^2 elements (C34_enough_elements), and that in all cases the files written hold every element exactly once in order."
  },
  {
   "property": "C35",
   "status": "proved",
   "theorems": [
    "Granne.C35_chunks",
    "Granne.C35_compute",
    "Granne.C35_no_elements",
    "Granne.C35_compute_values"
   ],
   "note": "For any arithmetic; the file of no elements does not load (C35_no_elements)."
  },
  {
   "property": "C36",
   "status": "proved",
   "theorems": [
    "Granne.C36_embedding_is_sum",
    "Granne.C36_components",
    "Granne.C36_embeddings_are_pushed",
    "Granne.C36_pushed_sum",
    "Granne.C36_push_embedding_panics_iff"
   ],
   "note": "C36_embedding_is_sum holds for any scalar arithmetic (it fixes the order of the additions); C36_components for exact arithmetic."
  },
  {
   "property": "C37",
   "status": "proved",
   "theorems": [
    "Granne.C37_distance",
    "Granne.C37_self_and_zero",
    "Granne.C37_scale",
    "Granne.C37_symmetric",
    "Granne.C37_rounding_error",
    "Granne.C37_error_1024"
   ],
   "note": "Exact real arithmetic for the equalities; symmetry for any arithmetic with a symmetric mul_add; C37_rounding_error / C37_error_1024 bound the rounding error for every rounding function with relative error u (overflow and underflow of f32 excluded)."
  },
  {
   "property": "C38",
   "status": "proved",
   "theorems": [
    "Granne.C38_dot_product",
    "Granne.C38_rounding_error",
    "Granne.C38_unequal_lengths"
   ],
   "note": "Also: rounding error for every length (C38_rounding_error), and that unequal lengths go unnoticed (C38_unequal_lengths)."
  },
  {
   "property": "C39",
   "status": "proved",
   "theorems": [
    "Granne.C39_no_overflow",
    "Granne.C39_bound_is_sharp"
   ],
   "note": "With and without overflow checks; C39_bound_is_sharp."
  },
  {
   "property": "C40",
   "status": "proved",
   "theorems": [
    "Granne.C40_quantize",
    "Granne.C40_degenerate",
    "Granne.C40_rounded",
    "Granne.C40_f32_max_becomes_126"
   ],
   "note": "Exact arithmetic in C40_quantize; with rounding the largest component can become 126 instead of 127 (C40_rounded, C40_f32_max_becomes_126)."
  },
  {
   "property": "C41",
   "status": "proved",
   "theorems": [
    "Granne.C41_new",
    "Granne.C41_capacity",
    "Granne.C41_no_panic",
    "Granne.C41_insert_result",
    "Granne.C41_ids_distinct",
    "Granne.C41_ids_cover",
    "Granne.C41_all_inserted",
    "Granne.C41_fresh_fits",
    "Granne.C41_multiplier_fits",
    "Granne.C41_plan_must_fit"
   ],
   "note": "For every interleaving of insert_batch / search / write calls. Needs existing layers that fit the plan: automatic for fresh builders and for a single layer multiplier (C41_fresh_fits, C41_multiplier_fits); without it the first insert can panic (C41_plan_must_fit)."
  },
  {
   "property": "C42",
   "status": "proved",
   "theorems": [
    "Granne.C42_snapshot_consistent",
    "Granne.C42_batches_whole",
    "Granne.C42_contains_earlier",
    "Granne.C42_no_insert_in_progress",
    "Granne.C42_snapshot_loads"
   ],
   "note": "Also: batches are saved whole or not at all, and everything present when the save starts is in it."
  },
  {
   "property": "C43",
   "status": "partial",
   "theorems": [
    "Granne.C43_runs_finite_partial",
    "Granne.C43_only_deadlock_partial",
    "Granne.C43_unguarded_partial",
    "Granne.C43_searches_return_partial",
    "Granne.C43_no_saves_partial",
    "Granne.C43_no_inserts_partial",
    "Granne.C43_single_inserts_partial",
    "Granne.C43_multiplier_strict",
    "Granne.C43_violated",
    "Granne.C43_violated_guard"
   ],
   "note": "The property is violated by the code: C43_violated (a batch that spans two layers and a waiting save) and C43_violated_guard (a search under the guard of get_elements and a waiting insert). Proved: every run is finite, these are the only ways to get stuck, and unless somebody searches under a guard every search and read returns; there is no deadlock without saves, without inserts, or with single inserts on a builder that started empty."
  },
  {
   "property": "C44",
   "status": "partial",
   "theorems": [
    "Granne.C44_search_sound_partial",
    "Granne.C44_nonempty_partial",
    "Granne.C44_nonempty_when_partial",
    "Granne.C44_violated_until_full",
    "Granne.C44_violated",
    "Granne.C44_quiescent_partial"
   ],
   "note": "The property is violated by the code while there is only the first layer (C44_violated, C44_violated_until_full). Proved: results are always sound, non-empty once a layer is finished, and equal to a search of the saved index while nothing is inserted."
  },
  {
   "property": "C45",
   "status": "proved",
   "theorems": [
    "Granne.C45_lockstep",
    "Granne.C45_append_panics",
    "Granne.C45_known_word",
    "Granne.C45_lookup",
    "Granne.C45_unknown_words_skipped",
    "Granne.C45_empty_vector_breaks_lockstep",
    "Granne.C45_word_with_space"
   ],
   "note": "Vectors must be non-empty and words free of white space; both exclusions are shown to be needed (C45_empty_vector_breaks_lockstep, C45_word_with_space)."
  },
  {
   "property": "C46",
   "status": "proved",
   "theorems": [
    "Granne.C46_quantised_distance",
    "Granne.C46_symmetric"
   ],
   "note": "C46_symmetric needs only a commutative multiplication."
  },
  {
   "property": "C47",
   "status": "proved",
   "theorems": [
    "Granne.C47_save_load",
    "Granne.C47_parser_agrees",
    "Granne.C47_duplicate_word_last_wins",
    "Granne.C47_empty_does_not_load",
    "Granne.C47_truncated",
    "Granne.C47_truncated_pair"
   ],
   "note": "C47_duplicate_word_last_wins and C47_empty_does_not_load show the limits; C47_truncated is exact. Two files cut to different numbers of entries open without an error (C47_truncated_pair)."
  },
  {
   "property": "C48",
   "status": "proved",
   "theorems": [
    "Granne.C48_parse",
    "Granne.C48_parse_succeeds_iff",
    "Granne.C48_line",
    "Granne.C48_save_load"
   ],
   "note": "Exact success condition in C48_parse_succeeds_iff; meaning of a line in C48_line."
  },
  {
   "property": "C49",
   "status": "proved",
   "theorems": [
    "Granne.C49_every_element_linked"
   ],
   "note": "The hypothesis on distances is needed: near-duplicates are deliberately left out of the graph."
  },
  {
   "property": "C50",
   "status": "proved",
   "theorems": [
    "Granne.C50_small_connected",
    "Granne.C50_small_exact",
    "Granne.C50_planned_layers",
    "Granne.C50_one_build_connected",
    "Granne.C50_one_build_exact",
    "Granne.C50_bound_is_sharp"
   ],
   "note": "C50_one_build_*: one build of up to num_neighbors + 1 elements. Zero elements are those whose distance to themselves exceeds the threshold; the builder never links them. C50_bound_is_sharp: four points, two neighbors per node, one point that no search ever returns."
  },
  {
   "property": "C51",
   "status": "proved",
   "theorems": [
    "Granne.C51_arithmetic",
    "Granne.C51_finite_never_panics",
    "Granne.C51_panics_iff",
    "Granne.C51_symmetric",
    "Granne.C51_error",
    "Granne.C51_error_any_dim",
    "Granne.C51_tiny_and_huge"
   ],
   "note": "IEEE binary32 model (Model/F32): round to nearest even, subnormals, overflow, infinities, NaN; signed zeros identified."
  },
  {
   "property": "C52",
   "status": "proved",
   "theorems": [
    "Granne.C52_quantised_distance",
    "Granne.C52_self_distance_not_zero",
    "Granne.C52_quantize",
    "Granne.C52_quantize_overflow",
    "Granne.C52_quantize_zero",
    "Granne.C52_quantize_infinite"
   ],
   "note": "Same arithmetic. Limits shown: C52_quantize_overflow, C52_quantize_zero, C52_quantize_infinite, C52_self_distance_not_zero."
  },
  {
   "property": "C53",
   "status": "proved",
   "theorems": [
    "Granne.C53_distance",
    "Granne.C53_skipped_iff_zero",
    "Granne.C53_search",
    "Granne.C53_search_any_dim",
    "Granne.C53_small_exact",
    "Granne.C53_every_vector_linked",
    "Granne.C53_dimension_3072",
    "Granne.C53_lost_vector"
   ],
   "note": "Composes C51 with C01, C02, C16, C19, C49, C50 for the element container as it is, in IEEE binary32. C53_dimension_3072 / C53_lost_vector: the bound on the dimension is needed, a vector with 3072 components is taken for a zero element."
  },
  {
   "property": "C54",
   "status": "proved",
   "theorems": [
    "Granne.C54_distance",
    "Granne.C54_skipped_iff_zero",
    "Granne.C54_search",
    "Granne.C54_small_exact",
    "Granne.C54_every_vector_linked",
    "Granne.C54_quantisation_error"
   ],
   "note": "Composes C52 with the same; C54_quantisation_error compares with the original f32 vectors."
  },
  {
   "property": "C55",
   "status": "proved",
   "theorems": [
    "Granne.C55_keys",
    "Granne.C55_panics_iff",
    "Granne.C55_real_norms",
    "Granne.C55_reorder",
    "Granne.C55_reorder_needs_all_indexed"
   ],
   "note": "Norms in IEEE binary32 (C55_real_norms relates them to real norms). C55_reorder composes with C24, C25, C26."
  },
  {
   "property": "C56",
   "status": "proved",
   "theorems": [
    "Granne.C56_push",
    "Granne.C56_push_panics_iff",
    "Granne.C56_own_text",
    "Granne.C56_unknown_text"
   ],
   "note": "Words must not contain white space for C56_own_text. The empty string as a query extracts as an empty list of numbers, see Model/TextIndex."
  },
  {
   "property": "C57",
   "status": "proved",
   "theorems": [
    "Granne.C57_distance",
    "Granne.C57_skipped_iff_no_terms",
    "Granne.C57_search",
    "Granne.C57_small_exact",
    "Granne.C57_every_element_linked",
    "Granne.C57_push"
   ],
   "note": "sumError is the relative rounding error of the sum; SumRange excludes near-cancellation, where no bound can hold."
  },
  {
   "property": "C58",
   "status": "proved",
   "theorems": [
    "Granne.C58_unambiguous",
    "Granne.C58_words_file",
    "Granne.C58_text_ids",
    "Granne.C58_element_files"
   ],
   "note": "Formats specified independently in Spec/Format; UTF-8 decoding is not modelled."
  },
  {
   "property": "C59",
   "status": "proved",
   "theorems": [
    "Granne.C59_larger_search_no_worse",
    "Granne.C59_ties_can_hurt"
   ],
   "note": "Lockstep simulation of the two searches; C59_ties_can_hurt shows that the condition on ties is needed."
  },
  {
   "property": "C60",
   "status": "proved",
   "theorems": [
    "Granne.C60_saved_linked",
    "Granne.C60_inserted_linked",
    "Granne.C60_search_finds_inserted"
   ],
   "note": "Rely/guarantee: in the small case no task ever removes a neighbor, so what could be reached when the search started stays reachable; the search visits all of it because its heap never fills up."
  },
  {
   "property": "C61",
   "status": "proved",
   "theorems": [
    "Granne.C61_num_elements",
    "Granne.C61_append_returns",
    "Granne.C61_convertible",
    "Granne.C61_build",
    "Granne.C61_open",
    "Granne.C61_search_angular",
    "Granne.C61_small_exact_angular",
    "Granne.C61_search_angular_int",
    "Granne.C61_resume",
    "Granne.C61_default_layer",
    "Granne.C61_save_returns",
    "Granne.C61_few_layers",
    "Granne.C61_two_layers",
    "Granne.C61_session"
   ],
   "note": "Model/Py: sessions over files named by paths (no links between paths; a mapped file that has become shorter cannot be read). C61_session shows that the usual session exists for all vectors of one dimension. save_index needs at most 19 layers, which a layer multiplier of at least 4 guarantees (C61_few_layers)."
  },
  {
   "property": "C62",
   "status": "proved",
   "theorems": [
    "Granne.C62_index",
    "Granne.C62_reordered",
    "Granne.C62_builder",
    "Granne.C62_overwrite_index",
    "Granne.C62_overwrite_builder",
    "Granne.C62_detached_save"
   ],
   "note": "C62_overwrite_index and C62_overwrite_builder are the negative part."
  },
  {
   "property": "C63",
   "status": "proved",
   "theorems": [
    "Granne.C63_reorder",
    "Granne.C63_reorder_panics",
    "Granne.C63_resave"
   ],
   "note": "C63_reorder_panics is the negative part (C27)."
  },
  {
   "property": "C64",
   "status": "proved",
   "theorems": [
    "Granne.C64_len",
    "Granne.C64_words_distinct",
    "Granne.C64_append",
    "Granne.C64_embedding",
    "Granne.C64_dist",
    "Granne.C64_reopen",
    "Granne.C64_save_returns",
    "Granne.C64_save_over_own_file",
    "Granne.C64_empty_does_not_open",
    "Granne.C64_open_iff",
    "Granne.C64_open_shows",
    "Granne.C64_session",
    "Granne.C64_dist_cosine"
   ],
   "note": "Model/PyText: words files are UTF-8 bytes. C64_save_over_own_file and C64_empty_does_not_open are the negative part; C64_session shows that the session exists for all pairs of one dimension."
  },
  {
   "property": "C65",
   "status": "proved",
   "theorems": [
    "Granne.C65_needs_files",
    "Granne.C65_num_elements",
    "Granne.C65_append_returns",
    "Granne.C65_build",
    "Granne.C65_save_returns",
    "Granne.C65_new_returns",
    "Granne.C65_resume",
    "Granne.C65_open",
    "Granne.C65_search",
    "Granne.C65_search_vector",
    "Granne.C65_unknown_text",
    "Granne.C65_small_exact",
    "Granne.C65_session"
   ],
   "note": "Composes C56, C57 with the session model. C65_session shows that the usual session exists; the tolerance of C65_search includes the rounding of the sums (see C57)."
  },
  {
   "property": "C66",
   "status": "proved",
   "theorems": [
    "Granne.C66_reorder",
    "Granne.C66_reorder_panics",
    "Granne.C66_search",
    "Granne.C66_search_same",
    "Granne.C66_wordless_text_breaks_search",
    "Granne.C66_reorder_twice",
    "Granne.C66_resave"
   ],
   "note": "Composes C24, C25, C55, C65. C66_wordless_text_breaks_search and C66_reorder_panics are the negative part."
  },
  {
   "property": "C67",
   "status": "proved",
   "theorems": [
    "Granne.C67_embeddings",
    "Granne.C67_embeddings_detached",
    "Granne.C67_builder",
    "Granne.C67_index",
    "Granne.C67_overwrite_index",
    "Granne.C67_overwrite_builder",
    "Granne.C67_embeddings_file_lost",
    "Granne.C67_detached_save"
   ],
   "note": "C67_overwrite_index, C67_overwrite_builder and C67_embeddings_file_lost are the negative part. Renaming or deleting a mapped file is not modelled (only changes in place)."
  },
  {
   "property": "C68",
   "status": "proved",
   "theorems": [
    "Granne.C68_one_layer",
    "Granne.C68_is_a_build",
    "Granne.C68_deterministic",
    "Granne.C68_returns",
    "Granne.C68_reproducible",
    "Granne.C68_program_is_a_build",
    "Granne.C68_parallel_differs"
   ],
   "note": "Model/Sequential: index_elements on one thread as a function; C68_one_layer ties it to the in-order schedule of the interleaving semantics. C68_parallel_differs is the negative part (three elements, one layer)."
  },
  {
   "property": "C69",
   "status": "proved",
   "theorems": [
    "Granne.C69_same_search",
    "Granne.C69_each_layer",
    "Granne.C69_total",
    "Granne.C69_built",
    "Granne.C69_reserve"
   ],
   "note": "Model/Cost repeats the search with a record of the calls; C69_same_search shows that the record changes nothing."
  },
  {
   "property": "C70",
   "status": "proved",
   "theorems": [
    "Granne.C70_unambiguous",
    "Granne.C70_accepted_iff",
    "Granne.C70_only_sizes_matter",
    "Granne.C70_refused",
    "Granne.C70_saved_header"
   ],
   "note": "Spec/Json is the grammar of RFC 8259 on bytes; the reader accepts exactly its texts nested at most 127 deep (serde_json's limit). Numbers that are not natural numbers are not told apart (serde_json also refuses those beyond the range of f64, such as 1e999; here they are accepted)."
  },
  {
   "property": "C71",
   "status": "proved",
   "theorems": [
    "Granne.C71_search_sound",
    "Granne.C71_search_prefix",
    "Granne.C71_search_ends",
    "Granne.C71_more_panics",
    "Granne.C71_same_as_search",
    "Granne.C71_saved_search"
   ],
   "note": "Model/OpenFile: release arithmetic (offsets wrap), lists decoded when read. Memory safety of the casts is C72; the external stream-vbyte decoder is trusted to panic when data are missing."
  },
  {
   "property": "C72",
   "status": "partial",
   "theorems": [
    "Granne.C72_vectors_in_bounds",
    "Granne.C72_texts_in_bounds",
    "Granne.C72_index_in_bounds",
    "Granne.C72_index_views",
    "Granne.C72_vectors_aligned",
    "Granne.C72_texts_aligned",
    "Granne.C72_index_aligned_iff_partial",
    "Granne.C72_one_layer_aligned",
    "Granne.C72_index_misaligned"
   ],
   "note": "In bounds: always. Aligned: vectors and texts always, an index exactly if the sizes of its layers before each layer add up to a multiple of 8 (C72_index_aligned_iff_partial); the layers are written without padding, so a usual index of two layers is not (C72_index_misaligned)."
  },
  {
   "property": "C73",
   "status": "proved",
   "theorems": [
    "Granne.C73_crash_vectors",
    "Granne.C73_crash_texts",
    "Granne.C73_complete",
    "Granne.C73_concurrent",
    "Granne.C73_failures",
    "Granne.C73_no_failure",
    "Granne.C73_complete_texts",
    "Granne.C73_elements_missing",
    "Granne.C73_opens_without_elements",
    "Granne.C73_failure_unnoticed",
    "Granne.C73_failure_reported"
   ],
   "note": "Model/RwSave: byte by byte effects on two files, with the BufWriter of the elements dropped at the end. A process that dies, not a machine that loses power (writes the kernel accepted stay, in order). The negative theorems C73_elements_missing, C73_opens_without_elements and C73_failure_unnoticed show what the property does not promise."
  },
  {
   "property": "C74",
   "status": "proved",
   "theorems": [
    "Granne.C74_deterministic",
    "Granne.C74_symmetric",
    "Granne.C74_returns_angular",
    "Granne.C74_returns_angular_int",
    "Granne.C74_error_angular",
    "Granne.C74_error_angular_any_dim",
    "Granne.C74_error_angular_int",
    "Granne.C74_same_as_search"
   ],
   "note": "Model/PyTools. Floats as in Model/F32 (round to nearest, no bound on the exponent above the range of f32 other than overflow to infinity); the errors are those of C51 and C52."
  },
  {
   "property": "C75",
   "status": "proved",
   "theorems": [
    "Granne.C75_shard_names_distinct",
    "Granne.C75_shard_name",
    "Granne.C75_shard_beside",
    "Granne.C75_deterministic",
    "Granne.C75_parse",
    "Granne.C75_parse_panics",
    "Granne.C75_parse_anywhere",
    "Granne.C75_shards_frame",
    "Granne.C75_shards",
    "Granne.C75_binary_input",
    "Granne.C75_shards_rerun",
    "Granne.C75_shard_names_clash",
    "Granne.C75_compute",
    "Granne.C75_compute_in_place",
    "Granne.C75_compute_fails",
    "Granne.C75_compute_over_embeddings",
    "Granne.C75_text_to_vectors"
   ],
   "note": "Model/Tools: a file system of normalised paths without links; reading and writing do not fail, nobody else changes files; decompression of .gz parts is an arbitrary function. Negative: C75_shard_names_clash (outputs x and x.bin share their shards), C75_compute_in_place, and the panicking case of C75_compute (a file that loads but lacks vectors)."
  },
  {
   "property": "C76",
   "status": "proved",
   "theorems": [
    "Granne.C76_seen",
    "Granne.C76_comparable",
    "Granne.C76_monotone",
    "Granne.C76_sees_inserted",
    "Granne.C76_guard",
    "Granne.C76_part_of_batch",
    "Granne.C76_insert_waits"
   ],
   "note": "Model/Rw: a reader takes the lock of the elements, sees them, and drops it. C76_part_of_batch is the negative part. C76_guard speaks of the thread that holds the guard (loHold)."
  },
  {
   "property": "C77",
   "status": "proved",
   "theorems": [
    "Granne.C77_reorder_then_build",
    "Granne.C77_reorder_possible"
   ],
   "note": "Model/History: the histories of C14-C20, C22, C23, C49, C50, C53, C68, C69 now contain such reorderings at any point, with reorder or with reorder_by_keys (if element 0 stays first: the entry point of every search is element 0). C77_reorder_possible shows that builders with 2 to 19 layers can be taken through all steps."
  },
  {
   "property": "C78",
   "status": "proved",
   "theorems": [
    "Granne.C78_any_dimensions",
    "Granne.C78_common_part",
    "Granne.C78_filled_with_zeros",
    "Granne.C78_positions_mixed",
    "Granne.C78_quantised_truncated"
   ],
   "note": "Model/Math. C78_positions_mixed is the negative part: vectors with single non-zero components at positions 65 and 33 have distance 0. Without the feature blas (with it, sdot reads as many components of the second vector as the first one has, also beyond its end)."
  },
  {
   "property": "C79",
   "status": "proved",
   "theorems": [
    "Granne.C79_average_degree",
    "Granne.C79_average_degree_reinserted"
   ],
   "note": "Proofs/LinkCount: every worker task has a budget of slots it can fill. A graph that is already there (reloaded, reordered) counts with its own history. The bound for reinsertion is stated for the first build of a builder; each further call reinserts the last layer once more."
  },
  {
   "property": "C80",
   "status": "proved",
   "theorems": [
    "Granne.C80_keeps_smallest",
    "Granne.C80_full_and_peek",
    "Granne.C80_no_room"
   ],
   "note": "Props/Heap: induction over the pushes with the invariant that the heap is the sorted list of the smallest elements. std::collections::BinaryHeap itself is trusted (an ascending list stands for it)."
  },
  {
   "property": "C81",
   "status": "proved",
   "theorems": [
    "Granne.C81_size_at_most",
    "Granne.C81_four_bytes_per_neighbor",
    "Granne.C81_size_at_least",
    "Granne.C81_builder"
   ],
   "note": "Props/FileSize: the exact size of a saved file as a sum over the lists (Proofs/IndexIO), and a bound on the encoding of one list; attained in the example. Stated for a file that was empty before."
  },
  {
   "property": "C82",
   "status": "proved",
   "theorems": [
    "Granne.C82_error",
    "Granne.C82_skipped_iff_zero",
    "Granne.C82_search",
    "Granne.C82_small_exact",
    "Granne.C82_sum",
    "Granne.C82_tiny_vector_panics"
   ],
   "note": "Model/Blas, Spec/Blas (GoodBlas: what is assumed of the library), Proofs/BlasError. C82_error, C82_skipped_iff_zero, C82_search, C82_small_exact, C82_sum; C82_tiny_vector_panics is the negative part. naiveBlas meets the assumption. sdot is called with the dimension of the first vector; vectors of different dimensions (a read beyond the end) are outside the model."
  },
  {
   "property": "C83",
   "status": "proved",
   "theorems": [
    "Granne.C83_push_lists",
    "Granne.C83_read_lists",
    "Granne.C83_offsets",
    "Granne.C83_offsets_behind",
    "Granne.C83_fixed_width",
    "Granne.C83_one_thread",
    "Granne.C83_returns_a_build",
    "Granne.C83_one_thread_returns",
    "Granne.C83_only_this_assertion",
    "Granne.C83_debug_build_can_panic"
   ],
   "note": "Model/Debug: the functions with debug assertions. Proofs/Debug: a task with assertions is simulated by the task without. C83_debug_build_can_panic is the negative part (two elements). The assertions of select_neighbors are part of the model used everywhere (C18), that of quantize is C52_quantize_zero."
  },
  {
   "property": "C84",
   "status": "proved",
   "theorems": [
    "Granne.C84_search",
    "Granne.C84_search_rescaled",
    "Granne.C84_build_partial",
    "Granne.C84_program",
    "Granne.C84_one_thread",
    "Granne.C84_search_built"
   ],
   "note": "Proofs/Rescale: the task that indexes an element is the same program (equal as a term of Prog) for both distances; both collections are images of one with distances in a third type. Since sort_unstable_by_key may order equally distant candidates in any way, for any way to sort in the one build there is a corresponding one in the other."
  },
  {
   "property": "C85",
   "status": "proved",
   "theorems": [
    "Granne.C85_sizes",
    "Granne.C85_same_shape",
    "Granne.C85_same_shape_formula",
    "Granne.C85_expected_number_needed"
   ],
   "note": "ReachableWhile is Reachable (the histories of C15) with a condition on every state; Planned says the configuration is sensible and has the given plan and expected number. C85_expected_number_needed is the negative side, by two programs over four integers."
  },
  {
   "property": "C86",
   "status": "proved",
   "theorems": [
    "Granne.C86_reserved",
    "Granne.C86_reserved_any",
    "Granne.C86_multiplier_one",
    "Granne.C86_upper",
    "Granne.C86_upper_complete",
    "Granne.C86_layers"
   ],
   "note": "Counted in nodes; how the allocator rounds is not modelled. The plan is the formula over the reals (C22 says how far rounding matters). C86_upper* follow from the geometric growth of the plan before rounding up."
  },
  {
   "property": "C87",
   "status": "proved",
   "theorems": [
    "Granne.C87_search",
    "Granne.C87_search_builder",
    "Granne.C87_build",
    "Granne.C87_push_later",
    "Granne.C87_pushes_first",
    "Granne.C87_one_thread"
   ],
   "note": "Proofs/Append: a simulation in both directions between the runs with and without the further elements; that the runs without them never panic (C18, C02) makes it exact. Without expected_num_elements the plan of layer sizes depends on the number of elements (C85_expected_number_needed)."
  },
  {
   "property": "C88",
   "status": "proved",
   "theorems": [
    "Granne.C88_scale_rounded",
    "Granne.C88_scale_power",
    "Granne.C88_distance",
    "Granne.C88_quantize",
    "Granne.C88_quantize_power",
    "Granne.C88_factor_three",
    "Granne.C88_opposite"
   ],
   "note": "Arithmetic with a rounding function (unbounded exponents), as in C37_rounding_error; fl32 rounds to 24 binary digits. The IEEE ranges in which nothing over- or underflows are those of C51."
  }
 ]
}