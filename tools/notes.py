NOTES.update({
"C18":"No panic, an outcome exists, no stuck state, no infinite schedule, no infinite sequence of layers.",
"C09":"Crash = any proper prefix of the single-byte effects in issue order (also through the BufWriter, C10_failures_never_corrupt). Reordering of writes by the OS is not modelled.",
"C13":"Includes a matching negative theorem: an index with more than 500 layers cannot be saved.",
"C21":"Also added as a constructor of Reachable, so C14-C20 and C23 hold for reloaded builders too.",
})
PARTIAL.update({
"C10":"The property is violated by the code (C10_last_failure_swallowed, for every index). Proved instead: every failure before the final Drop of the BufWriter is reported, and no failure pattern leaves a fresh file that loads as a wrong index.",
})
NOTES.update({
"C29":"Pushing a vector of dimension 0 onto a new collection is excluded (it is lost, C29_empty_vector_lost).",
"C31":"ids and totals beyond the limits are shown to panic, exactly.",
"C36":"C36_embedding_is_sum holds for any scalar arithmetic (it fixes the order of the additions); C36_components for exact arithmetic.",
})
PARTIAL.update({
"C30":"The positive part is proved for every dimension >= 1; the property fails for the new, empty collection (C30_empty_does_not_load) and for the reported size (C30_reported_size_off_by_8). Truncated files: C30_truncated, C30_truncation_is_silent.",
})
NOTES.update({
"C24":"Also: with exactly two layers reorder changes nothing (C24_two_layers_not_reordered).",
"C26":"C26_moving_zero_changes_results shows that the condition on element 0 is needed for reorder_by_keys.",
})
PARTIAL.update({
"C27":"The property is violated by the code: C27_violated (a loaded index of a fully built builder), C27_panics_below_two_layers, C27_panics_on_partial_index. Proved: reorder returns on every index with at least two layers that covers all its elements, also as saved from a builder and loaded.",
})
NOTES.update({
"C22":"Exact real arithmetic; rounding of f64 is covered only through the assumption FloatOk of C22_schedule_good_float. Also: with a layer multiplier below 1 building two or more elements never ends (C22_multiplier_below_one); with 1 the index has one layer (C22_multiplier_one).",
"C41":"For every interleaving of insert_batch / search / write calls. Needs existing layers that fit the plan: automatic for fresh builders and for a single layer multiplier (C41_fresh_fits, C41_multiplier_fits); without it the first insert can panic (C41_plan_must_fit).",
"C42":"Also: batches are saved whole or not at all, and everything present when the save starts is in it.",
})
PARTIAL.update({
"C43":"The property is violated by the code: C43_violated (a batch that spans two layers and a waiting save) and C43_violated_guard (a search under the guard of get_elements and a waiting insert). Proved: every run is finite, these are the only ways to get stuck, and unless somebody searches under a guard every search and read returns; there is no deadlock without saves, without inserts, or with single inserts on a builder that started empty.",
"C44":"The property is violated by the code while there is only the first layer (C44_violated, C44_violated_until_full). Proved: results are always sound, non-empty once a layer is finished, and equal to a search of the saved index while nothing is inserted.",
})
NOTES.update({
"C37":"Exact real arithmetic for the equalities; symmetry for any arithmetic with a symmetric mul_add; C37_rounding_error / C37_error_1024 bound the rounding error for every rounding function with relative error u (overflow and underflow of f32 excluded).",
"C38":"Also: rounding error for every length (C38_rounding_error), and that unequal lengths go unnoticed (C38_unequal_lengths).",
"C39":"With and without overflow checks; C39_bound_is_sharp.",
"C40":"Exact arithmetic in C40_quantize; with rounding the largest component can become 126 instead of 127 (C40_rounded, C40_f32_max_becomes_126).",
"C46":"C46_symmetric needs only a commutative multiplication.",
})
NOTES.update({
"C35":"For any arithmetic; the file of no elements does not load (C35_no_elements).",
"C45":"Vectors must be non-empty and words free of white space; both exclusions are shown to be needed (C45_empty_vector_breaks_lockstep, C45_word_with_space).",
"C47":"C47_duplicate_word_last_wins and C47_empty_does_not_load show the limits; C47_truncated is exact. Two files cut to different numbers of entries open without an error (C47_truncated_pair).",
"C48":"Exact success condition in C48_parse_succeeds_iff; meaning of a line in C48_line.",
})
PARTIAL.update({
"C34":"The property is violated by the code: C34_panics (10 elements, 7 shards). Proved: the exact condition for success, that it holds with at least (s-1)^2 elements (C34_enough_elements), and that in all cases the files written hold every element exactly once in order.",
})
NOTES.update({
"C49":"The hypothesis on distances is needed: near-duplicates are deliberately left out of the graph.",
"C50":"C50_one_build_*: one build of up to num_neighbors + 1 elements. Zero elements are those whose distance to themselves exceeds the threshold; the builder never links them.",
})
NOTES.update({
"C51":"IEEE binary32 model (Model/F32): round to nearest even, subnormals, overflow, infinities, NaN; signed zeros identified.",
"C52":"Same arithmetic. Limits shown: C52_quantize_overflow, C52_quantize_zero, C52_quantize_infinite, C52_self_distance_not_zero.",
})
NOTES.update({
"C53":"Composes C51 with C01, C02, C16, C19, C49, C50 for the element container as it is, in IEEE binary32. C53_dimension_3072 / C53_lost_vector: the bound on the dimension is needed, a vector with 3072 components is taken for a zero element.",
"C54":"Composes C52 with the same; C54_quantisation_error compares with the original f32 vectors.",
})
NOTES.update({
"C55":"Norms in IEEE binary32 (C55_real_norms relates them to real norms). C55_reorder composes with C24, C25, C26.",
"C56":"Words must not contain white space for C56_own_text. The empty string as a query extracts as an empty list of numbers, see Model/TextIndex.",
"C57":"sumError is the relative rounding error of the sum; SumRange excludes near-cancellation, where no bound can hold.",
"C58":"Formats specified independently in Spec/Format; UTF-8 decoding is not modelled.",
})
NOTES.update({
"C59":"Lockstep simulation of the two searches; C59_ties_can_hurt shows that the condition on ties is needed.",
})
NOTES.update({
"C60":"Rely/guarantee: in the small case no task ever removes a neighbor, so what could be reached when the search started stays reachable; the search visits all of it because its heap never fills up.",
})
NOTES.update({
"C61":"Model/Py: sessions over files named by paths (no links between paths; a mapped file that has become shorter cannot be read). C61_session shows that the usual session exists for all vectors of one dimension. save_index needs at most 19 layers, which a layer multiplier of at least 4 guarantees (C61_few_layers).",
"C62":"C62_overwrite_index and C62_overwrite_builder are the negative part.",
"C63":"C63_reorder_panics is the negative part (C27).",
})
NOTES.update({
"C64":"Model/PyText: words files are UTF-8 bytes. C64_save_over_own_file and C64_empty_does_not_open are the negative part; C64_session shows that the session exists for all pairs of one dimension.",
"C65":"Composes C56, C57 with the session model. C65_session shows that the usual session exists; the tolerance of C65_search includes the rounding of the sums (see C57).",
})
NOTES.update({
"C66":"Composes C24, C25, C55, C65. C66_wordless_text_breaks_search and C66_reorder_panics are the negative part.",
})
NOTES.update({
"C67":"C67_overwrite_index, C67_overwrite_builder and C67_embeddings_file_lost are the negative part. Renaming or deleting a mapped file is not modelled (only changes in place).",
})
NOTES.update({
"C68":"Model/Sequential: index_elements on one thread as a function; C68_one_layer ties it to the in-order schedule of the interleaving semantics. C68_parallel_differs is the negative part (three elements, one layer).",
"C69":"Model/Cost repeats the search with a record of the calls; C69_same_search shows that the record changes nothing.",
"C50":"C50_one_build_*: one build of up to num_neighbors + 1 elements. Zero elements are those whose distance to themselves exceeds the threshold; the builder never links them. C50_bound_is_sharp: four points, two neighbors per node, one point that no search ever returns.",
})
NOTES.update({
"C70":"Spec/Json is the grammar of RFC 8259 on bytes; the reader accepts exactly its texts nested at most 127 deep (serde_json's limit). Numbers that are not natural numbers are not told apart (serde_json also refuses those beyond the range of f64, such as 1e999; here they are accepted).",
})
NOTES.update({
"C71":"Model/OpenFile: release arithmetic (offsets wrap), lists decoded when read. Memory safety of the casts is C72; the external stream-vbyte decoder is trusted to panic when data are missing.",
})
PARTIAL.update({
"C72":"In bounds: always. Aligned: vectors and texts always, an index exactly if the sizes of its layers before each layer add up to a multiple of 8 (C72_index_aligned_iff_partial); the layers are written without padding, so a usual index of two layers is not (C72_index_misaligned).",
})
NOTES.update({
"C73":"Model/RwSave: byte by byte effects on two files, with the BufWriter of the elements dropped at the end. A process that dies, not a machine that loses power (writes the kernel accepted stay, in order). The negative theorems C73_elements_missing, C73_opens_without_elements and C73_failure_unnoticed show what the property does not promise.",
})
NOTES.update({
"C74":"Model/PyTools. Floats as in Model/F32 (round to nearest, no bound on the exponent above the range of f32 other than overflow to infinity); the errors are those of C51 and C52.",
})
NOTES.update({
"C75":"Model/Tools: a file system of normalised paths without links; reading and writing do not fail, nobody else changes files; decompression of .gz parts is an arbitrary function. Negative: C75_shard_names_clash (outputs x and x.bin share their shards), C75_compute_in_place, and the panicking case of C75_compute (a file that loads but lacks vectors).",
})
NOTES.update({
"C76":"Model/Rw: a reader takes the lock of the elements, sees them, and drops it. C76_part_of_batch is the negative part. C76_guard speaks of the thread that holds the guard (loHold).",
})
NOTES.update({
"C77":"Model/History: the histories of C14-C20, C22, C23, C49, C50, C53, C68, C69 now contain such reorderings at any point, with reorder or with reorder_by_keys (if element 0 stays first: the entry point of every search is element 0). C77_reorder_possible shows that builders with 2 to 19 layers can be taken through all steps.",
})
NOTES.update({
"C82":"Model/Blas, Spec/Blas (GoodBlas: what is assumed of the library), Proofs/BlasError. C82_error, C82_skipped_iff_zero, C82_search, C82_small_exact, C82_sum; C82_tiny_vector_panics is the negative part. naiveBlas meets the assumption. sdot is called with the dimension of the first vector; vectors of different dimensions (a read beyond the end) are outside the model.",
"C78":"Model/Math. C78_positions_mixed is the negative part: vectors with single non-zero components at positions 65 and 33 have distance 0. Without the feature blas (with it, sdot reads as many components of the second vector as the first one has, also beyond its end).",
})
NOTES.update({
"C79":"Proofs/LinkCount: every worker task has a budget of slots it can fill. A graph that is already there (reloaded, reordered) counts with its own history. The bound for reinsertion is stated for the first build of a builder; each further call reinserts the last layer once more.",
"C80":"Props/Heap: induction over the pushes with the invariant that the heap is the sorted list of the smallest elements. std::collections::BinaryHeap itself is trusted (an ascending list stands for it).",
"C81":"Props/FileSize: the exact size of a saved file as a sum over the lists (Proofs/IndexIO), and a bound on the encoding of one list; attained in the example. Stated for a file that was empty before.",
})
NOTES.update({
"C83":"Model/Debug: the functions with debug assertions. Proofs/Debug: a task with assertions is simulated by the task without. C83_debug_build_can_panic is the negative part (two elements). The assertions of select_neighbors are part of the model used everywhere (C18), that of quantize is C52_quantize_zero.",
})
NOTES.update({
"C84":"Proofs/Rescale: the task that indexes an element is the same program (equal as a term of Prog) for both distances; both collections are images of one with distances in a third type. Since sort_unstable_by_key may order equally distant candidates in any way, for any way to sort in the one build there is a corresponding one in the other.",
"C85":"ReachableWhile is Reachable (the histories of C15) with a condition on every state; Planned says the configuration is sensible and has the given plan and expected number. C85_expected_number_needed is the negative side, by two programs over four integers.",
"C86":"Counted in nodes; how the allocator rounds is not modelled. The plan is the formula over the reals (C22 says how far rounding matters). C86_upper* follow from the geometric growth of the plan before rounding up.",
"C87":"Proofs/Append: a simulation in both directions between the runs with and without the further elements; that the runs without them never panic (C18, C02) makes it exact. Without expected_num_elements the plan of layer sizes depends on the number of elements (C85_expected_number_needed).",
"C88":"Arithmetic with a rounding function (unbounded exponents), as in C37_rounding_error; fl32 rounds to 24 binary digits. The IEEE ranges in which nothing over- or underflows are those of C51.",
})
