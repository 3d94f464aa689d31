{"id": "C01", "title": "Search results are sound", "statement": "Granne::search(e, max_search, k) returns (id, distance) pairs in ascending distance order, with pairwise distinct ids, every id naming a node of the index, every distance equal to the container's distance between that element and e, and at most min(k, max_search) pairs; results for a smaller k are a prefix of those for a larger k.", "quantifier": "every index whose neighbor lists point inside their layer, every element container and distance function with totally ordered values, every query, every max_search >= 1 and k", "why_tests_cant": "Tests look at random vectors and a few parameter values; ordering, distinctness and the size bound must hold for every graph, including ties, dead nodes and disconnected graphs.", "anchors": ["src/index/mod.rs: Granne::search, search_internal, search_for_neighbors", "src/max_size_heap.rs"]}
{"id": "C02", "title": "Search never panics and terminates", "statement": "On a non-empty index whose neighbor lists point inside their layer, search with max_search >= 1 terminates without panicking and returns at least one result when k >= 1; on an index without layers it returns the empty list; with max_search == 0 on a non-empty index it panics.", "quantifier": "every well-formed index, query, max_search, k", "why_tests_cant": "Termination and absence of unwrap/index panics over all graphs cannot be sampled; cyclic and degenerate graphs are unbounded in number.", "anchors": ["src/index/mod.rs: search_internal, find_entrypoint, search_for_neighbors"]}
{"id": "C03", "title": "Search is exact when max_search covers the reachable nodes", "statement": "If max_search is at least the number of bottom-layer nodes reachable from the entry point, search returns exactly the k nearest reachable nodes in order; in particular if the whole bottom layer is reachable it returns the true k nearest neighbors.", "quantifier": "every well-formed index, every query, every k and every sufficiently large max_search", "why_tests_cant": "A recall test measures averages on random data; exactness is a universal statement about all graphs.", "anchors": ["src/index/mod.rs: search_for_neighbors", "src/max_size_heap.rs: MaxSizeHeap"]}
{"id": "C04", "title": "Search results are locally optimal", "statement": "For every candidate that a layer search keeps, each of its neighbors in that layer is either kept as well or is at least as far from the query as the worst kept candidate; and the best kept candidate is at least as close as the entry point.", "quantifier": "every well-formed layer, entry point, query and max_search >= 1", "why_tests_cant": "It is an early-termination argument (the break test and the admission test against the current worst) that needs an invariant over all loop iterations.", "anchors": ["src/index/mod.rs: search_for_neighbors"]}
{"id": "C05", "title": "Search depends on neighbor sets only", "statement": "Two indexes over the same elements with equal layer sizes and, node by node, the same set of neighbors give identical search results for every query; the storage order inside a node never matters.", "quantifier": "every pair of indexes with equal neighbor sets, every query, max_search, k", "why_tests_cant": "The compressed form sorts neighbors, the in-memory form does not; a test compares a handful of queries.", "anchors": ["src/index/mod.rs: Layers, Graph, search_for_neighbors"]}
{"id": "C06", "title": "Saving and loading an index preserves the graph", "statement": "write_index followed by from_bytes/from_file yields an index with the same number of layers, the same layer sizes and, for every node, the same neighbors (as a sorted list), whenever every node has at most 255 neighbors and the metadata fits in its block; bytes after the index in a longer old file are ignored.", "quantifier": "every builder/index state (any number of layers, nodes and neighbors), every previous content of the file behind the write position", "why_tests_cant": "The format has 60-entry offset chunks, 4-number groups, 1-4 byte widths and raw fallback; the interesting boundaries multiply beyond what fixed test sizes reach.", "anchors": ["src/index/io.rs: write_index, load_layers", "src/slice_vector/set_vector.rs", "src/slice_vector/offsets.rs"]}
{"id": "C07", "title": "Saving and loading preserves search results", "statement": "Searching an index loaded from the bytes written by write_index returns exactly what searching the original returned.", "quantifier": "every index as in C06, every query, max_search, k", "why_tests_cant": "Follows from C05 and C06 for every query; a test can only compare some.", "anchors": ["src/index/io.rs", "src/index/mod.rs: search_internal"]}
{"id": "C08", "title": "Re-saving a loaded index is byte identical", "statement": "Writing an index that was loaded from a file produced by write_index produces the same bytes again, and never touches bytes before the start position of the writer.", "quantifier": "every index as in C06, every start position", "why_tests_cant": "Idempotence over all contents.", "anchors": ["src/index/io.rs: write_index", "src/slice_vector/offsets.rs: CompressedVariableWidthSliceVector::write"]}
{"id": "C09", "title": "A crash while saving to a fresh file is detected on load", "statement": "If write_index to a fresh file stops after any proper prefix of its byte-level effects (metadata is written last), loading the file is rejected (panics) instead of producing a wrong index.", "quantifier": "every index, every crash point, including a torn metadata block", "why_tests_cant": "Crash points are unbounded; no test injects them.", "anchors": ["src/index/io.rs: write_index, read_layer_sizes"]}
{"id": "C10", "title": "write_index reports write failures", "statement": "If the underlying writer fails at any write, write_index returns an error. (Violated: the BufWriter is dropped without an explicit flush, so a failure of the last flush, which carries the metadata, is swallowed and Ok(()) is returned.)", "quantifier": "every index, every failing write", "why_tests_cant": "Tests write to tempfiles that never fail.", "anchors": ["src/index/io.rs:11-70"]}
{"id": "C11", "title": "Neighbor list codec is lossless", "statement": "Pushing any multiset of at most 255 neighbor ids into a compressed layer and reading it back gives the sorted multiset, independent of position in the layer and of what was pushed before or after; lists longer than 255 lose their largest ids when saved by a release build and panic in a debug build.", "quantifier": "every sequence of neighbor lists with ids < 2^32", "why_tests_cant": "2^32 values per id and widths 1-4 in all combinations; raw-vs-compressed disambiguation depends on total size.", "anchors": ["src/slice_vector/set_vector.rs: set_encode, decode_into", "stream_vbyte (external)"]}
{"id": "C12", "title": "Compressed offsets address every node", "statement": "For every sequence of non-decreasing offsets whose steps are below 65535, the chunked offset table returns each pushed offset, its length and its last entry, within and across chunk boundaries. Steps outside this range: within a chunk a decreasing offset or a step above 65535 is rejected and a step of exactly 65535 is accepted but lost; after a full chunk (every 60 offsets) any offset, also a decreasing one, is accepted.", "quantifier": "every sequence of pushes", "why_tests_cant": "Chunk boundaries (60) and the sentinel value (u16::MAX) interact; tests cover a few hundred pushes with small steps.", "anchors": ["src/slice_vector/offsets.rs: Chunk, Offsets"]}
{"id": "C13", "title": "Metadata block round-trips", "statement": "The metadata block written by write_index is exactly 1024 bytes and is parsed back to the layer sizes that were written, whatever the layer counts and sizes; when it does not fit write_index panics, and the index file is then not loadable.", "quantifier": "every list of layer counts and sizes", "why_tests_cant": "Digits of arbitrary numbers; test sizes are small.", "anchors": ["src/index/io.rs: write_index, read_layer_sizes", "serde_json (external)"]}
{"id": "C14", "title": "build_partial indexes exactly the requested prefix", "statement": "After build_partial(n) with len() <= n <= num_elements() and n >= 1 the index has len() == n; build() gives len() == num_elements(); build_partial panics exactly when 0 < n < len() or n > num_elements(); n == 0 changes nothing.", "quantifier": "every builder state reachable by push/build/build_partial/save-and-reload, every n, every thread interleaving", "why_tests_cant": "Histories of incremental builds with growing element counts and different expected_num_elements are unbounded.", "anchors": ["src/index/mod.rs: build_partial, build, index_elements_in_last_layer, GranneBuilder::push"]}
{"id": "C15", "title": "Layers are nested prefixes", "statement": "In every reachable builder state layer sizes are non-decreasing, each layer is non-empty, each is at most num_elements(), and layer i contains exactly the ids 0..layer_len(i); layers other than the last existing one are never modified by later builds.", "quantifier": "every reachable builder state, any operation history", "why_tests_cant": "History property.", "anchors": ["src/index/mod.rs: build_partial, index_elements_in_last_layer"]}
{"id": "C16", "title": "Neighbor lists are valid under every interleaving", "statement": "After any build, each neighbor of node i in a layer is the id of a node of that layer, is not i itself, and i has at most num_neighbors neighbors (at most max(1, num_neighbors/2) in a layer built as an upper layer).", "quantifier": "every element set, configuration with num_neighbors >= 1 and max_search >= 1, every interleaving of the worker threads at lock granularity, every build history", "why_tests_cant": "Thread interleavings are not controllable in a test.", "anchors": ["src/index/mod.rs: index_elements, index_element, connect_nodes, initialize_node, add_and_limit_neighbors"]}
{"id": "C17", "title": "Neighbor lists are duplicate free under every interleaving", "statement": "After any build no node lists the same neighbor twice, even though the check for an empty node and its initialisation are two separate lock acquisitions.", "quantifier": "as C16", "why_tests_cant": "The check-then-act window in index_element is a race that only specific schedules could expose.", "anchors": ["src/index/mod.rs: index_element (835-841), initialize_node, connect_nodes"]}
{"id": "C18", "title": "Building never panics and always finishes", "statement": "With num_neighbors >= 1 and max_search >= 1, build/build_partial on a legal request never panics in any worker thread, no schedule gets stuck, and every schedule is finite.", "quantifier": "every element set and interleaving", "why_tests_cant": "Absence of panics (index out of bounds, try_from, assert) over all schedules.", "anchors": ["src/index/mod.rs: index_elements, index_element"]}
{"id": "C19", "title": "Zero elements are never linked", "statement": "An element whose distance to itself exceeds the threshold (a zero vector), other than element 0, appears in no neighbor list and is never returned by a search.", "quantifier": "every element set, every build history and interleaving, every query", "why_tests_cant": "Depends on an invariant over the whole build: an id only enters neighbor lists through its own insertion.", "anchors": ["src/index/mod.rs: index_element (812-815)"]}
{"id": "C20", "title": "Neighbor selection keeps the closest and diversifies", "statement": "Limiting a candidate list sorted by distance to m >= 1 neighbors returns a sublist of it in the same order with at most m entries that starts with the closest candidate; when the list is longer than m every kept candidate is at least as close to the node as to every neighbor kept before it, and every candidate dropped before the limit is reached is strictly closer to some kept neighbor than to the node.", "quantifier": "every candidate list, every distance function, every m", "why_tests_cant": "Universal over geometry; the unit test checks only size and order on random data.", "anchors": ["src/index/mod.rs: select_neighbors, add_and_limit_neighbors"]}
{"id": "C21", "title": "Reloading a builder resumes the same state", "statement": "GranneBuilder::from_bytes on bytes written by write_index gives a builder with the same layers, sizes and (when every node has at most config.num_neighbors neighbors) the same neighbor sets; otherwise each node keeps its num_neighbors smallest neighbor ids.", "quantifier": "every builder state, every new configuration with num_neighbors >= 1", "why_tests_cant": "Round trip over all states.", "anchors": ["src/index/mod.rs: GranneBuilder::from_bytes", "src/index/io.rs"]}
{"id": "C22", "title": "Layer size schedule", "statement": "The number of elements planned for layer i never exceeds the total, is at least 1 for a non-empty set, does not decrease with i, equals the total from layer floor(log_m(total)) on, and the top layer has at most ceil(m) elements (m = layer_multiplier > 1). With m = 1 the index is flat.", "quantifier": "every total, every multiplier > 1, every layer index", "why_tests_cant": "Tests check seven hand-picked tuples.", "anchors": ["src/index/mod.rs: compute_num_elements_in_layer"]}
{"id": "C23", "title": "Ids never collide with the unused marker", "statement": "The builder refuses to hold 2^32-1 or more elements, so every id it stores fits in 32 bits and differs from the marker for unused slots.", "quantifier": "every sequence of pushes from every accepted initial container", "why_tests_cant": "Needs more than four billion elements to observe.", "anchors": ["src/index/mod.rs: GranneBuilder::new, push, NeighborId::try_from"]}
{"id": "C24", "title": "Reordering returns a layer-preserving permutation", "statement": "The order returned by reorder and reorder_by_keys is a permutation of 0..len() that maps each layer's id range onto itself; reorder_by_keys sorts every layer increment by key with ties by old id.", "quantifier": "every index with non-decreasing layer sizes, every key list of matching length; for reorder at least two layers", "why_tests_cant": "Universal over keys, sizes and layer structures.", "anchors": ["src/index/reorder.rs: reorder, reorder_by_keys, compute_order"]}
{"id": "C25", "title": "Reordering preserves the graph and the elements", "statement": "After reordering with order, node i of every layer has exactly the neighbors of old node order[i], renamed by the inverse permutation, and element i is the old element order[i].", "quantifier": "every index, every layer-preserving permutation", "why_tests_cant": "Isomorphism over all graphs.", "anchors": ["src/index/reorder.rs: reorder_layers, reorder_layer, get_reverse_mapping", "src/slice_vector/mod.rs: permute"]}
{"id": "C26", "title": "Search results survive reorder", "statement": "After reorder, searching for the same query returns the same elements with the same distances: result ids r' satisfy order[r'] == r, provided no two elements are equally far from the query. For reorder_by_keys the same holds only when element 0 keeps its place, because the entry point is always id 0. With ties, or if element 0 moves, an exhaustive search (max_search at least the number of elements) of a connected index still returns the same distances.", "quantifier": "every index with at least two layers, every query without distance ties, every max_search, k", "why_tests_cant": "The doc example asserts it for one query.", "anchors": ["src/index/reorder.rs: reorder", "src/index/mod.rs: find_entrypoint"]}
{"id": "C27", "title": "reorder works on every index", "statement": "reorder does not panic on any index produced by a builder. (Violated: it panics on an index with fewer than two layers, and on an index that covers only a prefix of its elements.)", "quantifier": "every index", "why_tests_cant": "Tests use one multi-layer index.", "anchors": ["src/index/reorder.rs: compute_order (num_layers() - 2)"]}
{"id": "C28", "title": "Permuting elements is exact", "statement": "permute(p) on a vector collection moves the element at p[i] to position i for all i, for every permutation p of the right length, in place and for collections of any dimension; SumEmbeddings::permute does the same for element term lists. A list of another length panics (for both); a list of the right length that is no permutation never gives a vector collection back: the call panics or does not end.", "quantifier": "every collection, every permutation", "why_tests_cant": "n! permutations with arbitrary cycle structure.", "anchors": ["src/slice_vector/mod.rs: FixedWidthSliceVector::permute", "src/elements/embeddings/mod.rs: permute"]}
{"id": "C29", "title": "Vector collections behave like lists of vectors", "statement": "Any sequence of push and extend on Vectors behaves like a list of equal-length vectors: len, dim, get_element and as_slice agree with the list; pushing or extending with another dimension panics and changes nothing. A collection created with a dimension takes vectors of that dimension only.", "quantifier": "every operation sequence", "why_tests_cant": "Refinement over all histories.", "anchors": ["src/elements/dense_vector.rs", "src/slice_vector/mod.rs: FixedWidthSliceVector"]}
{"id": "C30", "title": "Vector collections survive write and load", "statement": "Vectors written with write and loaded with from_bytes are equal to the original for every dimension >= 1 and every bit pattern of the scalars. (Violated for the empty collection of unspecified dimension: loading it panics; and write reports 8 bytes fewer than it wrote.)", "quantifier": "every collection", "why_tests_cant": "All sizes and bit patterns.", "anchors": ["src/slice_vector/mod.rs: write, load_mmap, from_bytes", "src/io.rs"]}
{"id": "C31", "title": "Term lists behave like lists of lists", "statement": "For SumEmbeddings, any sequence of push behaves like a list of term lists: len and get_terms agree with the list when all ids are below 2^24 and the total number of terms is below 2^40; an id of 2^24 or more panics. Iterating gives all term lists in order.", "quantifier": "every operation sequence", "why_tests_cant": "Refinement over all histories and id values.", "anchors": ["src/elements/embeddings/mod.rs: push, get_terms", "src/slice_vector/mod.rs: VariableWidthSliceVector", "src/odd_byte_int.rs"]}
{"id": "C32", "title": "Term lists survive write, load and range writes", "statement": "Elements written with write load back unchanged, and writing the range [begin, end) loads back as exactly those elements, for all valid ranges. A file that was cut off is refused, or the elements that can be read from it are those that were written.", "quantifier": "every collection and every range", "why_tests_cant": "All sizes and ranges.", "anchors": ["src/slice_vector/mod.rs: VariableWidthSliceVector::write, write_range, load_mmap"]}
{"id": "C33", "title": "Three and five byte integers round-trip", "statement": "Converting an integer below 256^k to a k-byte integer and back is the identity; larger integers panic, so nothing is silently truncated.", "quantifier": "every integer, k = 3 and 5", "why_tests_cant": "2^40 values.", "anchors": ["src/odd_byte_int.rs", "byteorder (external)"]}
{"id": "C34", "title": "Shards partition the elements", "statement": "Splitting n elements into s shards writes every element exactly once, in order; (violated: for some n and s, e.g. n = 10, s = 7, a later shard starts beyond the end and the call panics).", "quantifier": "every n and s >= 1", "why_tests_cant": "Depends on divisibility of arbitrary n and s.", "anchors": ["src/elements/embeddings/parsing.rs: parse_elements_and_save_shards_to_disk"]}
{"id": "C35", "title": "Precomputed embeddings cover all elements in order", "statement": "compute_embeddings_and_save_to_disk writes the header once and then the quantised embedding of every element exactly once in order, so loading the file gives one vector per element.", "quantifier": "every number of elements", "why_tests_cant": "Chunk arithmetic over all n.", "anchors": ["src/elements/embeddings/parsing.rs: compute_embeddings_and_save_to_disk"]}
{"id": "C36", "title": "Embeddings are sums", "statement": "get_embedding(i) is the componentwise sum of the embeddings of the terms of element i, the zero vector for an element without terms, independent of term order up to the arithmetic of the scalar type. The embeddings are the vectors pushed by push_embedding, in order; pushing one of another dimension panics.", "quantifier": "every collection and every term list", "why_tests_cant": "All term lists.", "anchors": ["src/elements/embeddings/mod.rs: get_embedding_internal", "src/math.rs: sum_into_f32"]}
{"id": "C37", "title": "Angular distance is a bounded symmetric dissimilarity", "statement": "For normalised vectors the distance is symmetric, lies in [0, 2], is 0 from a non-zero vector to itself, 1 from a zero vector to anything, and equals 1 - cos of the original vectors (real arithmetic).", "quantifier": "all real vectors of equal dimension", "why_tests_cant": "Infinite domain; float rounding is checked by tests only up to an epsilon.", "anchors": ["src/elements/angular.rs", "src/math.rs: normalize_f32, dot_product_f32"]}
{"id": "C38", "title": "Chunked dot product is the dot product", "statement": "The 32-lane chunked accumulation with a remainder loop computes the sum of products for vectors of every length (exact arithmetic).", "quantifier": "all vectors of equal length over a commutative ring", "why_tests_cant": "Lengths around multiples of 32.", "anchors": ["src/math.rs: dot_product_f32"]}
{"id": "C39", "title": "Quantised distance does not overflow", "statement": "For i8 vectors of dimension at most 131071 the three i32 accumulators never overflow and equal the exact integer sums; the bound is sharp.", "quantifier": "all i8 vectors up to that dimension", "why_tests_cant": "Overflow needs extreme inputs of huge dimension.", "anchors": ["src/math.rs: dot_product_and_squared_norms_i8", "src/elements/angular_int.rs"]}
{"id": "C40", "title": "Quantisation stays in range and close", "statement": "Converting a non-zero vector to i8 keeps every component in [-127, 127], maps the largest magnitude to +-127, preserves signs and the order of components, and is within 1 of the scaled value (exact arithmetic).", "quantifier": "all non-zero rational vectors", "why_tests_cant": "Infinite domain.", "anchors": ["src/elements/angular_int.rs: quantize"]}
{"id": "C41", "title": "Concurrent inserts respect capacity and return the ids used", "statement": "Under any interleaving of insert and insert_batch calls on RwGranneBuilder, the number of elements never exceeds max(max_elements, initial count), returned ids are pairwise distinct across calls, ascending within a call, element id was inserted by that call, and a call inserts all its elements unless the capacity is reached.", "quantifier": "every number of threads, batches and every interleaving at lock granularity", "why_tests_cant": "Capacity check and insertion are separate lock acquisitions.", "anchors": ["src/index/rw/mod.rs: insert_batch, insert"]}
{"id": "C42", "title": "Saved snapshots of the concurrent builder are consistent", "statement": "Under any interleaving, RwGranneBuilder::write sees no insert in progress, and the index file has exactly one bottom-layer node per element in the elements file.", "quantifier": "every interleaving of inserts, searches and writes", "why_tests_cant": "Interleavings.", "anchors": ["src/index/rw/mod.rs: write, insert_batch"]}
{"id": "C43", "title": "The concurrent builder does not deadlock", "statement": "No interleaving of insert_batch, search, write, len, get_element and get_elements deadlocks. (Violated: insert_batch re-acquires write_lock.read() recursively while already holding it when a batch crosses a layer boundary; if write() queued in between, both wait forever. And a caller that searches while it holds the guard returned by get_elements() and an insert that arrives in between wait for each other.)", "quantifier": "every interleaving under parking_lot's writer-preferring policy", "why_tests_cant": "Needs an exact schedule.", "anchors": ["src/index/rw/mod.rs:109,176-178", "src/index/rw/mod.rs:72"]}
{"id": "C44", "title": "The concurrent builder finds what was inserted", "statement": "RwGranneBuilder::search returns a sound non-empty result once at least one element is inserted. (Violated while only the first layer exists: search then always returns the empty list.)", "quantifier": "every state", "why_tests_cant": "Tests search only after several layers exist or ignore the result.", "anchors": ["src/index/rw/mod.rs: search"]}
{"id": "C45", "title": "Word dictionary stays in lockstep with embeddings", "statement": "For an Embeddings object grown by append, word i and embedding i belong together, appending a known word returns false and changes nothing, and looking up the words of an id list gives the ids back.", "quantifier": "every append sequence, every id list", "why_tests_cant": "History property.", "anchors": ["py/src/variants/mod.rs: WordDict", "py/src/embeddings.rs: append"]}
{"id": "C46", "title": "Quantised distance is a bounded symmetric dissimilarity", "statement": "For i8 vectors of the same dimension (at most 131071) the distance equals 1 - cos, lies in [0, 2], is symmetric (bit for bit, also in f32), 0 from a non-zero vector to itself and 1 from a zero vector to anything; the NaN of 0/0 never escapes.", "quantifier": "all i8 vectors up to that dimension", "why_tests_cant": "Infinite domain; the zero vector goes through NaN.", "anchors": ["src/elements/angular_int.rs: dist", "src/math.rs: dot_product_and_squared_norms_i8"]}
{"id": "C47", "title": "Words and embeddings survive saving and loading", "statement": "An Embeddings object grown by append, saved to its two files, loads back with the same words (any characters), ids and vectors; the parser of element files reads the same ids from the words file. (Not for an empty object; with a duplicate word in the file the last id wins.) A words file that was cut off is opened exactly if the cut is at the end of a line, and then shows the words before the cut with their ids; if both files were cut off and open, no word has moved to another vector.", "quantifier": "every append sequence, every word text, every length to which the files are cut", "why_tests_cant": "Escaping and line splitting of arbitrary text.", "anchors": ["py/src/variants/mod.rs: WordDict::new, write", "py/src/embeddings.rs: save", "src/elements/embeddings/parsing.rs: parse_words"]}
{"id": "C48", "title": "Parsed elements are the known words of each line", "statement": "parse_elements_and_save_to_disk gives one element per line of the files, in order: the ids of the known words after the last colon of the JSON string; it panics exactly if a line is not a JSON string, an id needs more than 24 bits or there are 2^40 terms; the saved file loads as these elements.", "quantifier": "every set of files, every dictionary", "why_tests_cant": "Arbitrary text, arbitrary number of lines and files.", "anchors": ["src/elements/embeddings/parsing.rs: parse_file, parse_elements_in_directory_or_file, parse_elements_and_save_to_disk"]}
{"id": "C49", "title": "Every element of a layer is linked", "statement": "If no two indexed elements are closer than the near-duplicate threshold, then in every state reachable by pushing, building under any interleaving, saving and reloading, every indexed element that is not the first and not a zero element has at least one neighbor in every layer it belongs to.", "quantifier": "every history, every interleaving of the worker tasks, every distance and configuration", "why_tests_cant": "Depends on every schedule of the parallel build.", "anchors": ["src/index/mod.rs: index_elements, index_element, connect_nodes", "src/index/mod.rs: GranneBuilder::build_partial"]}
{"id": "C50", "title": "Small collections are searched exactly", "statement": "If at most num_neighbors/2 + 1 elements (and at most 256) are indexed, and no two are closer than the near-duplicate threshold or there are at most num_neighbors/4 + 1, then all elements that are not zero elements are mutually reachable in every layer, and a search with max_search at least the number of elements returns exactly the k nearest of them. After a single build (on any number of threads) num_neighbors + 1 elements, none closer than the threshold, are enough room, provided each planned upper layer holds at most num_neighbors/2 + 1, which a layer multiplier of at least 2 ensures; that bound is sharp: with num_neighbors + 2 elements, an element can be lost to all searches.", "quantifier": "every history, interleaving, distance, query, k", "why_tests_cant": "An exactness guarantee needs all graphs the parallel build may produce, not a recall measurement.", "anchors": ["src/index/mod.rs: Granne::search, GranneBuilder::build_partial, index_element, connect_nodes"]}
{"id": "C51", "title": "Angular distance in IEEE single precision never fails on finite input", "statement": "For vectors built from finite f32 components of the same dimension (up to 2^32) the distance never panics, is finite and not negative, whatever overflows or underflows; it panics exactly if a component is NaN or infinite; for at most 1118 dimensions (and others with n/32 + n%32 <= 64, such as 1536 and 2048) and norms in [2^-50, 2^63] it differs from 1 - cos by less than 100 * f32::EPSILON; for every dimension n up to 63551 and the same norms by at most (2 (n/32 + 32 + n%32) + 9) * 2^-24. (Vectors with all components below 2^-76, or with one above 2^64, have distance exactly 1 to everything.)", "quantifier": "all f32 vectors", "why_tests_cant": "2^32 values per component; rounding, underflow and overflow in every operation.", "anchors": ["src/elements/angular.rs: From<Vec<f32>>, dist", "src/math.rs: dot_product_f32, normalize_f32"]}
{"id": "C52", "title": "Quantised vectors in IEEE single precision", "statement": "The distance of i8 vectors (dimension up to 131071) never panics and differs from 1 - cos by at most 11 * 2^-24; converting an f32 vector with largest absolute value in [2^-100, 2^120] gives components in [-127, 127] with the right sign and error below 1 + 2^-16, with or without debug assertions. (Components of at least 2^122 overflow; a zero vector panics with debug assertions; an infinite component gives the zero vector; the distance of a vector to itself can be 2^-24.)", "quantifier": "all i8 vectors up to that dimension, all f32 vectors", "why_tests_cant": "Infinite domain; overflow and NaN paths.", "anchors": ["src/elements/angular_int.rs: quantize, dist", "src/math.rs: dot_product_and_squared_norms_i8"]}
{"id": "C53", "title": "An index over f32 vectors, end to end", "statement": "For f32 vectors of one dimension (at most 1118, or with n/32 + n%32 <= 64), each zero or with a norm in [2^-50, 2^63], stored, indexed (any history, any interleaving) and searched with the library's single-precision distances: exactly the zero vectors are left out as zero elements; no search panics; every reported distance is within 100 * f32::EPSILON of 1 - cos of the original vectors and the order is that of the cosines up to twice that; if no two vectors are nearly parallel every non-zero vector has a neighbor; a small collection is searched exactly, up to that error. For every dimension up to 63551 no search panics and every reported distance is within (2 (n/32 + 32 + n%32) + 9) * 2^-24 of 1 - cos. (The rest does not hold in every dimension: some vector with 3072 components, of norm about 16457, is taken for a zero element and never found.)", "quantifier": "all such vectors, histories, interleavings, queries", "why_tests_cant": "Rounding errors of every distance feed every comparison of the build.", "anchors": ["src/elements/angular.rs", "src/math.rs: dot_product_f32, normalize_f32", "src/index/mod.rs: index_element (zero threshold), Granne::search"]}
{"id": "C54", "title": "An index over quantised vectors, end to end", "statement": "The same for i8 vectors (dimension up to 131071) with error 11 * 2^-24; and the distance of two quantised f32 vectors differs from 1 - cos of the originals by at most (2 (1 + 2^-16) / 127) * sqrt(dimension) * (mx/|x| + my/|y|) + 11 * 2^-24, where mx, my are the largest absolute components.", "quantifier": "all i8 vectors, all f32 vectors with largest component in [2^-100, 2^120], histories, interleavings, queries", "why_tests_cant": "Infinite domain; rounding and quantisation errors feed every comparison of the build.", "anchors": ["src/elements/angular_int.rs: quantize, dist", "src/index/mod.rs: index_element (zero threshold), Granne::search"]}
{"id": "C55", "title": "Reordering a text index", "statement": "reorder of a text index sorts every layer by one key per element: the eight terms of largest norm in decreasing order, filled up with zeros (equal norms in reverse order; norms as computed, relative error 2^-13 for embeddings in range). Computing the keys panics exactly if an embedding has a NaN component or an element with at least two terms has a term without embedding. Every element keeps its terms, and layers and vectors are those of reorder_by_keys.", "quantifier": "all embeddings, elements, layers", "why_tests_cant": "Arbitrary embeddings and term lists; ties, NaN and unknown terms.", "anchors": ["src/elements/embeddings/reorder.rs: compute_keys_for_reordering, get_key", "py/src/variants/index.rs: WordEmbeddingsGranne::reorder"]}
{"id": "C56", "title": "Text in, text out", "statement": "push of a text into a text builder stores its known words: get_internal_element of the new element is these words joined by single spaces and all other elements are unchanged; it panics exactly if the collection is full, a word number needs more than 24 bits or there are 2^40 terms. Pushing or searching with the text of an element means the element itself. A search with a text without known words reports distance exactly 1 for everything.", "quantifier": "every text, dictionary, collection, query", "why_tests_cant": "Arbitrary text and dictionaries.", "anchors": ["py/src/variants/builder.rs: WordEmbeddingsBuilder::push", "py/src/variants/index.rs: search, get_internal_element", "py/src/variants/mod.rs: WordDict"]}
{"id": "C57", "title": "An index over sums of embeddings, end to end", "statement": "For embeddings of dimension at most 1118 (or with n/32 + n%32 <= 64) and elements of at most 1024 terms whose embeddings do not nearly cancel out (exact sum at least 2^-49 long, sum of norms at most 2^62, rounding error at most half the sum): distances never panic and differ from 1 - cos of the exact sums by at most 100 * f32::EPSILON plus twice the relative errors ((1+2^-24)^(n-1) - 1) * (sum of norms / norm of sum) of both sums; exactly the elements without terms are left out as zero elements; searches report such distances in that order, small collections are searched exactly, and every element with terms has a neighbor if no two sums are nearly parallel.", "quantifier": "all embeddings, elements, queries, histories, interleavings", "why_tests_cant": "Rounding errors of every sum and distance feed every comparison of the build.", "anchors": ["src/elements/embeddings/mod.rs: create_embedding, get, dist", "src/elements/angular.rs", "src/index/mod.rs: index_element, Granne::search"]}
{"id": "C58", "title": "Text files are read as what they stand for", "statement": "A words file or element file is split into lines at LF or CRLF; every line has to be a JSON string (RFC 8259, with all escapes and surrogate pairs, optional surrounding white space), otherwise reading panics; words are separated by Unicode white space; the terms of an element are the known words behind the last colon, in order; of equal words in a words file the last number counts.", "quantifier": "every text", "why_tests_cant": "Arbitrary text, including every escape and every white space character.", "anchors": ["src/elements/embeddings/parsing.rs: parse_words, parse_file", "py/src/variants/mod.rs: WordDict::new, get_word_ids"]}
{"id": "C59", "title": "A larger max_search is never worse", "statement": "If the distances of the elements to the query are pairwise different, a search with a larger max_search (asking for at least as many results) returns at least as many results, and its i-th result is at least as close as the i-th result of the other search. With ties a larger max_search can miss the nearest element that the smaller one finds.", "quantifier": "all well-formed indexes, queries, pairs of max_search values", "why_tests_cant": "Two runs of a greedy search on arbitrary graphs have to be compared.", "anchors": ["src/index/mod.rs: Granne::search, search_for_neighbors", "src/max_size_heap.rs"]}
{"id": "C60", "title": "Inserted elements are linked and found, whatever runs at the same time", "statement": "On a concurrent builder, if no two elements are closer than the threshold: in every saved index each element (other than the first and zero elements) has a neighbor in each of its layers; once an insert has returned its elements have a neighbor in the layer under construction, in all later states. If the builder has room for at most num_neighbors + 1 elements, a search that starts when some layer has been finished and may consider all elements returns each element whose insert had returned before it started, or as many hits as asked for that are all at least as close, while other inserts, saves and searches run.", "quantifier": "all builders, sets of concurrent calls, interleavings", "why_tests_cant": "The links are made and read by concurrent tasks; only a proof covers all interleavings.", "anchors": ["src/index/rw/mod.rs: RwGranneBuilder::insert_batch, search, write", "src/index/mod.rs: index_element, connect_nodes, search_for_neighbors"]}
{"id": "C61", "title": "A Python session: fill, build, save, open, search, resume", "statement": "A GranneBuilder created empty (angular or angular_int) has as many elements as vectors were appended, whatever else is called. append returns exactly if the vector can be converted, has the dimension of the others and there is room; build with a number between the indexed and the appended ones never panics and indexes exactly that many. After save_index and save_elements, Granne(...) opens the files and shows the graph the builder had when the index was saved (neighbors sorted) and the vectors appended, normalised or quantised; searches never panic and report distances within the error bounds, in order, exactly for small collections. GranneBuilder(...) opened from the files continues where the first one stopped. The usual session (one dimension, at least one vector, everything built) always returns.", "quantifier": "all sessions of calls on any number of objects, vectors given as f32 bit patterns, configurations, interleavings of the workers", "why_tests_cant": "Ranges over whole histories of calls, files and bit patterns.", "anchors": ["py/src/lib.rs: GranneBuilder, Granne, save_index, save_elements", "py/src/variants/builder.rs", "py/src/variants/index.rs", "src/index/mod.rs", "src/slice_vector/mod.rs"]}
{"id": "C62", "title": "Objects of a Python session do not interfere", "statement": "An opened index answers every question the same whatever is called on other objects and whatever other files are saved, as long as it is not reordered and its two files are not saved to; after reorder it does not depend on files; a builder depends at most on the file its elements were opened from, and not even on that after an append. Saving an object to the file it is mapped from truncates the file first: the file is lost and the process dies; an object that reads no files any more saves the same bytes to any path.", "quantifier": "all sessions", "why_tests_cant": "Ranges over all histories of calls on other objects.", "anchors": ["py/src/lib.rs: Granne, GranneBuilder, save_index, save_elements", "src/index/mod.rs: FileOrLayers", "src/slice_vector/mod.rs: FileOrMemory"]}
{"id": "C63", "title": "Reordering in a Python session", "statement": "An index opened from the files of a builder, with all vectors indexed in at least two layers, can be reordered: the order returned is a permutation with 0 first, vectors and neighbor lists are those before under the new ids, and a search without ties gives the same results under the new ids. With one layer, or with vectors that are not indexed, reorder panics. The reordered index can be saved, also over its own files, and opened again, and then answers every question as before.", "quantifier": "all sessions, queries", "why_tests_cant": "Ranges over all histories and all graphs the parallel build may produce.", "anchors": ["py/src/lib.rs: Granne.reorder", "py/src/variants/index.rs: reorder", "src/index/reorder.rs"]}
{"id": "C64", "title": "A Python session with embeddings", "statement": "An Embeddings created empty and filled with (embedding, word) pairs has one embedding per different word, in order of first appearance; append returns exactly if the word is known or the embedding has the dimension of the others, and returns true exactly for new words. get_words, get_word, get_word_id and get_embedding give them back; the embedding of a text is the sum, from left to right, of the embeddings of its known words, zeros if there are none; dist and dists are the angular distances of these, close to 1 - cos of the exact sums if they do not nearly cancel out. The saved files can be opened (with at least one word) and the new object answers every question as the old one did, whatever is called on other objects in between. Saving over the file the object was opened from loses the file and kills the process unless a word was added first.", "quantifier": "all sessions of calls on any number of objects, embeddings given as f32 bit patterns, words and texts", "why_tests_cant": "Ranges over whole histories of calls, files, bit patterns and texts.", "anchors": ["py/src/embeddings.rs", "src/elements/embeddings/mod.rs", "src/elements/dense_vector.rs", "py/src/variants/mod.rs: WordDict"]}
{"id": "C65", "title": "A Python session with a text index", "statement": "A GranneBuilder over saved embeddings has as many elements as texts were appended; append returns exactly if there is room for the element and its known words; build indexes exactly as many as asked for and never panics. The saved index and elements can be opened with the embeddings and words: the index has the graph of the builder (neighbors sorted), get_internal_element returns the known words of each text and get_element their normalised sum. Searches with a text or vector return, with results in the order of, and close to, the cosines of the exact sums, exact for small collections; a text without known words gets distance 1 for everything. A builder opened from the files continues where the first one stopped. The usual session always returns.", "quantifier": "all sessions, embeddings, words, texts, configurations, interleavings of the workers", "why_tests_cant": "Ranges over whole histories of calls, files, bit patterns and texts.", "anchors": ["py/src/lib.rs: GranneBuilder, Granne", "py/src/variants/builder.rs: WordEmbeddingsBuilder", "py/src/variants/index.rs: WordEmbeddingsGranne", "src/elements/embeddings/mod.rs"]}
{"id": "C66", "title": "Reordering a text index in a Python session", "statement": "A text index opened from the files of a builder with all texts indexed can be reordered if no embedding has a NaN component, whatever the number of layers; otherwise reorder panics. The order returned is a permutation that keeps layers together and sorts each layer's texts by their most important words; the graph is the same up to the renaming and element i has the words of text order[i]. Searches return with close results; without ties and with text 0 left in place they find the same texts. A text without known words may become element 0, and then every search finds only this text. Reordering again changes nothing. The reordered index can be saved, also over its own files, and opened again and then answers every question as before.", "quantifier": "all sessions, embeddings, words, texts, queries", "why_tests_cant": "Ranges over all histories and all graphs the parallel build may produce.", "anchors": ["py/src/lib.rs: Granne.reorder", "py/src/variants/index.rs: WordEmbeddingsGranne::reorder", "src/elements/embeddings/reorder.rs", "src/index/reorder.rs"]}
{"id": "C67", "title": "Objects of a session with texts do not interfere", "statement": "An Embeddings, a text builder or a text index answers every question the same whatever is called on other objects and whatever other files change, as long as it is not changed itself and the files it still reads do not change: an Embeddings reads at most its embeddings file (none after a word was added), a builder the embeddings and, until the first append, the elements, an index the embeddings and, until reorder, index and elements; words files are never read again. Saving index or elements over the file they are mapped from loses the file and kills the process; a reordered index or a builder with appended texts saves the same bytes to any path. If the embeddings file is shortened in place, no search is answered any more.", "quantifier": "all sessions", "why_tests_cant": "Ranges over all histories of calls on other objects.", "anchors": ["py/src/embeddings.rs", "py/src/lib.rs: Granne, GranneBuilder", "py/src/variants/builder.rs", "py/src/variants/index.rs", "src/slice_vector/mod.rs: FileOrMemory"]}
{"id": "C68", "title": "The single-threaded build is reproducible, the parallel one is not", "statement": "With the cargo feature singlethreaded, every sequence of push, build_partial and build calls on the same configuration and elements ends in the same builder and so writes the same index file; every legal build call returns; and whatever the single-threaded build does is a possible outcome of the parallel build, so all guarantees about the latter hold. Without the feature two runs of the same build can end with different neighbors and different files.", "quantifier": "all programs of builder calls, elements, configurations", "why_tests_cant": "Determinism ranges over all inputs and histories; that a schedule exists is about interleavings.", "anchors": ["Cargo.toml: singlethreaded", "src/index/mod.rs: index_elements, index_elements_in_last_layer, build_partial"]}
{"id": "C69", "title": "What a search costs", "statement": "In each layer a search computes the distance of every element at most once and reads the neighbors of every node at most once, reads only nodes whose distance it knows, and computes at most one distance more than the nodes it reads have neighbors; so all in all it computes at most as many distances as the layers have nodes together, however large max_search is. The room it reserves up front depends only on max_search (and in a debug build a huge max_search panics).", "quantifier": "all indexes, queries, max_search", "why_tests_cant": "Ranges over all graphs, queries and widths.", "anchors": ["src/index/mod.rs: search_for_neighbors, find_entrypoint, search_internal", "src/max_size_heap.rs"]}
{"id": "C70", "title": "The header of an index file is ordinary JSON", "statement": "The first 1024 bytes of a saved index are the word granne and a JSON text (RFC 8259), padded with blanks, that gives the number of layers, the number of elements of each and altogether, and the sizes of the layers in bytes, which are what follows in the file. A file is accepted exactly if its header is the word granne and a JSON object, nested at most 127 deep, with num_layers, layer_counts and layer_sizes of the right types and num_layers the length of layer_counts, and layers of these sizes follow; of the header only layer_sizes matters for what is loaded. Order, white space, escapes and further members do not matter, of duplicate members the last one counts. A missing, negative, fractional or too large number is refused.", "quantifier": "all byte strings, all indexes", "why_tests_cant": "Ranges over all byte strings a file may hold, and all ways to write a JSON text.", "anchors": ["src/index/io.rs: write_index, load_layers, read_layer_sizes"]}
{"id": "C71", "title": "Whatever file is opened, a search is sound or panics", "statement": "For every sequence of bytes opened as an index, with any elements: a search ends after looking at no more nodes per layer than there are elements, and it panics or returns ids of elements with their true distances, in ascending order, without repetition, at most min(num_neighbors, max_search) of them. Lists of neighbors are read on demand: a damaged list matters only to searches that read it. Overflow checks and debug assertions can turn an answer into a panic but not into another answer. If all lists can be read the answers are those on their graph; in particular a saved and opened index answers as before.", "quantifier": "all byte strings, elements, queries, max_search, num_neighbors", "why_tests_cant": "Ranges over all contents of a file, intact or damaged.", "anchors": ["src/index/mod.rs: from_bytes, from_file, search, search_for_neighbors, find_entrypoint", "src/index/io.rs: load_layers", "src/slice_vector/offsets.rs", "src/slice_vector/set_vector.rs"]}
{"id": "C72", "title": "Typed slices of file bytes lie inside the file and are aligned", "statement": "Whatever bytes a file of vectors, of texts or of an index has: if it can be opened, every slice that the library makes from its bytes by a cast lies inside these bytes and, for a memory mapped file, its address is a multiple of the alignment of its element type.", "quantifier": "all byte strings, all addresses of the buffer", "why_tests_cant": "Ranges over all contents of files; undefined behavior does not show in a test.", "anchors": ["src/io.rs: load_bytes_as", "src/slice_vector/mod.rs: load_mmap", "src/slice_vector/offsets.rs: load_mmap, Offsets::load", "src/index/io.rs: load_layers"]}
{"id": "C73", "title": "A concurrent builder that dies while saving leaves nothing that answers wrongly", "statement": "If the process dies at any point of save_index_and_elements_to_disk, or operations on the files fail: the files that are left do not open, or a search with them panics, or it gives the answer of the complete save, which is a search of the graph that was saved with the elements that were saved, under any interleaving with inserts. (The elements are buffered until after the index is written, so the index can be complete while the elements are missing, and a failure to write the last part of the elements is not reported.)", "quantifier": "all crash points, failures of operations, states of the builder, queries", "why_tests_cant": "Ranges over all points at which a process can die and all combinations of failures.", "anchors": ["src/index/rw/mod.rs: save_index_and_elements_to_disk, write", "src/index/io.rs: write_index", "src/slice_vector/mod.rs: FixedWidthSliceVector::write, VariableWidthSliceVector::write"]}
{"id": "C74", "title": "compute_distance gives the distance that a search reports", "statement": "compute_distance of the Python module has at most one result for two vectors, does not depend on their order, returns exactly if no component is NaN (or infinite, for angular), and is within the proved error of 1 minus the cosine. If the index of a session was built from vectors, the distance that a search reports for an element is what compute_distance gives for the query and the appended vector.", "quantifier": "all vectors, both element types, all sessions and queries", "why_tests_cant": "Ranges over all vectors of floats and all histories of a session.", "anchors": ["py/src/lib.rs: py_compute_distance", "src/elements/angular.rs: dist", "src/elements/angular_int.rs: dist"]}
{"id": "C75", "title": "The tools that prepare data read and write the right files", "statement": "parse_elements_and_save_to_disk and its variant with shards read one file, or the files of a directory in the order of their names whatever order the directory lists them in, and write the known words of each line, in order: to the output, or every line once to files with different names in or beside the output, never to the output path itself; no other file changes, and a run into one file that panics changes nothing. The output may be one of the inputs. A binary file in the input directory, for instance a shard of an earlier run, makes a run panic without changing anything. compute_embeddings_and_save_to_disk changes only the output; if it returns the output has the quantised embedding of every element, if it panics the output is empty or holds the vectors of some first elements; run over its own elements file the process is killed and the elements are lost. Both steps together give, for each line, the quantised sum of the embeddings of its words.", "quantifier": "all file systems, paths, contents of files, numbers of shards", "why_tests_cant": "Ranges over all contents and arrangements of files.", "anchors": ["src/elements/embeddings/parsing.rs: parse_elements_and_save_to_disk, parse_elements_and_save_shards_to_disk, get_shard_name, compute_embeddings_and_save_to_disk, parse_elements_in_directory_or_file", "py/src/lib.rs: py_parse_elements_and_save_to_disk, py_compute_embeddings_and_save_to_disk"]}
{"id": "C76", "title": "Reading the elements of a concurrent builder", "statement": "get_elements, get_element and len of a concurrent builder see the elements as they are at one moment: an initial part of what is there, with all elements present at the start and all elements of inserts that returned before, under the ids that were returned. A later reader sees at least as much, elements never change or move, and while somebody holds the guard returned by get_elements the elements do not change at all. (A reader can see a part of a batch; a save never does.)", "quantifier": "all interleavings of any number of calls, all elements and configurations", "why_tests_cant": "Ranges over all interleavings.", "anchors": ["src/index/rw/mod.rs: get_elements, get_element, len, is_empty, insert_batch"]}
{"id": "C77", "title": "Building on after reordering", "statement": "A builder all of whose elements are indexed can be saved, opened as an index, reordered (element 0 stays first, as reorder guarantees), saved, and opened as a builder again over the reordered elements followed by any number of others. None of this panics. Element i of the new builder is element order[i] of the old one, its layers are the old ones with the nodes renamed, everything that holds of builders (well-formed layers, nodes and neighbors, zero vectors, links) holds of it, and building indexes the remaining elements.", "quantifier": "all histories of builders including any number of such reorderings, all elements, configurations and interleavings", "why_tests_cant": "Ranges over all histories.", "anchors": ["src/index/reorder.rs: reorder, reorder_by_keys, reorder_layers", "src/index/mod.rs: GranneBuilder::from_bytes, build_partial, save_index"]}
{"id": "C78", "title": "Vectors of different dimensions", "statement": "A query, or a vector given to compute_distance, may have another dimension than the elements: nothing checks it and nothing panics because of it. For quantised vectors the distance is that of the common first components. For float vectors with the same number of whole blocks of 32 components it is the distance of the shorter one filled up with zeros; in general whole blocks are compared as far as both have them, and what follows the last whole block of one with what follows the last whole block of the other, at different positions.", "quantifier": "all vectors of any two dimensions, any arithmetic", "why_tests_cant": "Ranges over all vectors and pairs of dimensions.", "anchors": ["src/math.rs: dot_product_f32, dot_product_and_squared_norms_i8", "src/elements/angular.rs: dist", "src/elements/angular_int.rs: dist"]}
{"id": "C79", "title": "How many links a build makes", "statement": "While an element is inserted into a layer it gets at most max_search links and at most max_search other elements get a link to it, whatever the other threads do; so without reinsertion a node has on average at most 2 * max_search neighbors in every layer, however large num_neighbors is and whatever history the builder has. Reinsertion looks again at half of max_search (but at least one) candidates per element and layer: after the first build, a node of layer i has on average at most 2 * (max_search + (i + 1) * max(1, max_search / 2)) neighbors.", "quantifier": "all histories, configurations, elements and interleavings", "why_tests_cant": "Ranges over all interleavings of the workers and all histories of the builder.", "anchors": ["src/index/mod.rs: index_elements_in_last_layer, index_elements, index_element, initialize_node, connect_nodes, add_and_limit_neighbors", "src/max_size_heap.rs: push"]}
{"id": "C80", "title": "The bounded result heap keeps the best", "statement": "The heap in which a search collects its results, created for max_search elements (at least one): after any sequence of pushes it holds the max_search smallest of the pushed elements, with multiplicity, and returns them in ascending order; a push returns true exactly if its element enters, that is if fewer than max_search of the elements pushed before are at most as large; it is full exactly after max_search pushes, and peek gives its largest element. Created for 0 elements it panics at the first push (so does a search with max_search 0).", "quantifier": "all sequences of pushes, all totally ordered element types, all sizes", "why_tests_cant": "Ranges over all sequences of elements, including ties.", "anchors": ["src/max_size_heap.rs: MaxSizeHeap::new, push, is_full, peek, into_sorted_vec"]}
{"id": "C81", "title": "How large a saved index is", "statement": "The file that write_index creates has 1024 bytes of metadata, for every layer of n nodes 8 + 128 (1 + n/60) bytes for a table of offsets, and for a node with m neighbors whose ids fit into w bytes at most 1 + min(4m, wm + (m+3)/4 + max(4-m, 0)) bytes, at least one: in any case at most one byte per node and four per neighbor. For a builder with any history this is at most 1024 + 136 per layer + 4 num_neighbors + 4 per node of every layer.", "quantifier": "every index that can be built, compressed or loaded", "why_tests_cant": "The size depends on the numbers stored; a worst case over all graphs is not found by sampling.", "anchors": ["src/index/io.rs: write_index", "src/slice_vector/set_vector.rs: set_encode, write_as_multi_set_vector", "src/slice_vector/offsets.rs: write"]}
{"id": "C82", "title": "Distances with the feature blas", "statement": "Built with the feature blas, over any BLAS library whose sdot adds the products in some order (any association, with or without fused operations, at most k roundings on the way of a product) and whose snrm2 is right up to a relative error e * 2^-24: vectors that are zero or of a norm between 2^-50 and 2^63 have a distance that is finite, not negative and within (k + 2e + 11) * 2^-24 of 1 minus the cosine, zero vectors are recognised exactly, searches return the right vectors in the right order up to that error, and sums of embeddings are the same as without the feature. Unlike without it, the distance can panic: for a vector with a zero component and a norm below 2^-129.", "quantifier": "all vectors, all BLAS libraries meeting the stated condition, all orders of summation, all histories of builders", "why_tests_cant": "The order in which a BLAS library adds depends on the library, the processor and the dimension.", "anchors": ["src/math.rs: dot_product_f32, sum_into_f32, normalize_f32 (feature blas)", "src/elements/angular.rs: dist, Vector::from"]}
{"id": "C83", "title": "Assertions of debug builds", "statement": "In a build with debug assertions (cargo build without --release) indexing on one thread does exactly what a release build does, and a build by several threads that returns, returns something a release build can return. But a debug build can panic where a release build cannot: when several threads build, the task of an element reads its own empty row a second time before it writes to it, and another task may have linked the element in between; nothing else in a build can fail. Neighbor lists are stored and read as in a release build as long as they have fewer than 255 ids; storing a longer one panics. Vectors of a fixed width are read as in a release build unless the width is 0.", "quantifier": "all builders with any history, all interleavings of the workers, all lists of neighbors, all tables of offsets", "why_tests_cant": "The race needs a particular schedule; tests run in debug mode mostly pass.", "anchors": ["src/index/mod.rs: index_element, initialize_node, build_partial", "src/slice_vector/offsets.rs: Chunk::get, Offsets::get_consecutive, push", "src/slice_vector/set_vector.rs: decode_into, set_encode, delta_decode", "src/slice_vector/mod.rs: get, get_mut"]}
{"id": "C84", "title": "Only the order of distances matters", "statement": "A search finds the same ids in the same order, and a build can build the same graphs (on one thread: builds the same graph), whenever the distances are changed so that of any two pairs of elements the same one is farther apart and the same pairs are nearer or farther than the threshold for zero elements: squared distances, say, in place of distances. The distances returned change accordingly.", "quantifier": "all graphs, collections, distance functions, queries and parameters; all programs of pushes and builds, by any number of threads", "why_tests_cant": "Ranges over all distance functions and all interleavings of the workers.", "anchors": ["src/index/mod.rs: search_internal, search_for_neighbors, index_element, select_neighbors, add_and_limit_neighbors", "src/max_size_heap.rs: push"]}
{"id": "C85", "title": "The sizes of the layers do not depend on how a build was split up", "statement": "If layer_multiplier, and an expected_num_elements that is not exceeded, are the same throughout, the number of layers and of nodes in each are determined by the number of indexed elements: they are the same for an index built at once and for one built in any number of steps, with pushes, saves, reloads and reorders in between. Without expected_num_elements this is not so: the upper layers stay as small as they were planned for the number of elements at the time.", "quantifier": "all histories of two builders, of any elements, with one plan of layer sizes, any interleavings of the workers", "why_tests_cant": "Ranges over all histories.", "anchors": ["src/index/mod.rs: build_partial, index_elements_in_last_layer, compute_num_elements_in_layer, BuildConfig::expected_num_elements"]}
{"id": "C86", "title": "How much room the layers of an index take", "statement": "With a layer_multiplier m above one, the nodes in a layer and the room that build_partial(num) reserves in it are together at most m * num, however many elements are expected (for a builder with any history and L layers, at most m^L more); with a multiplier of exactly one, room for all expected elements is reserved at the first. An index of n elements with L layers, built with one plan throughout in any number of steps, has L at most log_m n + 2, and the layers above the last have together at most n m/(m-1) + L - 1 nodes, and at most n/(m-1) + L - 1 if all the expected elements are indexed.", "quantifier": "all histories of builders with one plan of layer sizes, all multipliers above one, numbers of elements and interleavings", "why_tests_cant": "Ranges over all histories, multipliers and numbers of elements.", "anchors": ["src/index/mod.rs: build_partial, index_elements_in_last_layer, compute_num_elements_in_layer", "src/slice_vector/mod.rs: reserve_exact"]}
{"id": "C87", "title": "Elements that are not indexed make no difference", "statement": "A search in a graph of n nodes looks at the first n elements of the collection only: with other elements behind these, or none, it finds the same. Indexing does not look at later elements either: if expected_num_elements is set and not exceeded, build_partial(num) can lead to the same layers, and cannot panic, whatever elements there are behind those that were there; pushing an element and then calling build_partial for elements before it can lead to exactly the builders to which calling it first and pushing then can lead. So any sequence of pushes and of calls of build_partial (for no more elements than are there at the time) can lead to exactly what the same calls of build_partial lead to with all the elements there from the start. On one thread the layers are the very same.", "quantifier": "all graphs, collections, queries and parameters; all histories of builders, elements pushed and interleavings of the workers", "why_tests_cant": "Ranges over all histories and all interleavings of the workers.", "anchors": ["src/index/mod.rs: search_internal, search_for_neighbors, find_entrypoint, build_partial, index_elements, index_element, select_neighbors, add_and_limit_neighbors, push"]}
{"id": "C88", "title": "Scaling a vector by a power of two changes nothing", "statement": "As long as nothing overflows or underflows, a vector multiplied by a power of two (more generally, by a factor that commutes with rounding) is converted to the same stored vector, to the last bit, as the vector itself, whether stored as f32 or quantised to i8; so all distances to it, and with them all searches for it and all indexes built from it, are the same. For other factors, even three, the quantised vector can change. Reversing two vectors does not change their distance, to the last bit.", "quantifier": "all vectors of all dimensions, all powers of two, all rounding functions with a relative error below one", "why_tests_cant": "Ranges over all vectors and scales; tests with a tolerance cannot see the last bit.", "anchors": ["src/math.rs: dot_product_f32, normalize_f32", "src/elements/angular.rs: Vector::from, dist", "src/elements/angular_int.rs: quantize, Vector::from"]}
