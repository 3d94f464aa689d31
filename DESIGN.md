# Formal model of granne/granne in Lean 4

Sources: `/repo` (Rust, version 0.5.2), read as text. Nothing is executed. All paths below are relative
to `/repo`.

## Layout

* `lean/Verif/Util/*`    generic list/byte lemmas, nothing about granne.
* `lean/Verif/Model/*`   the model. Every definition cites file and lines. No theorems about properties.
* `lean/Verif/Spec/*`    small, model-independent vocabulary used in the property statements.
* `lean/Verif/Proofs/*`  helper lemmas.
* `lean/Verif/Props/*`   the property theorems (`Cnn_...`), with non-vacuity examples beside them.
* `properties.jsonl`     the properties; `MANIFEST.json` property → theorems; `seeded/LOG.jsonl` mutation log.

## Modelling conventions (simplifications common to all modules)

* `usize` is `Nat` (64-bit, no overflow: sizes are bounded by memory); `u32` ids are `Nat` with explicit
  `try_from` checks (`2^32`), `u8` is `UInt8` or `Nat < 256`, `u16` deltas are `Nat` with the `u16::MAX` sentinel explicit.
* A panic (`assert!`, `unwrap`, slice index, `expect`) is `none` in `Option` (or the `fail` constructor of the
  thread programs). Debug-only assertions (`debug_assert!`) are not part of the release semantics; where
  debug and release differ, this is said at the definition.
* `&mut` functions return the new value. `Cow`/mmap/borrow are identity on contents (`File(mmap)` reloads on every
  use: modelled as the loader applied to the bytes).
* Distances `NotNan<f32>` are an arbitrary type `D` with a linear order: search and build use only comparisons.
  (`-0.0 == 0.0` is identified.) Element containers are a list of elements with an arbitrary `dist : E → E → D` (not assumed
  symmetric unless a theorem says so), and with either order of arguments in the batch method `dists` (`BatchOrder`).
* `BinaryHeap` is modelled by a list sorted by the element order, `HashSet` by a duplicate-free list/membership: only
  their abstract behaviour (pop returns the maximum) is used. `(NotNan<f32>, usize)` is compared lexicographically.
* Sorting: `sort` (stable) is `List.insertionSort` (any stable sort gives the same list); `sort_unstable_by_key` (result order of ties unspecified) is an arbitrary
  function constrained only to return a sorted permutation.
* Debug assertions are modelled separately in `Model/Debug` (C83), except for those mentioned there.
* Threads: the worker tasks of `index_elements` are programs over per-row lock operations (`Prog`); an interleaving picks
  any thread and executes its next lock-protected operation atomically. This is what `parking_lot::RwLock` guarantees
  (trusted); memory-model effects below that are not modelled.
* Floating point: the distance functions are written once over an interface `FloatOps` and interpreted four ways:
  exact (`ExactF` = `Option ℝ`, `none` = NaN), rounded (`roundedOps fl`: every operation followed by an arbitrary rounding
  function `fl` with relative error `u`; no overflow, no underflow), with the concrete `fl32` (24-bit round to nearest,
  unbounded exponent), and as IEEE 754 binary32 (`Model/F32`: ties to even, subnormals, overflow, infinities, NaN; only the two
  zeros are identified, which no operation used here can tell apart: divisors are square roots and absolute values). The layer-size formula is over `ℝ`, and again with unknown rounding under the bounds `FloatOk`.
  Everything else is independent of float behaviour.
* Text is `List Char`: gzip is not modelled (`Model/Text`, `Model/Words`, `Model/Parsing`). UTF-8 is, for the words files of sessions
  (`Model/PyText`, with `String.fromUTF8?` of Lean as the decoder).
* Progress bars, printing, timing, madvise and memory safety (except bounds and alignment of the slices of `load_bytes_as`, C72) are
  not modelled.
* Allocations succeed. (In particular `max_search` is small enough for the room a search reserves up front, see C69_reserve.)
* Index arithmetic such as `idx * width` is without overflow.

## Scope: which code is modelled

Every function of `src` and `py/src` outside `#[cfg(test)]` modules, by file. `tools/coverage.py` lists the functions and the model comments that
cite them; the ones without citation are trait declarations without a body, and those named here as not modelled.

| File | Modelled in | Not modelled |
|---|---|---|
| `src/index/mod.rs` | Search, Build, Builder, Sequential, Cost, History, Schedule, IndexIO, Reorder, Views, Debug | progress bars; borrowing and copying (`borrow`, `to_owned`, `get_index`) are the identity on values |
| `src/index/io.rs` | IndexIO, File, Json, OpenFile, BufWriter, RwSave | the operating system's reasons for a failing read or write (every write may fail) |
| `src/index/reorder.rs` | Reorder, Keys | progress bars |
| `src/index/rw/*.rs` | Rw, RwSave | the thread pool (any number of workers, any order) |
| `src/elements/mod.rs`, `dense_vector.rs` | Search (`Elements`), FixedWidth, Scalar, Views | Rust's type parameters: one model per scalar type |
| `src/elements/angular.rs`, `angular_int.rs`, `src/math.rs` | Math, Rounded, F32, Bits, PyTools, Blas | the BLAS library itself (a parameter, Spec/Blas) |
| `src/elements/embeddings/mod.rs` | Embeddings, TextIndex, Views | - |
| `src/elements/embeddings/parsing.rs` | Text, Parsing, Tools | gzip (decompression is an arbitrary function), printing |
| `src/elements/embeddings/reorder.rs` | Keys | - |
| `src/slice_vector/*.rs` | FixedWidth, VarWidth, Offsets, SetVector, StreamVByte, Views, Debug | `advise` calls; `par_iter` is the list of rows |
| `src/io.rs`, `src/odd_byte_int.rs`, `src/max_size_heap.rs` | Scalar, Views, OddByteInt, Heap | - |
| `py/src/*.rs` | Py, PyText, PyTools, Words, Text | conversion of Python objects to Rust values, exceptions other than the panic they stand for |
| `src/lib.rs`, `src/test_helper.rs`, `examples`, `benches`, tests | - | no code a user's result depends on |

The external crates are not modelled but assumed (see Trusted base).

## Properties: what is modelled and how it is proved

| id | model | proof |
|----|-------|-------|
| C01 | `Model/Search` (search_for_neighbors as a `Prog`, heap as sorted list, visited set) | loop invariant over the search state |
| C02 | same, panics explicit, fuel = layer size + 1 | measure: unvisited nodes; fuel never runs out; `max_search = 0` panics |
| C03 | same | invariant "visited = pushed", worklist closure ⇒ reachable set returned |
| C04 | same | invariant relating visited, pq, res and current worst |
| C05 | same | congruence: one step depends on the neighbor list only up to permutation/dup |
| C06,C13 | `Model/{StreamVByte,SetVector,Offsets,File,Json,IndexIO}`: byte-level writer with seeks, JSON text, loader | codec round trips composed |
| C07 | C05 + C06 | corollary |
| C08 | same as C06, compressed writer | equality of byte strings |
| C09 | `Model/IndexIO` effect trace of write_index (list of positioned writes), crash = prefix, torn write = prefix of a write | parser rejects NUL bytes; header missing |
| C10 | `Model/BufWriter` failing writer | negative theorem with witness for every index; partial positive theorem |
| C11 | `Model/{StreamVByte,SetVector}` | algebraic round trip; negative theorem for > 255 |
| C12 | `Model/Offsets` | refinement to a list of offsets by induction on pushes; negative theorem for 65535 |
| C14,C15 | `Model/Builder` as relation over schedules | invariant over operations; loop termination from the layer schedule |
| C16–C19 | `Model/{Prog,Build}` interleaving semantics | rely/guarantee style invariant over all interleavings |
| C20 | `Model/Build` (select_neighbors) | induction on candidates |
| C21 | Builder + IndexIO | corollary of C06 |
| C22 | `numElementsInLayer`: the formula over `ℝ` (`Real.logb`, `rpow`, floor, ceil); `numElementsFloat`: the same with unknown rounding of log, powf and division, under weak bounds `FloatOk` | analysis; sizes of built layers by induction over the build loop |
| C23 | Builder | invariant |
| C24–C26 | `Model/Reorder` | sorting lemmas, isomorphism invariant for the search loop |
| C27 | same | negative theorem + partial positive |
| C28 | `Model/FixedWidth` permute (cycle following) | loop invariant over cycles |
| C29,C30 | `Model/FixedWidth` | refinement to list of lists; byte round trip |
| C31–C33 | `Model/{VarWidth,OddByteInt}` | refinement, byte round trip |
| C34,C35 | `Model/Parsing` | arithmetic of chunks; negative theorem |
| C36 | `Model/Embeddings` over a commutative monoid | induction |
| C37,C38,C40 | `Model/{Math,Rounded}`: exact, and rounded with any rounding function | Cauchy–Schwarz etc. |
| C39 | `Model/Math` with wrapping i32 | bound |
| C41,C42 | `Model/Rw` state machine, one transition per lock-protected section | invariant over all interleavings |
| C43 | `Model/Rw` parking_lot policy (a queued writer blocks new readers) | reachable deadlock (witness) + freedom without recursion (partial) |
| C44 | `Model/Rw` search | negative theorem + soundness |
| C45 | `Model/Words` (hash map = function to `Option`, `split_whitespace`) | invariant over append histories; counterexamples for empty vectors and words with spaces |
| C46 | `Model/Math` i8 distance, NaN explicit | C39 + Cauchy–Schwarz over `ℝ` |
| C47 | `Model/{Text,Words}`: JSON quoting/unquoting, `lines()` | round trip by induction over the characters; a cut file (C47_truncated): UTF-8 is a prefix code, no proper prefix of a quoted string is one |
| C48 | `Model/Parsing` | induction over lines and files, exact success condition |
| C49 | `Model/{Prog,Build,Builder,History}` | rely/guarantee: a task that finishes leaves its element linked, rows never become empty again |
| C50 | same + `Model/Search` | in a small collection no link is ever dropped (no row is full), so every edge made stays in both directions; then C03. One build: `FitsOneBuild`; one element more: a concrete build that loses an element |
| C51,C52 | `Model/F32`: IEEE binary32 on reals with explicit infinities and NaN; the same `normalize`, `angularDist`, `quantize`, `angularIntDist` | accumulation tree of the dot product (`Proofs/DotTree`), relative errors in the normal range, absolute ones below |
| C53,C54 | `Model/Concrete`: the `Elements` of `angular` and `angular_int` with the arithmetic of `Model/F32` | the error bounds of C51/C52 below the zero threshold decide `IsZero` exactly; then C01, C02, C16, C19, C49, C50; perturbation of cosines (`Proofs/QuantError`) |
| C55,C56 | `Model/Keys`, `Model/TextIndex`: keys, `SumEmbeddings` as elements, text push/search/reorder | merge sort by norm is a permutation, sorted, with reversed ties (`Proofs/Keys`); norm error (`Proofs/KeysNorm`); C24, C28, C31, C45 |
| C57 | `sumElements`: `SumEmbeddings` with the arithmetic of `Model/F32` | error of a left-to-right binary32 sum per component (`Proofs/Sums`), perturbation of cosines, then C51, C53, C50, C49 |
| C58 | `Model/Text`, `Model/Words`, `Model/Parsing` against the formats of `Spec/Format` | the readers decide the inductive formats (`Proofs/Format`) |
| C59 | `Model/Search` | lockstep: without ties both searches pop the same nodes in the same order until the smaller one stops (`Proofs/Mono`) |
| C60 | `Model/Rw` | the rely/guarantee proof of C49/C50 carried over to tasks of concurrent inserts (`Proofs/RwLinked`); a search whose heap cannot fill up visits everything reachable when it started, because neighbors are only added meanwhile (`Proofs/RwFinds`) |
| C61 | `Model/Py`, `Model/Bits`: sessions of the Python module over a file system, vectors as `f32` bit patterns | one invariant of a builder along any run (`Proofs/Py`: its vectors are the converted ones, its layers reachable in the sense of the history model); then C14, C18, C22, C06-C08, C30, C53, C54 |
| C62 | `Model/Py` | an object's answers depend on itself and the files it maps; no call adds such files |
| C63 | `Model/Py`, `Model/Reorder` | the opened index satisfies the hypotheses of C24-C26; compressed layers are saved and loaded unchanged |
| C64,C65 | `Model/PyText`: sessions of `Embeddings`, text builders and text indexes over a file system | an invariant per kind of object along any run (`Proofs/PyText`, `Proofs/PyTextBuilder`), then the theorems on storage, words, sums and search (C28, C31, C45, C56, C57, C61) |
| C66 | `Model/PyText`, `Model/Keys`, `Model/Reorder` | the opened text index satisfies the hypotheses of C24, C55; the order by keys is unique and idempotent (C24_reorder_by_keys_again) |
| C67 | `Model/PyText` | as C62: what an object reads only shrinks along a run, answers depend on the object and what it reads |
| C68 | `Model/Sequential` (the build on one thread as a function) | each task run to its end equals the steps of the in-order schedule; that schedule is one of the interleavings; determinism by induction over the loop; two concrete runs evaluated for the negative part |
| C69 | `Model/Cost` (search with a record of distance computations and reads) | erasing the record gives `Model/Search`; invariant: computed = visited, read = popped |
| C70 | `Model/Json` (the reader of serde_json), `Spec/Json` (grammar on bytes) | soundness by induction on the fuel, completeness by induction on the length |
| C71 | `Model/OpenFile`: searches that decode lists on demand, wrapping offsets | a layer read on demand behaves like a list graph whose unreadable nodes point to an element that does not exist; C01 applies |
| C72 | `Model/Views`: addresses, sizes and alignments of the slices | arithmetic along the layers; counterexample: the saved index of C06 |
| C73 | `Model/RwSave`: effects of the concurrent builder's save on two files | a prefix of the effects leaves a prefix of the elements (C30, C32 truncated) and a prefix of the index effects (C09); a search that can compute fewer distances panics or answers the same |
| C74 | `Model/PyTools`: compute_distance on bit patterns | conversion determines the stored scalars up to patterns that distances do not see; then C46, C51, C52 and the search theorems C61 |
| C75 | `Model/Tools`: the functions of parsing.rs on a file system | sorting makes the listing order irrelevant; shard names are injective in the number; a binary file has a zero byte, which no JSON string has; induction over the 100 chunks gives the rows written before a panic |
| C76 | `Model/Rw`: readers (`get_elements`, `get_element`, `len`) as calls that hold the lock of the elements for a while | what a thread has seen stays a prefix of the elements (tracked through all steps) |
| C77 | `Model/History`: histories with a constructor for save, open, reorder, save, open as a builder | renaming the nodes by a permutation that preserves layers and fixes 0 preserves the invariant of builders and the links (`Proofs/{Renaming,Histories,LinkedBuild}`); the opened builder is the renamed one with its lists sorted |
| C78 | `Model/Math`: `chunks_exact`, `remainder` and `zip` on lists of different lengths | the zips of the chunks and of the remainders are those of vectors of the same length (`usedWith`), for any arithmetic; then exact arithmetic as in C37 |
| C79 | `Model/{Build,Builder,History}` | every program of a worker has a budget (`Prog.Within`): its updates, on any rows, fill at most that many slots; used slots plus budgets never increase along an interleaving; then induction over rounds, calls and histories |
| C80 | `Model/Heap` | induction over the pushes: the heap is the sorted list of the `k` smallest elements so far, split off from a rest that is at least as large |
| C81 | `Model/IndexIO`, `Model/SetVector`, `Model/StreamVByte`: the bytes written | the file is metadata, tables and encoded lists; a list is stored raw or encoded, whichever is shorter |
| C82 | `Model/Blas`: the functions of the feature `blas` over an arbitrary library | the error analysis of C51 for any order of summation; assumptions on the library in `Spec/Blas` |
| C83 | `Model/Debug`: storage, `index_elements` and `build_partial` with the debug assertions checked | a task with assertions either takes a step of its own (the assertion) or the step of the task without (`Proofs/Debug`); the offsets stored are never the marker |
| C84 | two collections with distances in the same order; `search`, `build_partial`, programs of pushes and builds | the heap, the scan, the selection and the connection of nodes commute with a strictly increasing function, so the task of an element is the same program (`Proofs/Rescale`); any two such collections are images of one (`Proofs/RescaleBuild`) |
| C85 | histories with the same plan of layer sizes and expected number throughout; new, push, `build_partial`, reload, reorder | invariant of such histories: layer i has min(indexed, planned i) nodes, and a further layer exists only where fewer than indexed are planned (`loop_sizes`, `continue_ok`); these determine the list of sizes. Two concrete programs without expected number that end in different sizes |
| C86 | `Model/Reserve`: the room reserved by `index_elements_in_last_layer`, the states on which `build_partial` calls it | invariant of the rounds of a build (C85); the plan of a layer is at most m times that of the layer above, which is below `num` when a layer is added; upper layers by a geometric sum |
| C87 | `search` with two collections that agree on the first n elements; `build_partial` with and without further elements | `Proofs/Append`: everything that succeeds with the shorter collection gives the same with the longer one (programs ordered by "same unless it panics", simulation of interleavings in both directions); exact because nothing panics with the shorter one |
| C88 | `Model/{Math,Rounded}`: `normalize` and `quantize` with a rounding function | `Proofs/RoundedScale`: every intermediate result is scaled by the factor or its square; the norm is computed as zero only for the zero vector |

## Observations about the code (recorded while reading)

1. `search` with `max_search == 0` on a non-empty index panics (`peek().unwrap()` on an empty full heap).
2. `write_index` drops its `BufWriter` without flushing: the last flush error is lost (C10).
3. `set_encode` truncates lists longer than 255 in release builds (C11).
4. `Chunk::push` admits a delta equal to the sentinel 65535 (C12); unreachable through `MultiSetVector` because an encoded
   list has at most 1021 bytes.
5. `reorder` panics for fewer than two layers, and (after already replacing the layers) when the index covers only a prefix of
   the elements (C27).
6. `reorder_by_keys` moves element 0, the fixed entry point, so search results can change (C26).
7. `find_entrypoint_trail` reads `eps[i]` (always 0) where `eps[i-1]` is probably meant; it only affects sort keys.
8. `parse_elements_and_save_shards_to_disk` panics for some n, s (C34).
9. `FixedWidthSliceVector::write` returns the byte count without the 8 byte header; `VariableWidthSliceVector::write_range` likewise.
10. `Vectors::new()` written and loaded panics (width 0).
11. `RwGranneBuilder::insert_batch` recursively acquires `write_lock.read()` (C43).
12. `RwGranneBuilder::search` returns nothing while only one layer exists (C44).
13. The doc of `Permutable::permute` states the inverse direction of what both implementations do.
14. `index_elements_in_last_layer` compares `ideal < expected` although the schedule uses `max(expected, elements.len())`.
15. A race of two `insert_batch` calls at the capacity boundary can create a redundant extra layer; harmless for C41/C42.
16. After reloading an index with a smaller layer multiplier, the first insert of the concurrent builder can panic and leaves the
    last layer shrunk (C41_plan_must_fit).
17. `RwGranneBuilder::write` writes the elements through a `BufWriter` that is dropped without flush (same as 2).
18. `dot_product` on vectors of unequal length is silently wrong, not a panic (C38_unequal_lengths).
19. `quantize` in f32 can map the largest component to 126 instead of 127 (e.g. 1.1; C40_f32_max_becomes_126); the
    `debug_assert` on the result does not notice.
20. `Embeddings.append` of an empty vector takes a word id but stores no embedding: all later words are shifted (C45).
21. A words file with a duplicate: the last id wins (C47_duplicate_word_last_wins); `append` never creates one.
22. Python `compute_embeddings_and_save_to_disk` registers the parameters as `(embeddings_path, elements_path, ...)` but calls a
    function with `(elements_path, embeddings_path, ...)`: keyword arguments are swapped (py/src/lib.rs:43-55, 132-143).
    Not modelled (rust-cpython macro).
23. `compute_embeddings_and_save_to_disk` with no elements writes a header of dimension 0, which does not load (C35_no_elements).
24. A file of `Vectors` truncated at a vector boundary loads silently with fewer vectors (C30_truncation_is_silent).
25. `reorder` that panics on a partial index has already replaced the layers but not the elements.
26. src/index/mod.rs:887 `debug_assert_eq` compares a value read outside the lock: debug builds may panic under a race
    (C83_debug_build_can_panic; it is the only assertion of a build that can fail, C83_only_this_assertion).
27. An element skipped as a near-duplicate while an upper layer is built counts as already indexed in the copies of that layer
    below, so it is never linked in any layer unless `reinsert_elements` is set.
28. f32 vectors with tiny (all below 2^-76) or huge (above 2^64) components are treated like the zero vector: distance 1 to
    everything, themselves included (C51_tiny_and_huge). An infinite component makes every distance panic (C51_panics_iff).
29. `quantize` computes `x * 127 / max`, which overflows for components above 2^121: they become 127 or -128 whatever their size
    (C52_quantize_overflow). In debug builds the conversion of a zero vector panics (C52_quantize_zero).
30. A `layer_multiplier` strictly between 0 and 1 is accepted and makes `build` of two or more elements add one-element layers
    for ever (C22_multiplier_below_one).
31. The threshold `100 * f32::EPSILON` for zero elements and near-duplicates is sound for `f32` vectors up to 1118 dimensions (`ModestDim`): the
    error bound of C51 is just below it (C53_skipped_iff_zero). Vectors outside the range of C51 (all components below `2^-76`) are
    taken for zero vectors and left out of the index, although their cosines are defined (C51_tiny_and_huge, C19).
32. `get_key` sorts ascending by norm and reverses: of terms of equal norm the later one comes first (C55_keys). An element
    with one unknown term does not panic there, one with two does (C55_panics_iff).
33. A text search with the empty string goes through the branch for lists of numbers (an empty Python string extracts as an
    empty list) and searches with an empty vector; the result is the same as for a text without known words (C56_unknown_text).
34. If elements are equally far from the query, a larger `max_search` can give worse results (C59_ties_can_hurt): the heap of
    results rejects the newcomer of a tie, the heap of candidates keeps both, and which one is visited first differs.
35. py/src/lib.rs documents `num_neighbors` (default 20) for `GranneBuilder`; the default is 30. `GranneBuilder(index_path=..)` without
    `elements_path` panics, and so does `get_neighbors` without layer on an index without layers.
36. `save_elements`/`save_index` of an object onto the file it was opened from: the file is created (truncated) before it is read;
    the data is lost and the process gets SIGBUS (C62_overwrite_index, C62_overwrite_builder).
37. `append([])` on an empty builder is accepted and silently lost (a vector of dimension 0 does not count).
38. Saving the elements first, appending and building more and then saving the index gives an index that refers to elements
    that the elements file does not have; `Saved` (Spec/Py) excludes it.
39. With the default layer multiplier an index of fewer than 15 vectors has one layer (C61_two_layers), so `reorder` panics on
    it (C63_reorder_panics).
40. `Embeddings.save_embeddings` onto the file the object was opened from loses the file and kills the process unless a word was
    added first (C64_save_over_own_file). Files of an `Embeddings` without words cannot be opened (C64_empty_does_not_open).
41. `reorder` of a text index sorts texts without known words in front. If one of them becomes element 0, the entry point of all
    searches, every search finds only this text, because texts without words have no neighbors
    (C66_wordless_text_breaks_search).
42. The parallel build is not reproducible (C68_parallel_differs); with the feature `singlethreaded` it is (C68_reproducible).
43. With `num_neighbors + 2` elements an element can end up in nobody's neighbor list and is then never found, whatever
    `max_search` is (C50_bound_is_sharp).
44. Every search reserves room for `max_search` results and `20 * max_search` visited ids before it looks at the index
    (C69_reserve). A `max_search` near the size of the memory aborts the process although the search itself would touch at most
    all elements (C69_total); allocations are assumed to succeed everywhere else (e.g. C02).
45. The numbers of elements in the header are never compared with the layers, nor the number of layers with the number of
    `layer_sizes`: a header that contradicts the layers is accepted (C70_accepted_iff, C70_only_sizes_matter). `num_neighbors`
    in the header is the number of neighbors of element 0, not the configured maximum (C70_saved_header).
46. The layers of an index file are written one after the other without padding, so the table of offsets of the second and
    further layers usually lies at an address that is not a multiple of 8, and the cast of src/io.rs:4-9 makes a misaligned
    `&[Chunk]`, which is undefined behavior in Rust (C72_index_misaligned, exact condition: C72_index_aligned_iff_partial).
    x86 tolerates it.
47. `RwGranneBuilder::write` (src/index/rw/mod.rs:77-96) never flushes the `BufWriter` of the elements: the last part of the
    elements (all of them for a small collection) is written when the writer is dropped, after the index. A process that dies
    in between leaves a complete index without elements (C73_elements_missing, C73_opens_without_elements), and a failure of
    that write is swallowed: the save reports success (C73_failure_unnoticed).
48. `save_index_and_elements_to_disk` (src/index/rw/mod.rs:63-68) truncates the old elements before it knows that the index
    file can be created, and both before it waits for the lock: a failing or waiting save has already destroyed the old files.
49. `get_shard_name` (src/elements/embeddings/parsing.rs:50-61) gives the outputs `x` and `x.bin` the same shards (C75_shard_names_clash).
50. `compute_embeddings_and_save_to_disk` (src/elements/embeddings/parsing.rs:103-152) creates the output while its inputs are mapped: an output that is the
    elements file kills the process and loses the elements (C75_compute_in_place). If it panics half-way (an unknown term, a NaN) the
    buffered chunks are written while unwinding, and the file that is left loads as a shorter list of vectors (C75_compute).
51. flate2's `GzDecoder` reads only the first member of a `.gz` file: parts made by concatenating compressed files lose all lines but those
    of the first (not modelled: decompression is an arbitrary function).
52. The zero test (distance to itself above `100 * f32::EPSILON`) is not sound in every dimension: the rounding errors of the norm and of
    the dot product can add up. A vector of 3072 components (31 times 2933, 2040, then 95 times 31 times 727/1024 and a 0; all exact in
    `f32`) has computed distance `201 * 2^-24` to itself, so it is taken for a zero element, never linked and never found
    (C53_dimension_3072, C53_lost_vector; checked with gcc's `fmaf`, and the all-ones vector of dimension 28640 suffers the same). Up to
    1118 dimensions, and for 1536 and 2048, this cannot happen (C53_skipped_iff_zero).
53. `RwGranneBuilder::get_elements()` returns the read guard of the elements. A caller that searches (or calls `get_element` or `len`)
    while it has the guard takes the lock a second time; if an insert queued in between, both wait for ever (C43_violated_guard). A
    caller that inserts while it has the guard waits for itself (C76_insert_waits).
54. Nothing checks that a searched vector has the dimension of the stored ones. The kernels zip the chunks of 32 (resp. 64) components and
    then the remainders, so the search computes with some other pair of vectors and no error is reported (C78; positions are even mixed:
    component 0 of the one with component 32 of the other, C78_positions_mixed). With the feature `blas` `sdot` is called
    with the length of the first vector, and reads past the end of a shorter second one.
55. `Vectors::permute` (src/slice_vector/mod.rs:437-458) checks the length of its argument only. With a list that is no permutation it
    never returns: it panics (an index out of range, or `get_two_mut` for a position that refers to itself) or follows a cycle for ever,
    for example for `[1, 2, 1]` (C28_permute_no_permutation, C28_permute_runs_forever, C28_permute_panics).
56. src/math.rs:153-159: with the feature `blas` `normalize_f32` multiplies by `1.0 / norm`, which is infinite for a norm up to `2^-129`
    that is not zero. Zero components become NaN, and the distance to such a vector panics (C82_tiny_vector_panics). Without the
    feature it divides, and no finite vector makes a distance panic (C51_finite_never_panics).
57. The upper layers are planned when they are filled. Without `expected_num_elements`, pushing and building in steps leaves them as small as
    they were planned for the elements there were (C85_expected_number_needed): an index grown from a few elements has another shape than
    one built at once. With it the shape does not depend on the steps (C85_same_shape), and it costs no room in advance (C86_reserved)
    unless the multiplier is one (C86_multiplier_one).

## Trusted base

Lean 4.33 kernel; axioms `propext`, `Classical.choice`, `Quot.sound` only (checked by `vcheck`); `AXIOMS.md` (made by `tools/axioms.py`) lists
them theorem by theorem. The reading of the Rust source.
The assumed behaviour of external crates as written at the definitions: `stream-vbyte` (Scalar encode/decode), `byteorder`
(`write_uint` panics when the value does not fit), `serde_json` (compact printing with keys in BTreeMap order; a reader that is proved to accept exactly the
JSON texts nested at most 127 deep, C70, up to numbers beyond the range of `f64`),
`BufWriter` (8 KiB buffer, write-through of large writes, silent flush on drop), files as byte arrays with positioned writes,
`parking_lot` locks, `rayon` (each item processed exactly once), std collections and sort.

## Mutation tests

`tools/mutate.py` applies the edits of `seeded/round*.py` to a copy of `lean/`, rebuilds and records which theorems fail
(`seeded/LOG.jsonl`). `seeded/automut.jsonl` records edits chosen at random: 213 of 221 broke a theorem at the time. Of the other 8, five do not change
what is claimed (a larger search effort when reinserting, the decoding of lists of the wrong length, twice, the fuel of the JSON
parser, a product of bytes being 2^31); the other three led to C75_compute_fails, to the bound in C75_compute_over_embeddings and
to the flags returned by `push` in C80_keeps_smallest.
