{"id": "C01", "title": "Bounded random draws are in range, deterministic and free of modulo bias", "statement": "uniform_below(n) returns a value v with 0 <= v < n and an advanced counter; the result is a function of (domain, seed, key, counter, n) only, and among the 64-bit words the rejection rule accepts every residue class v has exactly the same number of words.", "quantifier": "every bound n in 1..2^64-1, every 64-bit digest function, every seed, key and start counter", "why_tests_cant": "the set of 64-bit words and of bounds is far too large to enumerate; a bias is a counting statement over all words", "anchors": ["dataset/core.py: uniform_below, random_u64, rng_digest"]}
{"id": "C02", "title": "RNG identities never collide before hashing", "statement": "Two different (domain, seed, key, counter) identities are never serialised to the same digest input bytes, and no serialised value is a proper prefix of another, so no two samples/streams share random decisions because of an encoding ambiguity.", "quantifier": "every pair of values built from None, bool, 64-bit ints, strings, bytes and arbitrarily nested tuples/lists", "why_tests_cant": "quantifies over all pairs of unboundedly nested values", "anchors": ["dataset/core.py: _tlv, rng_digest"]}
{"id": "C03", "title": "Optimised RNG paths return exactly the scalar API's values", "statement": "The prefix-sharing, batched and packed-row draw routines used on hot paths return, element by element, the same values as calling the scalar draw for each sample key.", "quantifier": "every seed, epoch, key list, counter and bound; every 64-bit hash", "why_tests_cant": "a divergence only for rare rejection paths or particular keys cannot be found by sampling", "anchors": ["dataset/core.py: _counter_rng_base, _uniform_below_from_base, _uniform_below_for_processed_sample_keys, _uniform_below_for_packed_processed_rows_v2"]}
{"id": "C04", "title": "Deterministic permutation is a permutation", "statement": "deterministic_permutation(n, ...) returns every index 0..n-1 exactly once, for every outcome of the random draws, and depends only on (n, seed, domain, key).", "quantifier": "every length and every sequence of random draws", "why_tests_cant": "n! outcomes for unbounded n", "anchors": ["dataset/core.py: deterministic_permutation"]}
{"id": "C05", "title": "Sample admission is per-sample deterministic, monotone in the rate and exact at the ends", "statement": "A sample is admitted or not as a function of its own key, seed and rate only; rate<=0 admits nothing, rate>=1 admits everything, and every sample admitted at a rate is admitted at every larger rate.", "quantifier": "every sample key, seed and pair of rates", "why_tests_cant": "quantifies over all keys and real rates", "anchors": ["dataset/core.py: sample_is_admitted"]}
{"id": "C06", "title": "Rank slices partition the global batch", "statement": "For a valid runtime context the slices taken by ranks 0..world_size-1 are disjoint, each has local_batch_size rows, and together they are exactly the global batch in order.", "quantifier": "every world size, batch size and global batch", "why_tests_cant": "unbounded topologies", "anchors": ["dataset/core.py: DatasetRuntimeContext", "dataset/planner.py: DatasetPlanner.local_slice"]}
{"id": "C07", "title": "Pipeline state encoding is lossless and canonical", "statement": "Decoding an encoded stage state gives back the state (sequences as tuples, dicts in sorted key order), and every blob the decoder accepts is the unique encoding of the value it returns.", "quantifier": "every value built from null/bool/int/str/bytes/float/tensor leaves, lists/tuples and string-keyed dicts", "why_tests_cant": "unbounded nested values; ambiguity with the reserved tag keys is a corner case", "anchors": ["dataset/core.py: _encode_pipeline_value, _decode_pipeline_value, encode/decode pipeline state"]}
{"id": "C08", "title": "Distributed metric statistics do not depend on partition or order", "statement": "Combining per-rank/per-batch sufficient statistics (sum/count, maximum) in any order and grouping and then finalising gives the same value as computing it on all rows at once.", "quantifier": "every multiset of rows and every partition of it into batches and ranks (exact arithmetic)", "why_tests_cant": "every partition and order", "anchors": ["dataset/core.py: SumCount, Maximum, SufficientStats", "trainer/base.py: _accumulate_evaluation_metrics"]}
{"id": "C09", "title": "Shuffle reservoir emits every offered item exactly once", "statement": "For any sequence of offered items followed by the final drain, the emitted items are a permutation of the offered items (nothing lost, duplicated or invented).", "quantifier": "every item sequence, capacity, byte budget and every outcome of the random draws", "why_tests_cant": "all sequences and all random outcomes", "anchors": ["dataset/shuffle.py: StreamingShuffleReservoir.offer, drain"]}
{"id": "C10", "title": "Shuffle reservoir stays within its item and byte budgets", "statement": "At every moment the reservoir holds at most `capacity` items whose sizes sum to at most `max_bytes`, its byte counter equals that sum, and offered = emitted + held; an item larger than the budget is rejected and leaves the reservoir unchanged.", "quantifier": "every reachable state", "why_tests_cant": "invariant over unbounded histories", "anchors": ["dataset/shuffle.py: StreamingShuffleReservoir"]}
{"id": "C11", "title": "Batched offers equal one-by-one offers", "statement": "offer_many and offer_zero_sized produce the same emitted sequence and the same final state as offering the items one at a time.", "quantifier": "every item list (sizes), chunking and reservoir state", "why_tests_cant": "all chunkings of all sequences", "anchors": ["dataset/shuffle.py: offer_many, offer_zero_sized"]}
{"id": "C12", "title": "Native packed reservoir equals the Python reservoir", "statement": "The C++/packed uint64 reservoir emits the same sequence and reaches the same state as the generic reservoir fed the same zero-sized items; a call that fails leaves it unchanged.", "quantifier": "every operation history and random outcome", "why_tests_cant": "refinement over unbounded histories", "anchors": ["dataset/planner_cpp/packed_shuffle.cpp", "dataset/packed.py", "dataset/shuffle.py"]}
{"id": "C13", "title": "Reservoir snapshots resume exactly and malformed ones are rejected", "statement": "Restoring a snapshot taken from any reachable state and continuing produces exactly the emissions of the uninterrupted run; restore refuses a snapshot whose counters, sizes or limits are inconsistent, so no inconsistent state is ever installed.", "quantifier": "every reachable state, every continuation, every snapshot value", "why_tests_cant": "every crash point and continuation", "anchors": ["dataset/shuffle.py: state, restore"]}
{"id": "C14", "title": "Ready buffer is a faithful FIFO", "statement": "Rows leave the ready buffer in exactly the order they were added for any chunking of additions and removals, and saving/restoring it loses nothing.", "quantifier": "every sequence of extend/pop operations", "why_tests_cant": "all operation sequences", "anchors": ["dataset/packed.py: PackedUInt64ReadyBuffer"]}
{"id": "C15", "title": "Dense NPZ source enumerates every row exactly once, independent of request sizes", "statement": "Reading an epoch from a dense NPZ source yields every (file,row) exactly once, file by file in manifest order, for any sequence of positive request sizes; global row numbers resolve to the right file and local row.", "quantifier": "every manifest of row counts (incl. empty files) and every sequence of request sizes", "why_tests_cant": "all manifests and chunkings", "anchors": ["dataset/npz_source.py: DenseNpzSource.next_envelopes, _resolve"]}
{"id": "C16", "title": "Rank sharding of rows is a disjoint cover", "statement": "With rank-sharded reading over world_size ranks each row is delivered on exactly one rank, in order.", "quantifier": "every row count and world size", "why_tests_cant": "all topologies", "anchors": ["dataset/npz_source.py: next_envelopes (rank sharding)"]}
{"id": "C17", "title": "Packed row records equal envelope records", "statement": "next_packed_records returns exactly the rows next_envelopes would return and leaves the same cursor.", "quantifier": "every cursor and request size", "why_tests_cant": "all cursor positions", "anchors": ["dataset/npz_source.py: next_packed_records"]}
{"id": "C18", "title": "Source cursor save/restore resumes exactly", "statement": "Saving a source cursor at any point and restoring it into a fresh source yields exactly the remaining records of the uninterrupted epoch; an invalid cursor is rejected.", "quantifier": "every position in every epoch, for dense, indexed, sequential and composite sources", "why_tests_cant": "every crash point", "anchors": ["dataset/npz_source.py, dataset/sequential_source.py, dataset/composite_source.py: save_cursor/restore_cursor"]}
{"id": "C19", "title": "Indexed NPZ rows map to the declared physical rows", "statement": "An indexed NPZ source delivers exactly the declared row indices of each file, in increasing order, and dropping the index table when it is the identity changes nothing.", "quantifier": "every list of strictly increasing row indices per file", "why_tests_cant": "all index tables", "anchors": ["dataset/npz_source.py: IndexedNpzSource"]}
{"id": "C20", "title": "Sequential source delivers every record of every file exactly once, in file order per file", "statement": "For any number of active streams and any read quantum, interleaved reading delivers each record of each assigned file exactly once and the records of one file in their order in the file.", "quantifier": "every list of files with arbitrary record lists, every active_streams and read_quantum", "why_tests_cant": "all interleavings for all file contents", "anchors": ["dataset/sequential_source.py: next_envelopes"]}
{"id": "C21", "title": "File-to-rank assignment is a partition", "statement": "Size-balanced assignment gives every file to exactly one rank, gives every rank at least one file when there are at least as many files as ranks, and no rank's load exceeds another's by more than one file's size.", "quantifier": "every list of file sizes and world size", "why_tests_cant": "all size lists", "anchors": ["dataset/sequential_source.py: rank file assignment"]}
{"id": "C22", "title": "Blend cycle honours the weights exactly", "statement": "In every blend cycle each child is chosen exactly `weight` times.", "quantifier": "every vector of positive integer weights", "why_tests_cant": "all weight vectors", "anchors": ["dataset/composite_source.py: _weighted_cycle"]}
{"id": "C23", "title": "Composite reading is chunk-independent and sync_length truncates exactly", "statement": "The record sequence of a composite source does not depend on request sizes; with sync_length it contains exactly min_i(n_i div w_i) complete cycles; without, it contains every child's records exactly once, each child in its own order.", "quantifier": "every children lengths, weights and request sizes", "why_tests_cant": "all lengths/weights/chunkings", "anchors": ["dataset/composite_source.py: _fill_cycle, _fill_cycles, next_envelopes"]}
{"id": "C24", "title": "Blend ratios become coprime integer weights in the same proportion", "statement": "The integer weights computed from the configured blend ratios are positive, have gcd 1 and are exactly proportional to the ratios.", "quantifier": "every non-empty list of positive rationals", "why_tests_cant": "all rational lists", "anchors": ["dataset/__init__.py: MultiIterativeDataset._integer_ratio_weights"]}
{"id": "C25", "title": "Evaluation visits every record exactly once as real", "statement": "An evaluation epoch emits batches of exactly the global batch size and one output shape each; the rows marked real are exactly the source records, each once; rows not marked real are copies of real rows of the same batch.", "quantifier": "every source, batch size, shape mix, chunking and shuffle outcome", "why_tests_cant": "all sources and tails", "anchors": ["dataset/planner.py: DatasetPlanner.next_batch, _next_uniform_batch, _next_packed_uniform_batch"]}
{"id": "C26", "title": "Training batches are full, homogeneous, and never repeat a record within a source cycle", "statement": "Every training batch has exactly the global batch size, a single output shape and no padding; every record of a cycle is emitted at most once, and per shape fewer than batch_size records are left over at the end of an unbudgeted epoch.", "quantifier": "every source and shape mix", "why_tests_cant": "all sources", "anchors": ["dataset/planner.py: DatasetPlanner.next_batch"]}
{"id": "C27", "title": "A step budget is met exactly by rank-sharded streams and never exceeded", "statement": "With steps_per_epoch=n an epoch of a rank-sharded stream consists of exactly n batches, only the last of them flagged last, the source being re-cycled as often as needed without losing or repeating a record within a cycle; a replicated stream yields at most n batches from a single pass; a source that stays empty raises instead of looping forever.", "quantifier": "every n, every source length", "why_tests_cant": "all budgets and lengths", "anchors": ["dataset/planner.py: next_batch, _finish_budget_epoch, refill"]}
{"id": "C28", "title": "Uniform fast paths equal the generic shape-queue path", "statement": "When all records have one output shape the uniform and packed planners emit the same batches as the generic shape-queue planner.", "quantifier": "every record sequence and batch size, train and eval", "why_tests_cant": "all sequences", "anchors": ["dataset/planner.py: _next_uniform_batch, _next_packed_uniform_batch, next_batch"]}
{"id": "C29", "title": "Planner resume is exact", "statement": "Saving planner state after any batch and restoring it yields the same future batches as the uninterrupted run.", "quantifier": "every source, point of interruption and continuation", "why_tests_cant": "every crash point", "anchors": ["dataset/planner.py: state, restore, state_dict, load_state_dict"]}
{"id": "C30", "title": "Stream commits are contiguous and transactional", "statement": "A commit succeeds only for a contiguous sequence of the next issued batch tokens; after any history of issue/commit/rollback the committed position is the concatenation of the committed batches, a rejected commit changes nothing, and after rollback exactly the uncommitted batches are issued again.", "quantifier": "every history of issue, prepare, commit, rollback operations", "why_tests_cant": "all histories", "anchors": ["dataset/planner.py: next_transactional_batch, prepare_commit, commit_prepared, rollback_uncommitted"]}
{"id": "C31", "title": "Prefetching does not change the batch stream", "statement": "With background decode workers the consumer sees exactly the batches of synchronous iteration in the same order, whatever order workers finish in; at most prefetch_batches batches are in flight, and a decode error surfaces at the position of the failing chunk.", "quantifier": "every worker completion schedule, prefetch depth, chunk size and batch sequence", "why_tests_cant": "all schedules", "anchors": ["dataset/source_dataset.py: _iter_prefetched, _iter_synchronous"]}
{"id": "C32", "title": "CUDA prefetch loader preserves order, is bounded and does not read past the terminal batch", "statement": "The device prefetch wrapper yields the loader's batches in order, never holds more than prefetch_batches queued, and never requests another batch after a terminal one.", "quantifier": "every loader length, terminal position and depth", "why_tests_cant": "all lengths/depths", "anchors": ["utils/training_utils.py: CudaPrefetchLoaderWrapper.__iter__"]}
{"id": "C33", "title": "Resumable sampler: ranks are disjoint, coverage is maximal and resume is exact", "statement": "In every epoch the ranks' index streams are disjoint, together cover all but fewer than world_size indices, and after committing some batches, saving and restoring, the sampler yields exactly the uncommitted suffix.", "quantifier": "every dataset length, topology, permutation and commit history", "why_tests_cant": "all histories", "anchors": ["utils/training_utils.py: ResumableSampler"]}
{"id": "C34", "title": "Board-size batching emits homogeneous full groups", "statement": "The board-size grouping stream emits samples in consecutive groups of batch_size with one board size each, each source sample at most once, dropping fewer than batch_size per board size.", "quantifier": "every sample sequence", "why_tests_cant": "all sequences", "anchors": ["utils/training_utils.py: BatchByBoardSizeDataset"]}
{"id": "C35", "title": "Map-style evaluation planner covers every sample exactly once", "statement": "Over all ranks each sample index is marked real exactly once; all batches have equal size and a single shape; every rank sees the same number of batches.", "quantifier": "every dataset, batch size, world size", "why_tests_cant": "all datasets", "anchors": ["dataset/stream.py: EvaluationBatchPlannerDataset"]}
{"id": "C36", "title": "Concatenated dataset indexing is a bijection", "statement": "Index i of the combined dataset is exactly one item of one child, every child item is reachable, out-of-range indices raise.", "quantifier": "every list of child lengths and index", "why_tests_cant": "all lists", "anchors": ["dataset/__init__.py: MultiDataset.__getitem__, __len__, map_record_ref"]}
{"id": "C37", "title": "Checkpoint file replacement is atomic", "statement": "If the process dies at any point while saving, the destination path holds either its previous content or the complete new content.", "quantifier": "every crash point during the write, any previous content", "why_tests_cant": "every crash point", "anchors": ["utils/file_utils.py: save_torch_ckpt", "trainer/base.py: _atomic_torch_save", "export.py"]}
{"id": "C38", "title": "A training-state file on disk always has its complete model files", "statement": "At every moment, including after a crash at any point of any sequence of saves and prunings, every state file in the checkpoint directory has all model files of its iteration complete on disk, so the newest state can always be resumed.", "quantifier": "every sequence of save iterations, intervals, num_keep_states and crash points", "why_tests_cant": "all crash points in all histories", "anchors": ["trainer/base.py: _save_checkpoint_main, _cleanup_checkpoints, _load_state_checkpoint"]}
{"id": "C39", "title": "Latest-checkpoint lookup returns the highest iteration", "statement": "find_latest_ckpt returns the matching file with the largest iteration number (numerically, not lexicographically, any zero padding), or nothing exactly when no file matches.", "quantifier": "every directory listing", "why_tests_cant": "all listings", "anchors": ["utils/file_utils.py: find_latest_ckpt, get_iteration_from_ckpt_filename"]}
{"id": "C40", "title": "Pruning keeps the newest states and never touches permanent snapshots", "statement": "After pruning, exactly the newest num_keep_states state files remain; model snapshots at save_interval iterations or written by other sessions are never deleted, nor is the newest snapshot or one belonging to a kept state.", "quantifier": "every directory content and session history", "why_tests_cant": "all directory contents", "anchors": ["trainer/base.py: _cleanup_checkpoints"]}
{"id": "C41", "title": "Asynchronous checkpoint writer keeps order and never loses an error", "statement": "At most one save is in flight; saves reach disk in submission order; the post-write hook runs only if every file of the save was written; a failed save is reported at the next flush/submit exactly once.", "quantifier": "every sequence of submit/flush with arbitrary outcomes", "why_tests_cant": "all schedules", "anchors": ["utils/async_checkpoint.py: AsyncCheckpointWriter"]}
{"id": "C42", "title": "No checkpoint commits a step whose result was not finite", "statement": "A checkpoint written by the training loop never contains the effect of a step whose loss, metric or gradient norm was non-finite, although the finite check is read back one iteration late.", "quantifier": "every sequence of step outcomes, save/validation intervals and interruption points", "why_tests_cant": "all schedules of deferred checks", "anchors": ["trainer/base.py: run, _drain_pending_step_validity, _enqueue_step_validity"]}
{"id": "C43", "title": "Iteration and row counters count exactly the completed steps", "statement": "state.iteration equals the number of successfully completed optimizer steps since start plus its initial value, rows equals iteration times batch rows; a failed step leaves both unchanged and rolls the sampler back to the committed position.", "quantifier": "every sequence of step outcomes", "why_tests_cant": "all failure points", "anchors": ["trainer/base.py: run, _run_train_step"]}
{"id": "C44", "title": "Symmetry acts on moves and boards consistently", "statement": "For every symmetry and board, transforming the board array and transforming a move's coordinates agree: the stone at the move's cell is found at the transformed move's cell, and transformed moves stay on the board.", "quantifier": "every symmetry, board size (square where required) and cell", "why_tests_cant": "all board sizes and cells", "anchors": ["utils/data_utils.py: Symmetry.apply_to_move, apply_to_array"]}
{"id": "C45", "title": "Symmetries are invertible and the available sets behave as documented", "statement": "Every symmetry is a bijection of the board; rotations/flips compose as the dihedral group; each available symmetry set contains only symmetries that preserve the board shape.", "quantifier": "every board size", "why_tests_cant": "all sizes", "anchors": ["utils/data_utils.py: Symmetry, available_symmetries"]}
{"id": "C46", "title": "Sample post-processing keeps inputs, policy and board region aligned", "statement": "SamplePostProcessor.process_sample returns the image of the (side-normalised) sample under one symmetry with padding outside the logical board: board input, sparse features, policy target with its pass entry, and move metadata refer to the same cells.", "quantifier": "every sample, symmetry choice, fixed board size and option combination", "why_tests_cant": "all samples and options", "anchors": ["utils/data_utils.py: process_sample", "dataset/packed_binary.py, dataset/simple_binary.py: post-processing"]}
{"id": "C47", "title": "Side-to-move normalisation is consistent", "statement": "With fixed-side input and white to move, the two planes, the win and loss targets and the sparse feature channels are exchanged together (the side flag and everything else are kept), so that plane 0 is always black's; doing the exchange twice is the identity, and Result.opposite is an involution.", "quantifier": "every sample", "why_tests_cant": "all samples", "anchors": ["utils/data_utils.py: process_sample, Result.opposite"]}
{"id": "C48", "title": "Packed binary records decode to what was encoded", "statement": "Reading back a packed binary record yields the encoded header fields and moves; reading raw bytes, reading metadata and parsing agree on record boundaries and number of sub-records for any concatenation of records.", "quantifier": "every sequence of records within the field widths", "why_tests_cant": "all records and concatenations", "anchors": ["dataset/packed_binary.py: read_entry, read_raw_entry, raw_entry_metadata"]}
{"id": "C49", "title": "Simple binary records decode to what was encoded", "statement": "Reading back a simple binary record yields the encoded result, ply, board size, rule and moves; raw and parsed readers agree on boundaries.", "quantifier": "every record within the field widths", "why_tests_cant": "all records", "anchors": ["dataset/simple_binary.py"]}
{"id": "C50", "title": "Game replay reconstructs the position", "statement": "Replaying the first ply moves yields a board whose stones are exactly those moves, alternately coloured, from the perspective of the side to move, with the result given from that side's perspective.", "quantifier": "every game record and ply", "why_tests_cant": "all games", "anchors": ["dataset/packed_binary.py: _process_entry", "dataset/simple_binary.py: _process_entry"]}
{"id": "C51", "title": "Compressed 10-bit feature stream is lossless", "statement": "Every list of quantised features in [-512,511] written by the compressed writer can be read back exactly from the emitted 64-bit words; the number of words is ceil(10*n/64).", "quantifier": "every feature list", "why_tests_cant": "all lists", "anchors": ["model/serialization/mixnet.py: write_feature_map_compressed, write_features_compressed"]}
{"id": "C52", "title": "Lookup-table export enumerates every local pattern exactly once at its own index", "statement": "The base-3 enumerations used for table export list every pattern of the given length exactly once, and index i holds the pattern whose base-3 digits are i.", "quantifier": "every pattern length", "why_tests_cant": "3^n patterns, unbounded n", "anchors": ["model/serialization/mixnet.py: generate_base3_permutation", "model/serialization/flatnet.py: _index_to_ladder_chunk, _make_base3_mapping_input"]}
{"id": "C53", "title": "Hash layer indices are valid, and collision-free when perfect", "statement": "For inputs within the declared levels every embedding index lies inside its sub-table; when the table is large enough for perfect hashing, distinct inputs get distinct indices; out-of-range inputs never alias a valid index in perfect mode.", "quantifier": "every configuration and input", "why_tests_cant": "all configurations", "anchors": ["model/layers/hashing.py: HashLayer"]}
{"id": "C54", "title": "Model metadata encodings round-trip", "statement": "The ONNX model version and the binary export header (arch hash, rule mask, board-size mask, description) decode to the values that were encoded; masks contain exactly the requested rules/board sizes.", "quantifier": "every valid version, mask and description", "why_tests_cant": "all values", "anchors": ["export.py: make_onnx_model_version, parse_onnx_model_version", "model/serialization/__init__.py: rules_to_mask, boardsizes_to_mask"]}
{"id": "C55", "title": "Tuning profile cache is bounded, atomic and key-correct", "statement": "Loading returns a profile only for the exact key or (when allowed) the same compatible key, the newest usable one; after saving at most max_entries profiles remain, the one just saved included if it is the newest, only older profiles are deleted and other files are untouched; a crash at any point, and any interleaving of concurrent saves, leaves every profile file complete.", "quantifier": "every directory content, key, reuse mode, crash point and interleaving of saving processes", "why_tests_cant": "all directory contents", "anchors": ["dataset/telemetry.py: PipelineProfileStore"]}
{"id": "C56", "title": "Line encoding is in range and wall-aware injective", "statement": "Every line encoding code is below the advertised total and every line (cells and wall distances) reachable on a board gets its own code.", "quantifier": "every odd line length and every line", "why_tests_cant": "exponentially many lines", "anchors": ["dataset/pipeline/line_encoding_cpp/line_encoding.cpp: LineEncodingEncoder"]}
{"id": "C57", "title": "Forbidden-point flags are the renju rule and queries do not change the board", "statement": "Querying forbidden points leaves the board unchanged, terminates, and flags only empty cells. On every board accepted by the pipeline, a cell is flagged exactly when it is empty and black playing there makes an overline, or makes no exact five and makes two fours (in two directions, or both on one line) or two open threes, an open three counting only if its straight-four point is not itself a double four or double three (recursively). Transposing or mirroring the stones transposes or mirrors the flags.", "quantifier": "every board size, every stone placement, every cell and query sequence", "why_tests_cant": "all positions; the open-three rule is recursive, so tests only sample shallow shapes", "anchors": ["dataset/pipeline/forbidden_point_cpp/Board.cpp"]}
{"id": "C58", "title": "Pipeline autotuning stays in bounds, respects locks and terminates", "statement": "Settings always stay within configured limits; an explicitly configured option is never changed by profiles, tuning decisions, rank synchronisation or resumption; decisions respect the observation period and the decision interval; unhealthy observations never lower and healthy ones never raise a setting; the decision log accounts for every change; the controller freezes once the tuning window has passed and never changes settings after that; loading the state of another rank makes both controllers equal, and foreign states are rejected.", "quantifier": "every sequence of metric observations", "why_tests_cant": "all observation histories", "anchors": ["dataset/telemetry.py: PipelineAutotuner"]}
{"id": "C59", "title": "Concurrency gate never exceeds its limit", "statement": "A callback starts only while fewer callbacks than the current limit are under way; no waiting thread stays asleep while there is room; a finished or failed callback always gives its slot back and its outcome is handed on; with a positive limit every call returns.", "quantifier": "every interleaving of acquire/release/limit changes", "why_tests_cant": "all interleavings", "anchors": ["dataset/telemetry.py: _AdjustableConcurrencyGate"]}
{"id": "C60", "title": "Latency percentiles are upper bounds from the histogram", "statement": "The reported percentile is an upper bound for at least that fraction of the recorded samples, and no smaller bucket bound is.", "quantifier": "every sample multiset and percentile", "why_tests_cant": "all multisets", "anchors": ["dataset/telemetry.py: _LatencyHistogram"]}
{"id": "C61", "title": "Array cache returns the right arrays and respects its budgets", "statement": "A cached load returns exactly what an uncached load would for the same path; at every moment at most the configured number of mmap and loaded entries (and loaded bytes unless a single entry) are cached, evicting least recently used first and no more than needed; no file is read by two threads at once; failed reads are reported to their caller only; every load finishes.", "quantifier": "every interleaving of loads by any number of threads, every file size, every failed read, every reconfiguration", "why_tests_cant": "all access sequences", "anchors": ["dataset/decoder.py: ProcessedNpzDecoder._load, _evict_array_cache"]}
{"id": "C62", "title": "Buffered event file preserves the byte stream", "statement": "The bytes reaching the underlying file are exactly the bytes written, in order, once flushed.", "quantifier": "every sequence of writes and flushes", "why_tests_cant": "all sequences", "anchors": ["utils/tb_writer.py: _BufferedFileLike"]}
{"id": "C63", "title": "Aligned writes land on aligned offsets", "statement": "An aligned write appends the payload unchanged and then zero bytes up to a multiple of the alignment; in a sequence of aligned writes every payload starts at a multiple of the alignment from the first one, at the offset a reader computes from the sizes alone, and is read back there unchanged.", "quantifier": "every start offset, alignment and sequence of payloads", "why_tests_cant": "all offsets and sequences", "anchors": ["utils/misc_utils.py: aligned_write"]}
{"id": "C64", "title": "Nested config update is a right-biased deep merge", "statement": "deep_update_dict keeps every key of both dictionaries, takes values from the update, and recurses exactly where both sides are dictionaries; updating with the same dict twice is the same as once.", "quantifier": "every pair of nested dictionaries", "why_tests_cant": "unbounded nesting", "anchors": ["utils/misc_utils.py: deep_update_dict"]}
{"id": "C65", "title": "Row filter expressions are confined and total on accepted input", "statement": "Evaluating a filter expression either raises an error or returns a boolean vector with one entry per row; a successful evaluation only contains whitelisted syntax, reads only the declared arrays (its result does not depend on any other), calls only the six whitelisted functions, and every intermediate array it builds outside chained comparisons is within the allocation limits. An evaluation executes fewer operations than the expression has nodes, and filtering keeps in every field exactly the rows whose mask entry is true, in order.", "quantifier": "every expression tree, every set of arrays and every behaviour of the numeric primitives", "why_tests_cant": "unbounded expression trees", "anchors": ["dataset/filter.py: SafeFilterEvaluator, evaluate_filter_condition", "utils/data_utils.py: filter_data_by_condition"]}
{"id": "C66", "title": "Chained optimizer updates every parameter exactly once", "statement": "Every parameter is assigned to exactly one sub-optimizer (the first whose predicate accepts it), in order; parameters are never dropped or stepped twice, and with one initial group each is stepped with the current learning rate of its own group.", "quantifier": "every parameter list, predicate list and history of added groups, scheduler writes and steps", "why_tests_cant": "all lists", "anchors": ["utils/chained_optimizer.py: ChainedOptimizer"]}
{"id": "C67", "title": "Weight clipping enforces the configured bounds", "statement": "After weight clipping every clipped parameter (plus its virtual parameter where configured) lies in [min_weight,max_weight], and values already inside are unchanged.", "quantifier": "every parameter value and bounds", "why_tests_cant": "all real values", "anchors": ["utils/training_utils.py: apply_weight_clipping"]}
{"id": "C68", "title": "Evaluation runs the same number of forwards on every rank", "statement": "Whatever the per-rank number of batches, every rank performs the same number of forwards, each rank's own batches are flagged real exactly once, and extra forwards are flagged not real.", "quantifier": "every vector of per-rank batch counts and max_batches", "why_tests_cant": "all vectors", "anchors": ["trainer/base.py: _iter_collective_safe_batches"]}
{"id": "C69", "title": "Static input slots are never read torn", "statement": "With the static-slot device loader every device read made by a training step sees exactly that step's batch in all slots (and reads of the previous epoch's last step still queued see its contents), the two device streams never deadlock, and a batch with a different schema is rejected.", "quantifier": "every interleaving of the copy and compute streams, number of batches and set of slots", "why_tests_cant": "GPU interleavings cannot be enumerated", "anchors": ["utils/training_utils.py: StaticSlotLoaderWrapper.__iter__"]}
{"id": "C70", "title": "Augmented samples of the binary datasets are aligned", "statement": "A sample delivered by the packed and simple binary datasets with symmetry augmentation is the image of the replayed position under one symmetry: planes, policy, values and the recorded moves agree, and padding stays outside the logical board.", "quantifier": "every sample, fixed board size, symmetry kind and index", "why_tests_cant": "all samples and options", "anchors": ["dataset/packed_binary.py: materialize_entry", "dataset/simple_binary.py: materialize_entry", "utils/data_utils.py: process_sample"]}
{"id": "C71", "title": "Packed and aligned table writes are lossless", "statement": "Two features in [-8,7] packed into a byte, features written with a bias of 128, and buffers written with alignment padding can all be read back exactly; features that do not fit 4 bits are rejected, never truncated.", "quantifier": "every row of features, buffer and alignment", "why_tests_cant": "all rows and lengths", "anchors": ["model/serialization/flatnet.py: FlatSquare7x7NNUEv2Serializer.serialize, FlatSquare7x7NNUEv3Serializer.serialize", "utils/misc_utils.py: aligned_write"]}
{"id": "C72", "title": "Line feature tables give every visible window its own row", "statement": "In the Mix6/7/8 feature tables two positions share a row exactly when they see the same window (stones and border), every row number is inside the table, and the row of any position on any line holds the network's feature of that very window.", "quantifier": "every odd line length, line and position", "why_tests_cant": "exponentially many windows", "anchors": ["model/serialization/mixnet.py: Mix6NetSerializer._export_feature_map"]}
{"id": "C73", "title": "A weight export never leaves a partial file", "statement": "At every crash point, and when the serializer raises half-way, the output path of a serialization export holds either its previous content or the complete new content.", "quantifier": "every crash point, failure point and chunk sequence", "why_tests_cant": "crash points cannot be enumerated by tests", "anchors": ["export.py: export_serialization"]}
{"id": "C74", "title": "Decoding a batch at once gives the same samples as decoding row by row", "statement": "A batch of processed NPZ rows decoded by any fast path (contiguous slice, index arrays, several files grouped and scattered, a chunk of batches, a packed request) is the stack of the samples that decoding each row alone gives, with the same augmentation, and row i depends only on reference i.", "quantifier": "every list of references, mixture of files, order, option, seed and epoch", "why_tests_cant": "batch compositions and orders cannot be enumerated", "anchors": ["dataset/decoder.py: ProcessedNpzDecoder.decode_one, decode_batch, decode_batches, decode_packed_batch, _post_process_vectorized, _decode_loaded_batch, _decode_grouped_batch", "dataset/npz_source.py: _materialize_refs, _packed_decode_batch"]}
{"id": "C75", "title": "The validation total loss is the weighted sum of the terms over all rows that count, however the rows are split over ranks", "statement": "The total_loss statistic built by every rank for its share of a global validation batch is accepted, and reducing and finalising the ranks' statistics yields the sum over the loss terms of weight times the head's value over all rows that count (a mean over entries, a squared mean of logits over cells, or a VQ loss with its commitment and entropy parts, per slot). With a teacher it is alpha*T^2*(teacher terms) + (1-alpha)*(target terms) + the target-independent terms once, unscaled. A head without any entry makes the close fail instead of reporting a number.", "quantifier": "every list of loss terms and weights, every VQ slot layout, every number of ranks and split of the rows over them, every alpha and temperature", "why_tests_cant": "splits over ranks, term lists and slot layouts cannot be enumerated; the dictionary keys must never collide for any number of terms", "anchors": ["trainer/loss/supervised.py: _vq_loss_stat, _scale_vq_stat, _add_composition_term, _composition_stat, compute_supervised_loss_statistics", "dataset/core.py: _validate_sufficient_stats_schema, _finalize_vq_composition, _finalize_composition_group, _finalize_loss_composition, _finalize_kd_total"]}
{"id": "C76", "title": "The validation loss is the training loss", "statement": "The total_loss of a global validation batch, computed by every rank on its rows, reduced over the ranks and finalised, equals the total that the training loss gives for all real rows at once, with and without a teacher; the named losses have the same names and values. Padding rows never change a training loss; a training batch of padding rows only gives zeros under the same names, and an empty one is refused. A loss given only as a number is refused by validation.", "quantifier": "every split of the rows over ranks, every padding pattern, loss type, weighting, set of predefined auxiliary losses, board mask and temperature", "why_tests_cant": "the two computations are separate code; agreement on test batches says nothing about other splits, options and paddings", "anchors": ["trainer/loss/supervised.py: compute_supervised_losses, _compute_loss_terms, _apply_aux_losses, _sum_terms, _compute_evaluation_terms, compute_supervised_loss_statistics, _value_loss_stat, _policy_loss_stat, _policy_regularizer_stat", "trainer/loss/utils.py: apply_kd_temperature, convert_value_target, prepare_policy", "utils/training_utils.py: cross_entropy_with_softlabel"]}
{"id": "C77", "title": "Quantizer evaluation statistics count every distinct line once", "statement": "In a global evaluation batch every distinct line encoding that occurs in a real row of a rank that collects statistics is counted by exactly one rank, and nothing else is counted; all ranks make the same collective calls with messages of one size. Hence for every codebook the quantisation error, commitment, vector and element counts, soft assignments and code usage, summed over the ranks, are the sums over the set of distinct lines, however the rows are split and padded, and every entry receives its own quantised feature.", "quantifier": "every number of ranks, split of rows, padding pattern, set of collecting ranks, number of codebooks, and encodings repeated within and across ranks", "why_tests_cant": "ownership depends on the overlap of the encodings of all ranks; the overlaps and splits cannot be enumerated", "anchors": ["model/mixnet.py: _owned_unique_mask, _quantize_line_feature", "model/vq.py: VectorQuantize.forward, ProductVectorQuantize.forward"]}
{"id": "C78", "title": "The expiry shortcut never changes training of a codebook", "statement": "In single-process training of a vector quantizer, skipping the exact dead-code check on the strength of host-side bounds never changes anything a user can see: codes, usage numbers, averages, random state and the reported numbers of replaced codes are those of the procedure that checks every code in every step. In a step exactly the codes whose usage is below threshold times the mean usage are replaced, each by an entry of the batch (different entries if there are enough), with its usage and average reset; all others are kept.", "quantifier": "every history of training batches, state dict loads, initialisations and optimizer steps, every size, decay, threshold and random generator", "why_tests_cant": "the bounds are carried over arbitrarily many steps; a bound that is too optimistic shows only after a long history", "anchors": ["model/vq.py: VectorQuantize._expire_codes, _update_ema, sample_vectors, _load_from_state_dict"]}
{"id": "C79", "title": "A restart during codebook initialisation changes nothing", "statement": "A codebook to be initialised from its inputs is initialised, on all ranks in the same forward, from exactly the first target entries seen by every rank (k-means over all of them, or directly if they are as many as codes), and until then nothing is quantised. Saving, starting new processes and restoring at any points of the history leaves every later state and result unchanged; nothing is refused on the way. A saved state with another version, setting, status, count or shape is refused.", "quantifier": "every number of ranks, sequence of batch sizes, and set of restart points", "why_tests_cant": "restart points and batch sizes cannot be enumerated", "anchors": ["model/vq.py: VectorQuantize._accumulate_input_batch, _init_embed, kmeans, _vq_init_continuation_state, _load_vq_init_continuation_state, forward"]}
{"id": "C80", "title": "Data-parallel codebook training keeps all replicas equal and equals single-process training", "statement": "If all ranks start with the same codebook, one training forward leaves them with the same one: all replace the same dead codes by the same entries, taken from the batches of all ranks, and move usage and averages by the entries of all ranks; all report the same number of replaced codes. If no code is dead, the result is the one a single process gets for the concatenated batch.", "quantifier": "every number of ranks, batches of any sizes, and number of steps", "why_tests_cant": "rank counts and batches cannot be enumerated; equal replicas must be an invariant", "anchors": ["model/vq.py: VectorQuantize.forward, _expire_codes, _update_ema, sample_vectors, all_reduce_ and all_gather uses"]}
{"id": "C81", "title": "The accelerated code search is near-exact, and exact outside near ties", "statement": "The code a quantizer picks for a vector is always one of the codebook; its distance is at most the smallest one plus twice the error of rounding the operands of the coarse pass. It is the nearest code (the first one on ties) whenever fewer than the kept number of codes of its tile lie within that margin, and always when the accelerated search is off or does not apply. No kernel reads outside its tables.", "quantifier": "every codebook, query vector, rounding function with bounded relative error, and supported shape", "why_tests_cant": "the outcome depends on near ties between any of 65536 codes; random tests hardly ever produce them", "anchors": ["model/ops/vector_quantization.py: accelerated_l2_argmin, accelerated_cosine_argmin and their kernels", "model/vq.py: VectorQuantize.forward"]}
{"id": "C82", "title": "A training run never validates, saves or runs far past a non-finite step", "statement": "In a single-process run the finite check of a step is read one step late. Nevertheless no validation pass and no checkpoint ever uses weights produced by a non-finite step (unless a signal arrives in the gap between two iterations); at most one further step is taken; a run with a non-finite step never ends normally, and the error names the first such step. However the run ends, the iteration and row counters match the completed steps, and the trainer can be run again. A run that ends normally took each remaining step once and in order, validated and saved exactly at the configured intervals, and ended with a saved training state of the last iteration.", "quantifier": "every configuration of intervals, device and scaler, every pattern of non-finite steps, exceptions and signals, every timing of asynchronous copies, every state at the call", "why_tests_cant": "the failing step, the late read and the timing of copies interleave with every interval; the combinations cannot be enumerated", "anchors": ["trainer/base.py: BaseTrainer.run, _run_train_step, _enqueue_step_validity, _drain_pending_step_validity, _discard_pending_step_validity, _is_save_iteration, _save_checkpoint"]}
{"id": "C83", "title": "In a multi-process run all processes stop together, and no step is taken by some of them only", "statement": "Whatever fails on whichever processes (batch fetch, hooks, forward, non-finite values, differing data or metrics, optimizers, logging, validation, checkpoint phases, shutdown), no process is left waiting in a collective: the run ends on all processes, with the same exception naming the failing processes, the same counters, the same steps taken and the same checkpoints. The optimizers are given the gradient of an iteration only if every process passed every check of it. Every checkpoint, including the emergency one, holds a whole number of steps, each completed on all processes. A run that ends normally had no error on any process; without errors it does end normally. Preconditions: an error while gradients are clipped or a commit is prepared, and the existence of a state file, is the same on all processes (the code does not exchange these).", "quantifier": "every number of processes, accumulation setting, schedule of intervals, and every pattern of local errors and differing values over processes and iterations", "why_tests_cant": "the failing process, phase and iteration cannot be enumerated, and a hang shows only on a real cluster", "anchors": ["trainer/base.py: BaseTrainer.run, _run_train_step, _synchronize_step_validity, _synchronize_phase_errors, _fetch_batch, _run_synchronized_operation, _save_checkpoint"]}
{"id": "C84", "title": "Every process resumes from the state it saved, and mixed or damaged state lists are refused", "statement": "A training state saved by a run of n processes loads in a run of the same shape, and each process then holds exactly the continuation state it captured (data cursor, generators, quantiser manifest) with the saved counters; restored generators equal the captured ones. For an arbitrary file: the load succeeds only if the number of processes, optimizer and scheduler configuration and data signature match, and the list holds, in any order, exactly one state per process, each with its own slot and rank and matching digests, all describing the same run. A process never takes another process's state; a state altered in any field but keeping its digest is refused unless SHA-256 collides. The oldest format is the exception: it is accepted in the order given, without such checks.", "quantifier": "every number of processes, every captured state, every file content", "why_tests_cant": "file contents and process counts cannot be enumerated; the digest argument is about all pairs of states", "anchors": ["trainer/base.py: BaseTrainer._local_resume_state, _global_resume_projection, _validate_rank_resume_states, _build_training_state, _load_state_checkpoint, _capture_rng_state, _restore_rng_state"]}
{"id": "C85", "title": "The exported integers compute the trained network", "statement": "For a Mix9 network, running inference with integer arithmetic only (table lookups, int8/int16 products, int32 sums, arithmetic shifts, saturation) on the numbers written by the exporter gives exactly the value and policy outputs of the fake-quantised network that was trained; every exported number fits its declared integer type, table entries fit 10 bits, and int32 accumulators and board sums cannot overflow for biases of ordinary size. The fast gradient of the depthwise convolution is used exactly when no product can be clipped.", "quantifier": "every network of the family (all head variants and dimensions), all weights, every board with at most 65536 points and every mapping output", "why_tests_cant": "an engine disagreement shows only for particular weights and positions; the weights are real numbers", "anchors": ["utils/quant_utils.py: fake_quant", "model/layers/linear.py: LinearBlock.forward", "model/layers/star.py: StarBlock.forward", "model/layers/convolution.py: Conv2dBlock.forward", "model/ops/aggregation.py", "model/ops/quantized.py: product_quantization_has_linear_gradient", "model/mixnet_components.py: QuantizedHeadMixin", "model/mixnet.py: Mix9Net.get_feature, Mix9Net.forward", "model/serialization/mixnet.py: Mix9NetSerializer._export_*"]}
{"id": "C86", "title": "The exported Mix9 file is the documented C++ struct", "statement": "Behind the compressed mapping streams, the binary Mix9 file has exactly the size of the struct documented in the serializer, and every element of every member read as C reads it (little-endian, at the member's offset) is the exported number the documentation assigns to it, for every head variant; the bucket is 64-byte aligned exactly when the value dimension is a multiple of 16; the architecture hash distinguishes dimensions within its bit fields.", "quantifier": "every network, head variant, dimension and table", "why_tests_cant": "sizes and offsets depend on the dimensions and variants; an engine silently reads shifted weights", "anchors": ["model/serialization/mixnet.py: Mix9NetSerializer.serialize, Mix9NetSerializer.arch_hash, Mix9NetSerializer (docstring)"]}
{"id": "C87", "title": "Every optimizer step is AdamW on every weight, whichever path it takes", "statement": "A step of the multi-tensor AdamW gives every element of every parameter that has a gradient exactly one AdamW update with the group's hyperparameters, the parameter's own update count and its own gradient element, and leaves parameters without a gradient, and all gradients, alone; whether a parameter goes through the one-pass kernel or the reference path, whatever the strides and addresses of its gradient, and whatever the launch cache holds. The update is the published one, bias correction is exact, a tensor is accepted by the layout test only if it fills its memory densely, equal layout keys mean equal positions, and the step count survives save and load up to 2^24. Precondition: in a group a parameter is not re-allocated while all gradients keep their addresses (otherwise the update is lost).", "quantifier": "every history of steps, gradients present or missing, shapes, strides, addresses, hyperparameter changes and reloads, every order of the kernel's lanes", "why_tests_cant": "wrong elements or stale addresses appear only for particular strides, allocator behaviours and histories", "anchors": ["utils/fused_adamw.py: MultiTensorAdamW.step, _launch_plan, _partition, _reference_update, _flat_layout, _supports_fast_path, _grad_layout_unchanged, _multi_tensor_adamw_kernel, state_dict, load_state_dict"]}
{"id": "C88", "title": "An optimizer kernel reads the gradient addresses of its own step", "statement": "The gradient pointer table is uploaded through a ring of three pinned buffers while earlier kernels are still queued. Every kernel reads exactly the addresses of its own step's gradients, also after steps that failed between the upload and the launch; a refresh waits only for work that was queued before the last but one refresh, never for recent work, and never forever.", "quantifier": "every sequence of steps over any number of parameter groups, every failure of a step, all other work on the stream, every pace of the device", "why_tests_cant": "the race between host and device depends on timing; a lost race corrupts weights silently", "anchors": ["utils/fused_adamw.py: _LaunchPlan.refresh_grad_pointers, _LaunchPlan.mark_launched, MultiTensorAdamW.step"]}
{"id": "C89", "title": "A raw KataGo row decodes to the position it holds", "statement": "For a row in KataGo's packed format, in tensors of side 2 or at least 4, the sample has the row's board size, the stones of the side to move and of the opponent at their points, the side to move (given directly or as the sign of the komi), win, loss and draw probability of the chosen TD level, and the policy counts divided by their sum (plus 1e-9) with the pass entry kept or dropped as configured: non-negative, summing to at most one. The samples of a dataset are exactly the wanted rows of its files, in order; a wanted row that does not decode is an error, never skipped. For boards that fill their tensor, the item is the position under one symmetry of the requested kind applied to stones and policy together, swapped and padded as configured.", "quantifier": "every position, board size, tensor side, packing, TD level, list of files, filter and symmetry", "why_tests_cant": "bit packing, normalisation and filters interact differently for every board size and content", "anchors": ["dataset/katago.py: KatagoNumpyDataset.__init__, _unpack_data, _unpack_global_feature, _unpack_board_feature, _unpack_global_target, _unpack_policy_target, __getitem__"]}
{"id": "C90", "title": "Map-style and streaming KataGo datasets deliver the same samples", "statement": "If the map-style dataset and the per-file loads of the streaming variant both succeed, the map-style dataset is the concatenation of the streamed files: row i of file k is the same sample at index (rows before file k) + i, for the same symmetry. Holds for raw files (without padding, or without symmetry) and for processed files (filters, channel selection, optional fields, rejected board sizes included), for filter conditions that judge each row by itself.", "quantifier": "every list of files, options, row, symmetry and row-wise condition", "why_tests_cant": "the two variants filter in different orders and on different batches; agreement on samples shows nothing about other options", "anchors": ["dataset/katago.py: KatagoNumpyDataset, IterativeKatagoNumpyDataset._build_partitioned_stream, ProcessedKatagoNumpyDataset", "dataset/decoder.py: ProcessedNpzDecoder._load_uncached, NpzRowRecordDecoder.decode_one"]}
{"id": "C91", "title": "A Muon step updates every parameter on its own", "statement": "One step of the Muon optimizer succeeds whenever every parameter with a gradient has at least two dimensions, and gives each of them the update determined by its own gradient, momentum buffer, shape and the hyperparameters: the buffer becomes the running mean of the gradients, and the value is decayed and then moved by lr*sqrt(larger side) times the orthogonalised direction. Parameters without a gradient keep value and state. The result for a parameter does not depend on which other parameters share its shape (and are batched with it), no entry moves by more than 1.2025*lr*sqrt(larger side) beyond the decay, and sizes stay consistent for the next step.", "quantifier": "all lists of parameters (shapes, devices, dtypes, gradients present or not, buffers present or not), all hyperparameters", "why_tests_cant": "batching by shape mixes arbitrary sets of parameters; a test fixes a few shapes", "anchors": ["utils/muon.py: Muon.step"]}
{"id": "C92", "title": "Newton-Schulz orthogonalisation acts on the singular values only", "statement": "For a gradient with singular value decomposition U S V^T (which always exists), the orthogonalised update is U S' V^T with every singular value mapped by the quintic iterated ns_steps times after dividing by the Frobenius norm. Mapped singular values are positive and at most 1.2025, and with five steps those of singular values at least 1/500 of the norm are at least 0.68. Hence the update has spectral norm at most 1.2025, has positive inner product with the gradient, does not depend on the scale of the gradient, commutes with transposition and is the same with and without the fused kernel.", "quantifier": "all matrices of any size, all numbers of iterations, both kernels", "why_tests_cant": "a statement about all real matrices and any number of iterations", "anchors": ["utils/muon.py: zeropower_via_newtonschulz5"]}
{"id": "C93", "title": "Evaluation metrics are means over the real rows", "statement": "For every batch of an accepted shape the evaluation metrics are, name by name, the sum over the real rows of a score that depends on that row only (best move equal, size of the overlap of the top 2 and top 3 moves, winning side, draw, squared errors; in cross evaluation absolute and relative errors and their maxima), together with the number of entries of the real rows. Padding rows have no influence. Off-board cells are never the predicted best move when some board logit is above -10^6. Over any number of ranks and forwards validation reports the mean over the forwards of the mean score per entry, however rows are spread over ranks, and every such metric is between 0 and 1.", "quantifier": "all batches, value heads with one or several columns, board masks, padding flags, tie-breaking rules of argmax/topk, any number of ranks and forwards", "why_tests_cant": "sums over arbitrary distributions of rows; tests sample a few batches", "anchors": ["trainer/metric/supervised.py: compute_supervised_metric_statistics", "trainer/loss/utils.py: prepare_policy, convert_value_target"]}
{"id": "C94", "title": "Quantisation returns the code and carries gradients back by a scaled isometry", "statement": "For an input row x and the chosen code q, the forward pass returns exactly q (in exact arithmetic), with the plain straight-through estimator always, and with the rotation trick whenever x and q are not shorter than the clamp 1e-6 and their directions are exactly opposite or not within 1e-7 of opposite; when the directions are nearly opposite the error is at most 1e-7\u2016q\u2016. The gradient handed to x is the transposed derivative of the forward pass with detached tensors held fixed; with the plain estimator it is the incoming gradient; with the rotation trick its length is \u2016q\u2016/\u2016x\u2016 times that of the incoming gradient, angles between gradients are kept, the inner product with x equals the inner product of the incoming gradient with q, and a gradient orthogonal to both is only scaled. A zero input is the exception: the rotation trick returns zero, not the code.", "quantifier": "all dimensions, all input rows, codes and incoming gradients", "why_tests_cant": "the identity must hold for every pair of vectors including degenerate angles and lengths near the clamps; the tests compare a few random rows up to tolerance", "anchors": ["model/vq.py: l2_norm, efficient_rotation_trick_transform, rotate_to, VectorQuantize.forward", "model/mixnet.py: Mix9sVQ quantisation (939-947)"]}
{"id": "C95", "title": "Zero links of uninitialised quantisers leave no trace in the gradients", "statement": "With several processes, quantisers that are not yet initialised attach their parameters to the graph with zero gradients. After the micro-steps of an optimizer step and the clearing before clipping, every parameter's gradient is exactly what it would be with no such links: the sum of the contributions of the initialised quantisers that the backward passes reached, or no gradient at all if there is none (so that the optimizer skips the parameter), also when a quantiser becomes initialised in the middle of an accumulation window or shares parameters with another; and no marker survives the step. Hence one process and several give the same set of trained parameters.", "quantifier": "all numbers of micro-steps, all quantisers, shared parameters, frozen parameters, initialisation points and backward reach", "why_tests_cant": "it depends on every interleaving of linked and real uses in an accumulation window across forward and backward order", "anchors": ["model/vq.py: ddp_preinit_identity, mark_ddp_parameter_use, mark_ddp_parameter_use_on_backward, clear_ddp_preinit_gradients, VectorQuantize.forward", "model/flatnet.py: _do_vector_quantize", "trainer/base.py: accumulation window (3720-3800)"]}
{"id": "C96", "title": "The training log holds means over processes, micro-steps and iterations", "statement": "Every logged and every shown set of training metrics is, under exactly the names the training step reports, the mean over all processes, all micro-steps and all iterations since the last logged or shown iteration (or the start of the run), and grad_norm, if clipping is on, the mean over processes and iterations; the order in which the step inserts the names does not matter. There is one log entry per multiple of the log interval and one shown line per multiple of the show interval, in order; if the show interval is a multiple of the log interval, each log entry covers its whole interval. A run goes through exactly if the names never change between processes, micro-steps or iterations. Two consequences are shown as defects: a shown line cuts the window of the next log entry, and a run that starts with an uninitialised codebook is aborted by the first step after the codebook is filled, because that step reports vq_loss.", "quantifier": "all numbers of processes, accumulation steps, intervals, starting iterations, metric names and values, and all run lengths", "why_tests_cant": "the value depends on the whole history of a run and on the relation of two intervals; the position of a value in the gathered tensor must match its name for every set of names and insertion order", "anchors": ["trainer/base.py: _normalize_train_metrics, _synchronize_step_validity, _run_train_step, _gather_train_metrics, run", "utils/misc_utils.py: add_dict_to", "model/flatnet.py: _do_vector_quantize; model/mixnet.py: do_feature_quantization (names reported)"]}
{"id": "C97", "title": "The exported line tables are the trained mapping network", "statement": "For every board, cell and direction, the row of the exported lookup table at the cell's line code is exactly the feature vector the trained mapping network (directional convolutions, residual blocks, zero padding at every layer) computes for that cell and direction on the full board - walls, window cut-offs, lines shorter than the window and lines evaluated in batches included; cells with the same line code always get the same feature. Without fix_direction_order the two diagonals are exchanged between network and encoder, which no output can show. Together: integer inference that starts from the table rows of a board's line codes gives exactly the policy and value of the trained network on that board.", "quantifier": "all boards with at most one stone per cell, all cells and directions, all window lengths, depths matching the window, all weights, activations and per-cell normalisations, both weight layouts, both direction orders, one or two mappings, every export batch size", "why_tests_cant": "The table has hundreds of thousands of rows and is filled from synthetic lines; a wrong tap order, padding or wall case only shows for particular windows on particular boards.", "anchors": ["model/layers/directional.py:DirectionalConvLayer._conv1d_direction", "model/mixnet_components.py:Mapping.forward", "model/mixnet_components.py:DirectionalConvResBlock", "model/serialization/mixnet.py:_export_map_table", "model/serialization/mixnet.py:_export_feature_map", "model/mixnet.py:Mix9Net.get_feature"]}
{"id": "C98", "title": "The exported codebook file reproduces the vector-quantised network", "statement": "For a trained Mix9s-VQ model, exporting succeeds, and for every evaluation batch - any samples, any padding flags, any number of processes - the quantised line feature the network uses at a cell is exactly what an engine reads from the exported bytes: take the cell's line code, read one little-endian uint16 index per codebook, read the ten-bit codebook row at that index and concatenate the rows. Zeroing codebook rows that no line uses and indices of unused line codes never changes a value that is read. Export is refused exactly when the layer is uninitialised, a stale evaluation mask of another length is still set, or the codebook is larger than 65536.", "quantifier": "all boards with at most one stone per cell, all batches, padding flags, process counts, all weights, all codebooks (any number, size up to 65536, any vectors), any nearest-code search, all window lengths, export batch sizes", "why_tests_cant": "The file holds an index per line code (hundreds of thousands) and rows are zeroed after a usage count; a wrong mask, byte order or row stride only shows for the lines or codes concerned.", "anchors": ["model/serialization/mixnet.py:_export_feature_codebook", "model/serialization/mixnet.py:write_features_compressed", "model/serialization/mixnet.py:write_feature_index", "model/mixnet.py:_quantize_line_feature", "model/mixnet.py:Mix9sNet.get_feature", "model/vq.py:ProductVectorQuantize.forward"]}
{"id": "C99", "title": "Splitting a training batch over processes and micro-steps does not change the objective", "statement": "Without policy regularisation and VQ losses, the training loss of a batch (and every named loss) is the mean over its rows of a loss of the row alone. So the loss of a global batch is the average of the losses of equally large micro-batches, and the gradient the optimizer receives - each micro-batch's loss divided by gradient_accumulation_steps, accumulated, then averaged over processes - is the gradient of the loss of all rows at once, for every number of processes and micro-steps, as a function of the parameters. With policy regularisation it is not: splitting makes the minimised loss larger or equal (strictly, in general).", "quantifier": "all loss types, teacher or not, board masks, forbidden-point weights, all auxiliary losses but VQ, all batches, all numbers of processes and micro-steps, all parameters and any linear gradient operator", "why_tests_cant": "A test compares one batch on one machine; a loss normalised by a quantity of the local batch (mask sum, squared mean) only differs for particular batches and process counts.", "anchors": ["trainer/loss/supervised.py:compute_supervised_losses", "trainer/loss/supervised.py:_apply_aux_losses", "trainer/loss/supervised.py:policy_reg_loss", "utils/training_utils.py:cross_entropy_with_softlabel", "trainer/base.py:_run_train_step"]}
{"id": "C100", "title": "Sidecar names identify their run point, and publishing a sidecar never damages a published file", "statement": "For every iteration, generation token and rank the trainer's sidecar name is accepted by the name check and gives the three values back; different (iteration, generation, rank) never share a name; temporary names are never sidecar names. Writing a sidecar, interrupted at any point or failing in any call, leaves every other file as it was; the final name is either absent or holds the complete content; an existing sidecar is never overwritten; and no temporary file survives an error.", "quantifier": "all iterations, ranks and tokens; all directories, contents, intermediate contents of the temporary file, crash points and failing calls", "why_tests_cant": "A test checks a few names and one interrupted write; the name grammar is an infinite language and the crash points and directory states are unbounded.", "anchors": ["trainer/base.py:_RUNTIME_SIDECAR_RE", "trainer/base.py:_runtime_basename", "trainer/base.py:_write_vq_runtime_sidecar"]}
{"id": "C101", "title": "A VQ runtime sidecar restores exactly the pending samples it was captured from, and only if it fits the run", "statement": "Whatever samples the vector quantizers of a rank have pending, however modules are shared between paths and models, a sidecar that was written successfully is accepted by a later process of the same run (same models, configuration, flags, rank, world size, precision, iteration), and every quantizer then holds exactly the saved samples - same count, entries, order, dtype - each shared module being restored once; initialised quantizers and all other modules are untouched. Conversely, whatever files are present, an accepted sidecar has the recorded size and hash, was written for this iteration, rank, world size, generation and precision by a run with the same quantizers, sharing, configuration and flags, and what is loaded is exactly what it stores.", "quantifier": "all model trees and sharings, pending samples, dtypes, directories, manifests and file contents", "why_tests_cant": "Sharing patterns, pending states and adversarial files are unbounded; a test restores one model once.", "anchors": ["trainer/base.py:_vq_runtime_modules", "trainer/base.py:_capture_vq_runtime_payload", "trainer/base.py:_write_vq_runtime_sidecar", "trainer/base.py:_validate_vq_runtime_manifest", "trainer/base.py:_restore_vq_runtime_sidecar", "model/vq.py:_vq_init_continuation_state", "model/vq.py:_load_vq_init_continuation_state"]}
{"id": "C102", "title": "The pipeline chain: an accepted batch has lost and changed nothing, and every pipeline gets its own state back", "statement": "Whatever the pipelines of a chain do - return anything, change fields or the state they were handed in place, change themselves - a batch the chain accepts still has every field it came with (same digest), its other fields are declared outputs that were not there before and fit their declarations, every required output is there, and every pipeline still declares what it declared when the chain was built. A batch is accepted exactly when every call was clean in this sense; the field checks accept exactly the fields that fit their declarations; a chain can be built exactly from compatible pipelines. The returned blob gives every pipeline back exactly the state it returned, in order, and is refused by a chain with other identifiers, versions or order. Two values without dictionaries have the same digest stream only if they are equal.", "quantifier": "all pipelines as arbitrary stateful objects, all declarations, batches, states, blobs, row types and digest functions", "why_tests_cant": "Pipelines are user code: a test exercises a few of them; the guard must hold against any behaviour, any state and any field.", "anchors": ["dataset/core.py:PipelineStateComposer", "dataset/core.py:PipelineStateComposer._decode_blob", "dataset/core.py:PipelineStateComposer._field_value_digest", "dataset/core.py:PipelineStateComposer._validate_fields", "dataset/core.py:PipelineStateComposer.prepare_batch"]}
{"id": "C103", "title": "The exported flat networks compute the trained networks, from the file", "statement": "For every flat network that has an exporter (ladder v1/v2, square v2/v3/v4/v4VQ, int8 and int4 tables) and every 7x7 position, an engine that reads the exported file at the offsets of the struct, turns the board, looks up base-3 chunk numbers and does integer arithmetic gets exactly the value output of the trained network times 2^14; spare output rows give 0; the batch size of the exporter does not matter. Networks inside their training clip range are exported for ladder and square v3. The value of ladder v1 is the same for all eight symmetries of the board, ladder v2 and square v4 for rotations; for square v2/v3 a turned board shifts the feature blocks.", "quantifier": "all parameters, feature sizes, batch sizes, positions, output rows", "why_tests_cant": "A test compares a few positions; tables have 59049 to 43046721 rows, and an error in one view, one chunk number or one offset shows only on some positions.", "anchors": ["model/flatnet.py:FlatLadder7x7NNUEv1", "model/flatnet.py:FlatLadder7x7NNUEv2", "model/flatnet.py:FlatSquare7x7NNUEv2", "model/flatnet.py:FlatSquare7x7NNUEv3", "model/flatnet.py:FlatSquare7x7NNUEv4", "model/flatnet.py:FlatSquare7x7NNUEv4VQ", "model/serialization/flatnet.py"]}
{"id": "C104", "title": "Field validation and collation accept exactly the declared data, and batches keep it", "statement": "A sample is accepted by the field validator exactly when it has all required and only declared fields, board_size is a pair, every value has a declared kind, and the declared axes exist and cover the board. A stacked batch is accepted exactly when each of its samples is and shared fields agree. Collation succeeds exactly when the samples have one key set, are valid, each field's values are acceptable (policy plane or flat policy of the board or of the physical input, with or without pass), shared values are equal and uniform values can be stacked; the result holds the samples' values in order, and is itself a valid batch. A list of files is accepted exactly when every file exists and no two entries name one physical file (hard links, symbolic links, and case on file systems without inodes), and the refusal lists exactly the groups of aliases.", "quantifier": "all samples, batches, declarations, value contents, file systems and path lists", "why_tests_cant": "A test tries some malformed fields; the claim is an equivalence over all dictionaries, shapes, axis declarations and alias structures.", "anchors": ["dataset/core.py:validate_field_dict", "dataset/core.py:CORE_FIELD_SPECS", "dataset/stream.py:collate_sample_dicts", "dataset/stream.py:reject_duplicate_physical_files"]}
{"id": "C105", "title": "The exported Mix10 file computes the trained network, from the board", "statement": "For a Mix10 network without spherical features, on every board of at most 65536 points where the mapping outputs stay above -511.5/32 and the depthwise biases lie in [-64, 64], integer inference (sums of products, shifts, rectification and saturation) on the exported integers gives exactly the two value heads and the two dynamically generated policy heads of the trained, fake-quantised network, also when it starts from the exported line tables indexed by the line codes of the board. The file is, byte for byte, the documented C++ struct behind the compressed mapping streams; no stored integer wraps around; for value dimension a multiple of 16 and depthwise dimension at most 32 or a multiple of 32 from 64 on, the padded members and the end of the bucket are at multiples of 64 bytes; and arch_hash tells dimensions apart (feature and depthwise below 2048).", "quantifier": "all weights, dimensions, boards and mapping networks", "why_tests_cant": "A test compares one network on some positions; the claim is over all real weights, boards and sizes, and about exact equality through every rounding and saturation.", "anchors": ["model/mixnet.py:Mix10Net", "model/serialization/mixnet.py:Mix10NetSerializer"]}
{"id": "C106", "title": "Gradient clipping keeps the direction and the limits", "statement": "With a norm limit m >= 0 and real gradients, clipping multiplies every gradient entry of every parameter by one common factor in [0, 1]; the reported norm is the Euclidean norm of all entries before clipping, however they are split into tensors; gradients whose norm plus 1e-6 is within m are unchanged; afterwards the norm is at most m and at least min(norm, m) - 1e-6. Without a limit real gradients are unchanged. A value limit v on top puts every entry into [-v, v], never enlarges an entry, never changes a sign and keeps the norm limit. NaN or infinite entries have exactly the described effect on all gradients. Parameters without gradient keep none.", "quantifier": "all gradients (real, infinite, NaN), tensor partitions, limits", "why_tests_cant": "A test tries a few gradients; the bounds and the common factor must hold for all real gradients and any partition into tensors.", "anchors": ["utils/training_utils.py:clip_grad_norm", "trainer/base.py:BaseTrainer._clip_gradients"]}
{"id": "C107", "title": "A committed checkpoint is kept only if it is what would be saved", "statement": "When a save that includes training state finds the state file of its iteration already on disk, the files are kept, and nothing is written, exactly when every process finds them to describe its current state: same counters, world size, configurations, optimizer, scheduler and gradient-scaler states, same data position, random generators and signature of this process, the same model weights in every model file, and valid matching quantiser manifests; otherwise every process raises. Values count as the same only if they agree at every place of the nested structure (tensor shape, type and content, key order, list or tuple). The files an unchanged run just saved are always kept, provided nothing in them differs from itself; a NaN in the optimizer state makes re-saving a collision, and files with continuation states of the oldest format never match.", "quantifier": "all nested state values, trainers, process counts and committed files", "why_tests_cant": "A test compares a few states; acceptance must imply equality of every leaf for every nested value, and unchanged states must be accepted for every run.", "anchors": ["trainer/base.py:BaseTrainer._checkpoint_values_equal", "trainer/base.py:BaseTrainer._validate_committed_checkpoint_set", "trainer/base.py:BaseTrainer._save_checkpoint"]}
{"id": "C108", "title": "A retained checkpoint's quantiser manifest is accepted exactly when consistent and intact", "statement": "At later saves the manifest of an earlier checkpoint is accepted exactly when it is of that checkpoint's iteration and rank (its file name included), its description of the quantisers is well formed (distinct non-empty model names, distinct paths, distinct aliases of which the first is its own place, floating-point parameters), it has statistics for exactly those quantisers, each possible (count within the target and zero when initialised, the type the configuration and precision imply, bytes = count \u00d7 width \u00d7 element size), its totals are the sums of these, the recorded size is within the bounds, and the sidecar file is there with the recorded size and hash. Every manifest a run writes, and every manifest a run can restore from, is accepted; one of a run with parameters of another type never is.", "quantifier": "all manifests, directories, processes with arbitrarily shared modules", "why_tests_cant": "A test tries a few corruptions; exactness must hold for every manifest and every set of modules.", "anchors": ["trainer/base.py:BaseTrainer._validate_retained_vq_runtime_manifest", "trainer/base.py:BaseTrainer._write_vq_runtime_sidecar", "trainer/base.py:BaseTrainer._restore_vq_runtime_sidecar"]}
{"id": "C109", "title": "Learning rates follow the configured schedule through skipped steps, stops and resumes", "statement": "After any history of steps, of which mixed precision may skip those of some optimizers, and of stops and resumes from the state just saved, every parameter group of every optimizer has the rate the configured schedule gives for the number of updates that optimizer really made: constant; multiplied by the factor every period; or the cosine from the configured to the final rate over the iterations (monotone, between the two, exact at both ends). A resume with the unchanged configuration is never refused, changes neither rates nor scheduler in any arithmetic, and one with a changed optimizer layout, base rate, schedule, schedule argument or iteration count is refused.", "quantifier": "all configurations, histories of skips and restarts, numbers of steps; the resume claims in any arithmetic", "why_tests_cant": "A test follows one schedule over a few steps; the recursions torch uses must equal the closed form after any number of steps, whatever is skipped and wherever the run is cut.", "anchors": ["utils/training_utils.py:build_lr_scheduler", "trainer/base.py:BaseTrainer._setup_scheduler", "trainer/base.py:BaseTrainer._load_state_checkpoint"]}
{"id": "C110", "title": "Loading weights takes exactly the matching tensors and reports exactly the rest", "statement": "Whatever the model and the state dictionary: after any load, strict or not, accepted or refused, each tensor of the model has the dictionary's value for its key if there is one that fits, and its old value otherwise. A strict load is accepted exactly when there is a fitting value for every tensor and no other key, except that for the ladder model the convolutions 6-24 of old files are ignored and make no difference. Saving and loading between models of the same shape is accepted and gives the saved weights. Loading pretrained weights is never refused, takes exactly the values of equal size, and reports as missing and as unexpected exactly the keys that are. After any load every quantiser reports the initialisation state its loaded tensor says, whatever it had cached.", "quantifier": "all module trees, state dictionaries, tensors and data", "why_tests_cant": "A test loads a few models; exactness must hold for every tree of modules and every combination of missing, extra, legacy and misshapen keys.", "anchors": ["utils/training_utils.py:state_dict_drop_size_unmatched", "trainer/base.py:BaseTrainer._load_pretrained_weights", "model/flatnet.py:FlatLadder7x7NNUEv3._load_from_state_dict", "model/vq.py:VectorQuantize._load_from_state_dict"]}
{"id": "C111", "title": "Retuning the prefetch limits during training never changes, loses or repeats a batch", "statement": "However the tuner changes the prefetch depth and thread count from batch to batch, as long as the depth stays positive, the measured dataset publishes the planned batches in order, each once and with its own decoded data; at every submission the batches under way are within the depth in force, the chunk is non-empty and within the chunk size in force; the audit counters equal what happened; a decoding failure is raised after everything before the failing chunk was published and nothing after it.", "quantifier": "all plans, decoders and sequences of settings", "why_tests_cant": "A test retunes once or twice; the settings may change after any batch and to any values.", "anchors": ["dataset/telemetry.py:ObservedSourceBatchDataset._iter_prefetched"]}
{"id": "C112", "title": "Masked batch normalisation normalises the real cells, and its hand-written gradient is the gradient", "statement": "For a mask of zeros and ones with a real cell (or no mask): the output at real cells is weight\u00b7scale\u00b7(x \u2212 mean)/\u221a(var+eps) + bias with the mean and variance of the real cells, and has mean `bias` and variance (weight\u00b7scale)\u00b2\u00b7var/(var+eps) there; at masked cells output and gradient are zero, and what they hold changes no output, statistic or gradient; the returned gradients of input, weight and bias are the derivative of the loss along every differentiable curve. The running statistics after any training history are the exponential averages of the batch statistics, the running variance is never negative, and evaluation with the batch's statistics gives the training output.", "quantifier": "all inputs, masks, weights, output gradients, curves and training histories", "why_tests_cant": "A gradient check samples a few points at a tolerance; the formula is claimed for all inputs and masks.", "anchors": ["model/layers/normalization.py:_MaskedBatchNormFunction", "model/layers/normalization.py:MaskNorm"]}
{"id": "C113", "title": "The interactive board is exactly the game played, and the engine always finds a best legal move", "statement": "After any sequence of move and undo calls, refused ones included, the board, side to move and history are those of the moves that stand: distinct cells, alternating colours. A move is accepted exactly on a free cell of the board, undo exactly when a move stands; refused calls raise and change nothing; undo after a move restores the same board. The model is fed the mover's stones first (unless fixed). On every board that is not full, for every policy and every descending sort of it, the engine plays a legal move of the largest policy; so in every game only a typed illegal move raises, each turn adds one stone, and play stops with one cell empty. The win rate is win + draw/2, in (0,1), and complementary under exchange of win and loss; printed moves read back as themselves on boards up to 32 columns.", "quantifier": "all board sizes, call sequences, policies, tie orders and games", "why_tests_cant": "A test plays a few moves; the claim is about every call sequence, tie order and game length.", "anchors": ["test_play.py:Board", "test_play.py:next_move", "test_play.py:test_play", "test_play.py:input_move", "test_play.py:output_move"]}
{"id": "C114", "title": "What is saved to a checkpoint file is what is loaded from it", "statement": "Saving succeeds exactly if the path names a directory, every extra is a dict and every metadata value a string; a refused save changes no file, and a save changes only the file written (`.pt` added exactly if the last path component has no extension) and its temporary name. Loading the file written gives back exactly the model, extra dicts and metadata if and only if no entry is named \"model\" and no extra shares a name with a metadata entry. Loading any file gives all other dicts as extras and all other values that can be written as text as metadata, fails without a \"model\" entry, and fails on a path saved without its extension.", "quantifier": "all paths, models, extra dicts, metadata and prior file systems", "why_tests_cant": "A test saves one checkpoint under one name; the claim characterises every name and every collision.", "anchors": ["utils/file_utils.py:save_torch_ckpt", "utils/file_utils.py:load_torch_ckpt", "utils/file_utils.py:make_dir"]}
{"id": "C115", "title": "The list of data files is every accepted file once, in an order independent of the operating system", "statement": "For any paths: the call raises exactly if some path is neither a file nor a directory; otherwise the list is, path by path, the path itself for a file (whatever its extension) and, for a directory, exactly the files below it with an accepted extension, each once, the files of a directory by name and then its subdirectories by name. The list is the same however the operating system orders directory listings and whatever empty directories there are.", "quantifier": "all paths, directory trees and listing orders", "why_tests_cant": "A test walks one temporary directory in one listing order; ranks on different machines must agree for all.", "anchors": ["utils/file_utils.py:make_file_list"]}
{"id": "C116", "title": "Hashed features read one row of every sub-table, a row of their own when the hash is perfect, and bad input is refused", "statement": "For any input size, levels, table size, sub-tables and divisor >= 1: a valid input reads exactly one row of each sub-table, in range and inside that sub-table, at its key divided by divisor^i, the key being its base-level value if all inputs fit the table and otherwise the sum of its hashes modulo the table size. If all inputs fit, distinct inputs read distinct rows and every row is read by some input. An input with a level outside [0, level), or a float outside [0, 1] even if it would round to a level, is an error in both modes; any other float input reads the rows of the nearest level vector, and exact level values their own.", "quantifier": "all layer configurations, hash tables and inputs", "why_tests_cant": "A test tries a few configurations; collisions, a row read from the neighbouring sub-table or a silently accepted input show only for some configurations and inputs.", "anchors": ["model/layers/hashing.py:HashLayer"]}
{"id": "C117", "title": "The nine board regions tile the board and follow its mirrorings, and their quantised averages are averages", "statement": "For any board size and content: the nine regions put together are the board, so their sums add up to the board's; each is a rectangle with sides of a third of the board up to one; all nine means are defined exactly if both sides are at least 3. Mirroring or transposing the board permutes the nine sums accordingly. On features in steps of 1/128 the quantised sum is the integer sum shifted right by five, if it fits. On int8 values the quantised average of four lies between the least and the greatest, at or at most one step above the exact mean, and is unchanged by mirroring the block; transposing it can change it.", "quantifier": "all board sizes, feature maps and quadruples of int8 values", "why_tests_cant": "A test checks one or two board sizes; a remainder row counted twice or dropped shows only for some sizes.", "anchors": ["model/ops/aggregation.py:split_3x3_regions", "model/ops/aggregation.py:sum_3x3_regions", "model/ops/aggregation.py:mean_3x3_regions", "model/ops/aggregation.py:quantized_sum_3x3_regions", "model/ops/aggregation.py:quantized_avg4"]}
