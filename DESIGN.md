# Formal model of dhbloo/pytorch-nnue-trainer in Lean 4

## 1. Trusted base

* Lean 4.33.0's kernel, and the standard axioms `propext`, `Classical.choice`, `Quot.sound`
  (the axioms actually used by each theorem are listed by `tools/axioms.sh`; see section 5).
* The faithfulness of the model: every definition under `lean/Verif/**/Model*.lean` cites the file and lines
  of /repo it models and says where it simplifies.  Nothing in Lean checks this correspondence.
* Python/numpy/torch/C++ semantics as described in the comments (unbounded Python ints, dict insertion order,
  list semantics, `os.replace` atomic, numpy uint64 wrap-around).
* Not trusted / not used: `native_decide`, `bv_decide`, own axioms, compiled code.

## 2. General modelling choices

* Python exceptions are `Option`/`Except`; a raised exception leaves the modelled state as the code leaves it.
* blake2b is an uninterpreted function (`digest : List UInt8 -> Nat`, or the derived word stream
  `Nat -> Nat`); all theorems hold for every such function, hence for blake2b.
* Floating point is not modelled. Where a property is about exact arithmetic (metric merging, weight clipping,
  admission rates) the model is over an ordered field / rationals and the property says so.
* Tensors, decoding of NPZ bytes, CUDA, threads: abstracted to sequences/records and explicit schedules; each
  theorem quantifies over all schedules.

## 3. Plan per property

Layout: `Verif/<Area>/Model.lean` (code), `Verif/<Area>/Lemmas.lean` (proofs),
`Verif/<Area>/Props.lean` (small specs, property theorems, non-vacuity examples).

| id | model | proof idea |
|----|-------|-----------|
| C01 | `uniform_below` rejection loop over an arbitrary word stream | loop induction; counting of accepted words per residue as a `Finset.card` |
| C02 | `_tlv` as `Val -> List Byte` | mutual induction: encoding is injective and prefix free (parser-free cancellation lemma) |
| C03 | scalar and prefix-sharing draws | byte-list equality of the digest inputs, then congruence |
| C04 | Fisher-Yates loop with arbitrary draws | swaps preserve `List.Perm` |
| C05 | admission test over rationals | order lemmas |
| C06 | rank slices | list slicing, concatenation |
| C07 | canonical encoder/decoder on a JSON-like tree | structural induction |
| C08 | `SumCount` etc. as commutative monoids | permutation invariance of folds, pooled mean |
| C09-C13 | `StreamingShuffleReservoir` step by step, with arbitrary slot draws | multiset invariant, step invariants, simulation relation for the packed version |
| C14 | chunked FIFO | refinement to `List` |
| C15-C19 | dense/indexed NPZ sources as cursor machines | induction over request lists |
| C20-C21 | sequential source as reader ring; greedy assignment | ring invariant; greedy invariant |
| C22-C24 | smooth weighted round robin; cycle filling; ratio weights | potential invariant; list arithmetic |
| C25-C30 | `DatasetPlanner` state machine over an abstract source | invariants over the state machine |
| C31-C32 | prefetch machines with explicit schedules | simulation to the synchronous list |
| C33-C36 | samplers | arithmetic, refinement |
| C37-C43 | file-system model with crash points, pruning, writer and trainer loop machines | invariants over all prefixes of operation sequences |
| C44-C47 | symmetry as index maps on arrays of any size | case analysis and arithmetic |
| C48-C50 | binary record formats as bit-fields and byte parsers | mixed radix arithmetic, induction |
| C51-C54 | export encoders | bit stream invariant |
| C56-C57 | line encoding, forbidden point | base-3 arithmetic, state restoration |
| C55, C58-C61 | telemetry controllers and cache | invariants |
| C62-C64 | buffered / aligned / tensorboard writers, `deep_update_dict` | induction over write sequences and nested dictionaries |
| C65 | filter evaluator as an AST interpreter over arbitrary primitives, with an execution log; row selection | mutual structural induction |
| C66 | `ChainedOptimizer` parameter routing and group bookkeeping | invariant over histories of added groups, scheduler writes and steps |
| C67 | weight clipping over an ordered field | case analysis |
| C68 | evaluation loop / distributed validation | list arithmetic |
| C69 | CUDA prefetcher slots and streams | simulation with explicit schedules |
| C70 | sample post-processing (symmetry, padding, moves) | array index maps |
| C71-C73 | export tables and files | table lookup lemmas, file-system model |
| C74 | batch, grouped, chunked and packed decoding of processed NPZ rows | masks, scatter invariant, equality with row-by-row decoding |
| C75 | total-loss statistic: producers, schema check, reduction over ranks, finalizers | key injectivity, generic reduction (C08), group sums over sorted ids |
| C76 | both loss computations of supervised.py, as functions of batches made of rows | per-row lemmas: every head is a sum over rows divided by a count, or its square; then C75 |
| C77 | `_owned_unique_mask` with its two gathers, the deduplication and the evaluation statistics of the quantizer, for all ranks at once | each mask is a predicate on encodings (`real here and real on no lower rank`); induction over the ranks gives a duplicate-free enumeration of the line set |
| C78 | expiry with its host bounds, EMA update, loads, as a history on one process | simulation: the bounds enclose the sizes (`lower ≤ every size`, `total ≤ upper`), kept by the moving average; a shown bound excludes dead codes |
| C79 | collecting inputs, k-means, initialisation, the saved payload and its restore, on all ranks | simulation by an ideal life without restarts; each rank's pending inputs are a prefix of what it saw |
| C80 | the whole training forward on any number of ranks | induction over the ranks; sums over ranks of per-rank scatters are sums over the concatenation |
| C81 | the Triton search kernels for one query (tiles, top-k by masking, block reduction, ordered replay) and their callers | an entry with fewer than k entries before it is picked (induction over k, counting); the reductions return the lexicographic minimum |
| C82 | `run` of one process with the step skeleton, the two validity slots and asynchronous copies, saves, emergency save | loop invariant: in-flight checks are exactly the last steps and each slot holds its value once landed; case analysis of every exit |
| C83 | the loop of every process as a program over collectives; the group runs in lockstep | each phase: from a common state all processes reach a common state and verdict (`Reaches`); composed along the program, then induction over micro-steps and iterations |
| C84 | state dictionaries as `Canon.Val` with the canonical encoder of C07, SHA-256 a parameter; capture, validation, file assembly and load | exact characterisation of the validation loop (`C84_accept_iff`), dictionary lemmas, C07 injectivity for digests |
| C85 | fake quantisation, quantised blocks, heads and feature extraction over exact rationals; the exporter's integers; separate integer-only inference as specification | clipping commutes with rounding at integers, block-by-block simulation, range bounds |
| C86 | writer as a list of typed writes; documented struct as a list of members with offsets and a C-style reader as specification | writer = member list, reading at offsets by induction over members, sizes modulo 64 |
| C87 | memory as a map from (storage, offset), tensors with shape and strides, launch cache, partition, kernel lanes in any order, reference path; scalar AdamW as specification | ownership map for disjointness, folds of elementwise actions are order independent, layout walk covers `0…numel-1`, plan invariant over histories |
| C88 | host and device interleaving: ring slots, events, in-order stream | invariant: draining the stream with the present host buffers gives every kernel its own table |
| C89 | raw KataGo rows as bytes and numbers, bit unpacking, policy normalisation, filters, board-size selection; what KataGo writes as specification (`packPlane`, `Holds`) | bits of a byte, `Nat.sqrt` of the padded bit count, filters as `filterMap`, C46 for the item |
| C90 | map-style and streaming loaders of raw and processed files, with optional columns, sequential or combined masks | files as lists of rows (`cols`), equal totals force optional columns to be in all files or none |
| C91 | `step`: grouping by shape, momentum, batched orthogonalisation, write-back | the groups are a permutation of the parameters with gradients; per-parameter spec `Updated` |
| C92 | `zeropower_via_newtonschulz5` over real matrices | `SVD` spec; each iteration maps singular values by the quintic; existence of the SVD from the spectral theorem; interval bounds on the quintic |
| C93 | `compute_supervised_metric_statistics` (CE statistics are C75/C76) | per-row scores as specification; selection and column operations commute with stacking rows; validation by C08 |
| C94 | `rotate_to`, the transform, its vector-Jacobian product, and the choice of estimator over real vectors of any dimension | product of two reflections; adjoint identity by bilinearity; Cauchy–Schwarz for the nearly opposite case |
| C95 | attribute and gradient of each parameter through forward, backward (opposite order) and clearing | invariant with three phases (untouched, linked only, really used) over the micro-steps |
| C96 | dictionaries in insertion order, normalisation by sorting, schema check, per-process sums, flat gather with reshape and mean, the two intervals | normal form of dictionaries with equal keys; rows of the flat list; invariant on the current window by induction over the run |
| C97 | directional layers (all code paths), residual blocks, Mapping, batch-wise table export, line encoder, table lookup, integer engine | every layer acts on the line through a cell (three taps, zero outside); induction on depth gives locality; lines and boards with equal windows agree; joined with C56 and C85 |
| C98 | codebook layer in evaluation, clamp, straight-through, feature quantisation, table export, index mask, usage zeroing, ten-bit packing, index bytes | C97 (row = network feature), C77 (evaluation = per-vector quantisation) and C51 (packing is lossless) joined; a used line code's codebook row has a positive count |
| C99 | the training loss as in C76, accumulation over micro-steps and processes | every loss is a mean of row terms plus multiples of squared means (induction over the auxiliary losses); averages of means of equal parts; Cauchy-Schwarz for the regularisation |
| C100 | name grammar as an executable matcher; publication as a trace of directory states with a fault point | matcher = grammar (both directions), digit lemmas, case analysis of the trace |
| C101 | discovery fold, schema, capture loop, write, manifest validation, restore loop; codec, hash and finiteness arbitrary | fold invariants; closed forms of the capture and validation loops; restore loop by induction over distinct identities |
| C102 | the composer with pipelines as arbitrary objects and the real state codec (C07); the digest stream | equivalence of checks and a declarative specification; inductive chain of clean calls; codec round trip; prefix-freeness of the stream |
| C103 | networks (slicing, rotation, valid convolutions with arbitrary point-wise layers, fake quantisation, value heads) and exporters down to bytes; the engine is a separate integer specification that turns the whole board | receptive-field locality, base-3 numbering, exact rounding lemmas, reading back packed/aligned structs |
| C104 | validator (sample and batch), collation and duplicate rejection over abstract contents (equality, stacking, rows, promotion) | equivalences with separate descriptions of a valid sample, a batch of samples and one physical file |
| C105 | Mix10 forward pass over exact arithmetic, the exporter's integers, the written bytes | simulation of every layer by integer inference (a separate spec), documented struct read as C reads it, C97's table lookup for the board |
| C106 | gradients as lists of real, infinite or NaN entries, norm of norms, coefficient, scaling, value clamp | real analysis of the common factor, separate definition of the norm of all entries |
| C107 | recursive comparison, the check of the committed set, the keep/collision/write decision over the state model of C84 | path-wise agreement as specification (structural induction), exact acceptance condition, own file accepted, accepted file of any save agrees field by field |
| C108 | the three loops of the check with their accumulators over the manifest type of C101 | invariants of the loops, giving an iff with a separately written consistency predicate; the capture and restore loops of C101 imply it |
| C109 | the scheduler construction, torch's three recursive get_lr, the step loop with skips, the state file and the resume with its checks | an invariant relating the rates to the closed form (the cosine recursion by trigonometry over the reals); resume is the identity on reachable states |
| C110 | torch's recursive load over a tree of modules with the two overrides, the size filter and the strictness check | mutual induction reducing the module-by-module loading to one map over the flat dictionary, then the reports by membership |
| C111 | the generator with its settings a function of the number of batches yielded | an invariant over submissions, chunks and refills, with a measure for termination |
| C112 | forward, backward and running statistics of one channel over the reals | derivative calculus along a curve; the quotient terms collected with Σ w(x−mean)=0 |
| C113 | board, calls, engine and loop as functions | the list of standing moves as specification, refinement by induction over calls and turns; pigeonhole for the free cell |
| C114 | the entries of the file as an ordered dict, load as a filter of it | fresh puts append; keys stay distinct; exact iff by comparing entries |
| C115 | a directory as its listing in any order, the walk as a recursive function | membership by induction; strict sortedness under an explicit path order, hence uniqueness |
| C116 | the row indices read per sample, with out-of-range reads as errors | induction on the levels (Horner form, injectivity and surjectivity of base-level digits) and on the sub-tables |
| C117 | an axis slice as a list of indices, a region as the list of its rows | the three slices concatenate to the axis and mirror into each other; integer arithmetic for the quantisers |

Properties the code does not satisfy in full are kept with their full statement, a machine-checked
counterexample and a `_partial` theorem under the weakest practical hypothesis; see section 4.

## 4. Findings (code deviates from the property, or a reader could expect more than it does)

Theorem or example names in parentheses are machine-checked witnesses.

1. Planner resume drops empty shape queues although `max_shape_queues` counts empty ones, so a resumed
   run can hit the limit later than the original (`C29_queue_limit_differs`).
2. packed/simple binary readers with `apply_symmetry` and `drop_extra=False`: recorded moves are not
   transformed with the board (`C70_moves_not_transformed`).
3. `fixed_board_size > board_size` with symmetry: the symmetry is applied to the padded array
   (`C70_padding_moved`).
4. The "flip" symmetry set is not closed under composition (`C45_closed` states which sets are).
5. `ChainedOptimizer` with several initial groups merges them into sub-group 0; the last group's learning
   rate wins (`C66_initial_groups_merge`), other per-group options of the outer groups are ignored.
6. `'²'.isdigit()` is true but `int('²')` raises in `get_iteration_from_ckpt_filename` (not modelled: ASCII digits only).
7. `num_keep_states = 0` deletes the state that was just saved (example in Ckpt/Props40).
8. An emergency save can happen after `_checkpoint_safe = True` without draining the pending finite check
   (`C42_interrupt_witness`); hence C42 is partial.
9. The autotuner ignores a lock on `cache_entries` alone in its cache-bytes branch (`C58_entries_lock_ignored`).
10. The native reservoir counter check is one draw stricter than Python's at 2^63 (C12).
11. `next_packed_records` ignores rank sharding (harmless: only called unsharded).
12. Composite restore rejects unsharded rank ≠ 0 cursors with sequential children (unreachable).
13. Sequential restore accepts a pending entry index −1 when the reader's entry index is 0.
14. `commit_prepared` assigns digest and blob before raising on a missing state (`C30_rejected_commit`).
15. A negative index into `MultiDataset` goes to the first child (`C36_negative_first_child`).
16. A leftover `.tmp` model file with a numeric name part is parsed as another iteration (example in Ckpt/Props39).
17. packed_binary records with odd `initPly` invert `stm_input` (`C50_packed_side_odd`).
18. ONNX export is not atomic (`C73_onnx_not_atomic`).
19. Inverted min/max board size arguments are accepted and advertise no board size (example in Export/Props54).
20. Forbidden points: exactly five in one direction with an overline in another is flagged forbidden
    (`C57_five_and_overline`).
21. The stated total of line encodings is not tight for length 1.
22. Autotune synchronisation across heterogeneous ranks rejects rank 0's state (`C58_foreign`).
23. `PipelineProfileStore.load` can race with pruning (FileNotFoundError); a new profile can be pruned on equal mtimes.
24. Explicit `prefetch_batches = 0` is clamped to 1.
25. Canonical decoding of boolean tensors keeps raw bytes other than 0/1.
26. The validation metric is the mean of global-batch values weighted by ranks owning each batch (`C08_validation`).
27. trainer/base.py:4544 needs a max collective; the sum/mean collective would be wrong (`C08_maximum_needs_max_collective`).
28. Filters: the conjunction of chained comparisons bypasses the allocation limit (`C65_chain_unchecked`); surplus
    positional arguments reach ufuncs as `out`, so a filter can overwrite an input array (`C65_surplus_argument`);
    unary and comparison exceptions are not converted to ValueError (`C65_raw_error`); tuple operands and an advanced
    index on a later axis are under-estimated by the pre-check (the post-check still rejects).
29. `deep_update_dict` aliases sub-dicts of the new dict and leaves the base partially updated on TypeError.
30. `ChainedOptimizer.add_param_group` adds the outer group before validation; the next step raises
    (`C66_failed_add_breaks_step`).
31. muon-adamw construction fails if the model has no Muon or no AdamW parameters (`C66_muon_adamw`).
32. Buffered tensorboard writer: a partially failing write followed by a retried flush duplicates bytes
    (`C62_partial_failure_duplicates`).
33. Weight clipping with min > max silently sets everything to max (`C67_inverted`).
34. Aligned writes are aligned relative to the first write; after a header absolute offsets are not aligned (C63).
35. `filter_data_by_condition` with a field shorter than the mask raises after filtering earlier fields
    (`C65_rows_partial_update`).
36. Packed decoding refuses batches that mix files with a flat `pt` and files without `pt`, which the unpacked path
    accepts (`C74_packed_layout_limit`); a chunk of batches fails when its batches come from files of different
    layouts although each decodes alone (`C74_chunk_layout_limit`).
37. k-means with `kmeans_iter = 0` leaves `bins` unbound, so initialisation raises; C79 assumes at least one iteration.
38. The accelerated code search is not exact: with more near ties in a tile than the kept candidates (two for 64 dimensions)
    it can return another code (`Search/Examples81.lean`); `C81_exact` states when it is.
39. A signal delivered between `_checkpoint_safe = True` (base.py:4087) and the loop head after a non-finite step lets the
    emergency checkpoint save that step's weights (`C82_interrupt_gap`): the pending check is not drained first.
40. `prepare_commit` failing on one process only, or `os.path.exists` of the state file differing between processes
    (a shared filesystem with caching), leaves the processes in different collectives for ever
    (`C83_prepare_gap`, `C83_exists_gap`): both are used before the local outcome is exchanged.
41. When a step check fails on one process, the collective error lists every process, the healthy ones as
    "non-finite loss, metric, or gradient norm" (base.py:3582-3584).
42. Continuation states of the oldest format (exactly four keys) bypass every slot, rank and digest check: a list of
    them in another order is accepted and each process resumes another's cursor (`C84_old_format`, example).
43. The exporter's overflow assertion for the depthwise convolution can never fail (`C85_dwconv_check_never_fires`):
    the clipped weights are at most 1/2 already and are divided by two again; the accumulator can reach 36783 > 32767
    (`C85_dwconv_can_overflow`), where the trained network saturates. A sufficient condition is `C85_dwconv_int16`.
44. The exporter clips the depthwise bias to [-64, 64]; training uses up to ±256 (`C85_bias_clip_differs`).
45. With saturated features the int32 accumulator of the static policy convolution overflows from three channels on
    (`C85_policy_can_overflow`).
46. The text export casts the int16 weights of a static policy convolution to int8 (`C86_text_static_policy`).
47. The architecture hash does not depend on the head variant flags although they change the file layout, its size
    fields overlap from policy or value dimension 512 on (`C86_arch_hash_collides`), and for value dimensions that are
    odd multiples of 8 the padding does not reach a multiple of 64 bytes (`C86_bucket_aligned`).
48. The first launch-cache check compares gradient addresses only: a parameter re-allocated while every gradient keeps
    its address is not updated (the write goes to its old storage) although its step count and moments advance
    (`C87_silent_move`). The step counter is saved as float32 and is exact only up to 2^24 (`C87_step_reload_inexact`).
49. Raw KataGo tensors of side 3 (nine bits, two bytes) are read as 4 × 4 (`C89_side_three`).
50. A row with komi 0 is decoded as black to move but `filter_stm=-1` drops it (`C89_komi_zero`).
51. A raw board smaller than its tensor is moved out of the top left corner by symmetries while `board_size` stays
    (`C89_small_board_symmetry`); with a pass entry every such item is an error (`C89_small_pass_symmetry`).
52. A streaming raw file without accepted rows raises, the map-style dataset reads on (`C90_raw_empty_file`); a filter
    condition that looks at other rows means different things to the two variants (`C90_condition_must_be_rowwise`).
53. Muon stacks vectors of one shape into one matrix: with the fused kernel the step raises (`C91_vectors_refused`). The
    builder of muon-adamw routes only parameters with two or more dimensions.
54. `winrate_acc` counts a drawn target as always right for a scalar value head, but for a win-loss-draw head only when it does
    not prefer the loss (`C93_draws_differ`); the accuracies of the two kinds of models are not comparable.
55. **C94**: with the rotation trick a zero feature row is not quantised: `rotate_to(0, q)` returns 0, although the code index, loss and statistics count it as `q` (`C94_zero_source`); the exported model, which uses the code, then differs from the trained one on such rows.
56. **C95**: `ddp_preinit_identity` after an *unmarked* real use in the same window makes `clear_ddp_preinit_gradients` drop a real gradient (`C95_order_matters`): the marker is only recorded after a link. Unreachable today because initialisation never goes back; resetting a quantiser inside a window would hit it.
57. **C96**: training a vector-quantised model from scratch with the default k-means initialisation is aborted: the step after the codebook is filled reports `vq_loss` and `vq_*` metrics that earlier steps did not, so `_synchronize_step_validity` raises "metric schema changed" and marks the run divergent, which also suppresses the final checkpoint (`C96_new_metric_aborts`). Only a restart from a checkpoint taken exactly between the filling step and the next one gets past it.
58. **C96**: the sums are reset by *shown* lines too, so unless the show interval is a multiple of the log interval a log entry covers only the iterations since the last shown line (`C96_short_window`: down to a single iteration), although it is written as the metric of the interval.
59. Mix9Net builds its mappings without fix_direction_order: its directions 2 and 3 are the diagonal and the anti-diagonal, the line encoder's are the reverse. Per-direction features therefore belong to the other diagonal's line code; only the symmetric four-direction mean hides it (C97_lookup, netDir).
60. Exporting a model object that has just run an evaluation forward fails: `_eval_entry_mask` stays set on the VQ layer, its length does not match the line table, and forward raises (C98_stale_mask). An uninitialised codebook makes the export raise a TypeError instead of a message.
61. policy_reg squares the mean logit of the local batch: with policy_reg_lambda > 0 (or an auxiliary policy_reg) the objective depends on how a global batch is split over processes and micro-steps; more splitting penalises more (C99_regularised, C99_regularised_strict). Validation uses the global mean, so training and validation values of policy_reg differ systematically in multi-process runs.
62. The sidecar restore loads modules one by one inside its validation loop (`trainer/base.py:2572-2617`): when a later module's payload is refused, earlier modules have already received theirs. The error is raised, so this only matters to a caller that catches it.
63. The field digest of the pipeline guard streams dictionaries without their length (`dataset/core.py:1500-1504`): `{0: {1: None}}` and `{0: {}, 1: None}` have the same stream, so a pipeline that moves an entry between nested dictionaries of a field in place is not detected (`C102_digest_dicts`).
64. The ladder exporters write `dim_policy + dim_value` columns per table row while the documented struct has `ValueDim` columns (`model/serialization/flatnet.py:160, 205-207`): the file has the documented size exactly when `dim_policy = 0`, and the default is 16 (`C103_ladder_documented_size`). The float policy head is not exported.
65. Square v2, v4 and v4VQ inherit weight clipping to [-1, 127/128], but only first-layer weights that round into int8 at scale 256 (about +-0.5) are exported, so training can end in a model that `serialize` refuses (`C103_square_v2_refuses`; acknowledged in a comment of the exporter). Square v3 overrides the clipping and is always exportable (`C103_square_v3_accepts`).
66. `_field_dtype_kind` gives an empty move list the kind `O` while `collate_sample_dicts` uses `np.asarray([]).dtype.kind = 'f'`, so a valid sample with an empty `position` cannot be collated (`C104_empty_moves`). The repository's readers turn the move list into a string before, so only another reader meets it.
67. Mix10 training limits mapping outputs to [-511/32, 511/32], but the exporter's table keeps [-512/32, 511/32]: outputs at or below -511.5/32 are exported as -512 where training used -511 (`C105_clamp_iff`, `C105_low_feature_differs`).
68. The Mix10 exporter ignores `spherical_feature` (and a feature norm): the exported table holds the unnormalised outputs (`C105_spherical_not_exported`).
69. The Mix10 struct's padding to 64 bytes only aligns the gate for some accepted sizes: with dim_dwconv = 48 and dim_value = 64 the gate is at 32 modulo 64 (`C105_not_aligned`).
70. Without a configured norm limit the trainer still multiplies all gradients by min(inf/(norm + 1e-6), 1): one infinite gradient entry gives inf/inf = NaN and turns every gradient of every parameter into NaN (`C106_inf_no_limit`); the stock behaviour of not clipping would leave the other parameters' gradients intact.
71. A NaN anywhere in the optimizer, scheduler or model state makes the re-save of the very same, unchanged state fail as a collision (`C107_nan`), and a state file of the oldest format is never accepted at its own iteration (`C107_old_format`).
72. Quantisers whose parameters are not fp16/bf16/fp32/fp64 (possible with convert_to_fp32) are captured and restorable, but their manifests are never accepted at the next save (`C108_float_needed`).
73. `save_torch_ckpt` with a bare file name fails: `make_dir("")` calls `os.makedirs("")` (C114_save)
74. an extra dict or metadata entry named "model", or one shared by both, is silently lost or replaces the model (C114_roundtrip)

## 5. Axioms and scope

Axioms: `tools/axioms.sh` prints `#print axioms` for every theorem of MANIFEST.json. Every theorem depends on a
subset of `propext`, `Classical.choice`, `Quot.sound`; no other axiom occurs. No `native_decide`/`bv_decide`.

Modelled (file → area under lean/Verif):

| code | area |
|------|------|
| dataset/core.py: RNG, TLV, rank slices, canonical codec, loss/metric statistics | Rng, Core, Canon, Stats |
| dataset/shuffle.py, dataset/planner_cpp/packed_shuffle.cpp | Reservoir |
| dataset/npz_source.py, sequential_source.py, composite_source.py, sparse_numpy.py (cursors, assignment) | Npz, Seq, Composite |
| dataset/planner.py | Planner |
| dataset/stream.py, prefetchers in utils/training_utils.py | Prefetch |
| samplers and datasets in dataset/__init__.py, source_dataset.py, utils/training_utils.py | Sampler |
| utils/async_checkpoint.py, checkpoint parts of trainer/base.py and utils/file_utils.py | Ckpt |
| utils/data_utils.py (symmetry, post-processing), packed_binary.py, simple_binary.py | Board |
| export.py, model/serialization (bit packing, hashing, tables, meta) | Export |
| dataset/pipeline/line_encoding(.py, .cpp), forbidden_point(.py, .cpp) | LineEnc, Forbid |
| dataset/telemetry.py | Telemetry |
| evaluation loop of trainer/base.py | Eval |
| utils/tb_writer.py, misc_utils.py, chained_optimizer.py, clipping in training_utils.py | Utils |
| dataset/filter.py, utils/data_utils.py:441-456 | Filter |
| dataset/decoder.py: ProcessedNpzDecoder decode paths | Decode |
| trainer/loss/supervised.py (statistics), dataset/core.py:992-1404 | Total |
| trainer/loss/supervised.py (training loss, evaluation terms), trainer/loss/utils.py, cross_entropy_with_softlabel | Loss |
| model/mixnet.py:823-935, model/vq.py (evaluation statistics, expiry, EMA, k-means, initialisation, continuation) | Vq |
| trainer/base.py: run loop and pipelined finite checks of one process | Train |
| trainer/base.py: the same loop on any number of processes (collectives, error exchange, checkpoint phases) | Ranks |
| trainer/base.py: continuation states of the processes, state file assembly and load checks (scaler and `torch.save` excluded) | Resume |
| model/ops/vector_quantization.py (search kernels and callers) | Search |
| Mix9 quantised forward pass and export (utils/quant_utils.py, model/layers, model/ops, model/mixnet_components.py, model/mixnet.py:437-578, model/serialization/mixnet.py:1372-2001) | Quant |
| utils/fused_adamw.py (sparse gradients, closures and foreach flags excluded) | Adam |
| utils/muon.py (closures, devices and rounding excluded) | Muon |
| dataset/katago.py (raw and processed datasets; digests and record references excluded), dataset/decoder.py:121-192, 894-1024 | Katago |
| trainer/metric/supervised.py | Metric |
| model/vq.py rotation trick and straight-through estimator (exact reals, one row; detached tensors are constants) | Rotate |
| model/vq.py zero links, model/flatnet.py use, trainer/base.py clearing (gradients as one real entry; averaging over processes left out) | Link |
| trainer/base.py training metrics: normalisation, schema check, accumulation, gather, log/show schedule; utils/misc_utils.py add_dict_to (rational values, all processes in lock-step) | Log |
| model/layers/directional.py, model/mixnet_components.py:17-110, serialization/mixnet.py:1558-1607 | Mapping |
| serialization/mixnet.py:2155-2309, model/mixnet.py:655-670,852-972 | VqExport |
| trainer/loss/supervised.py (split invariance), gradient accumulation of trainer/base.py:3730-3787 | Loss |
| trainer/base.py:117-128, 1262-1362 | Sidecar/Files |
| trainer/base.py:129-160, 1098-1216, 1308-1385, 2333-2617; model/vq.py:489-640 | Sidecar/Model |
| dataset/core.py:1419-1804 | Pipe |
| model/flatnet.py:17-320, 937-1310; model/serialization/flatnet.py (all) | Flat |
| dataset/core.py:167-347; dataset/stream.py:39-58, 103-231 | Collate |
| model/mixnet.py:1026-1343; model/serialization/mixnet.py:2362-2745 | Mix10 |
| utils/training_utils.py:38-65; trainer/base.py:3366-3390 | Clip |
| trainer/base.py:1748-1918, 1968-2007 | Collide |
| trainer/base.py:2684-2926 | Sidecar/Retained |
| utils/training_utils.py:193-207, trainer/base.py:1010-1062, 1460-1480, 1541-1554, 2180-2192, 3893-3910 | Schedule |
| utils/training_utils.py:1292-1306, trainer/base.py:1719-1737, model/flatnet.py:356-387, model/vq.py:454-488 | Weights |
| dataset/telemetry.py:1077-1137 | Tuned |
| model/layers/normalization.py:72-153,182-282 | Norm |
| test_play.py:169-228,253-287,349-358,397-414 | Play |
| utils/file_utils.py:6-18,47-126 | Ckio |
| utils/file_utils.py:21-44 | Files |
| model/layers/hashing.py:13-112 | Hash |
| model/ops/aggregation.py:9-60 | Regions |

Not modelled: neural network forward/backward passes, Triton/CUDA kernels, floating-point rounding,
argparse/configargparse, logging, visualisation, benchmark tools, the operating system below `os.replace`/`open`,
NPZ/zip decompression, torch.distributed beyond its collectives' values,
thread scheduling beyond the explicit schedules the theorems quantify over.
