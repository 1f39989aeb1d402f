{
 "claims": [
  {
   "property": "C01",
   "status": "proved",
   "theorems": [
    "Verif.Rng.C01_uniform_below_in_range",
    "Verif.Rng.C01_unbiased",
    "Verif.Rng.C01_progress"
   ],
   "note": ""
  },
  {
   "property": "C02",
   "status": "proved",
   "theorems": [
    "Verif.Rng.C02_encoding_injective_prefix_free",
    "Verif.Rng.C02_hash_input_injective"
   ],
   "note": ""
  },
  {
   "property": "C03",
   "status": "proved",
   "theorems": [
    "Verif.Rng.C03_base_path",
    "Verif.Rng.C03_batched_keys",
    "Verif.Rng.C03_v2_batched",
    "Verif.Rng.C03_v2_packed_rows",
    "Verif.Rng.C03_v2_in_range"
   ],
   "note": ""
  },
  {
   "property": "C04",
   "status": "proved",
   "theorems": [
    "Verif.Rng.C04_permutation",
    "Verif.Rng.C04_distinct_draws_distinct_results"
   ],
   "note": ""
  },
  {
   "property": "C05",
   "status": "proved",
   "theorems": [
    "Verif.Rng.C05_ends",
    "Verif.Rng.C05_monotone",
    "Verif.Rng.C05_iff"
   ],
   "note": ""
  },
  {
   "property": "C06",
   "status": "proved",
   "theorems": [
    "Verif.Core.C06_accepts",
    "Verif.Core.C06_partition",
    "Verif.Core.C06_disjoint_cover",
    "Verif.Core.C06_short_batch",
    "Verif.Core.C06_sharded",
    "Verif.Core.C06_single"
   ],
   "note": ""
  },
  {
   "property": "C07",
   "status": "proved",
   "theorems": [
    "Verif.Canon.C07_accepts",
    "Verif.Canon.C07_roundtrip",
    "Verif.Canon.C07_canonical",
    "Verif.Canon.C07_unique",
    "Verif.Canon.C07_injective"
   ],
   "note": ""
  },
  {
   "property": "C08",
   "status": "proved",
   "theorems": [
    "Verif.Stats.C08_sum_count",
    "Verif.Stats.C08_maximum",
    "Verif.Stats.C08_sufficient",
    "Verif.Stats.C08_mean_square",
    "Verif.Stats.C08_mean",
    "Verif.Stats.C08_replicated",
    "Verif.Stats.C08_replicated_close",
    "Verif.Stats.C08_global_batch",
    "Verif.Stats.C08_global_batch_topology",
    "Verif.Stats.C08_validation",
    "Verif.Stats.C08_validation_topology",
    "Verif.Stats.C08_global_sufficient",
    "Verif.Stats.C08_evaluation_mean",
    "Verif.Stats.C08_evaluation_sufficient",
    "Verif.Stats.C08_evaluation_maximum",
    "Verif.Stats.C08_maximum_needs_max_collective"
   ],
   "note": ""
  },
  {
   "property": "C09",
   "status": "proved",
   "theorems": [
    "Verif.Reservoir.C09_conservation",
    "Verif.Reservoir.C09_drain_emits_every_item_once"
   ],
   "note": ""
  },
  {
   "property": "C10",
   "status": "proved",
   "theorems": [
    "Verif.Reservoir.C10_budgets",
    "Verif.Reservoir.C10_accounting",
    "Verif.Reservoir.C10_oversize_rejected"
   ],
   "note": ""
  },
  {
   "property": "C11",
   "status": "proved",
   "theorems": [
    "Verif.Reservoir.C11_offer_many",
    "Verif.Reservoir.C11_offer_zero_sized",
    "Verif.Reservoir.C11_chunking"
   ],
   "note": ""
  },
  {
   "property": "C12",
   "status": "proved",
   "theorems": [
    "Verif.Reservoir.C12_native_run_is_python_run",
    "Verif.Reservoir.C12_python_run_is_native_run",
    "Verif.Reservoir.C12_native_offer_fails_before_mutation"
   ],
   "note": "The native counter check is one draw stricter than the Python one at exactly 2^63 draws; the completeness theorem therefore assumes fewer than 2^63 draws."
  },
  {
   "property": "C13",
   "status": "proved",
   "theorems": [
    "Verif.Reservoir.C13_snapshot_restores",
    "Verif.Reservoir.C13_resume_exact",
    "Verif.Reservoir.C13_restore_validates",
    "Verif.Reservoir.C13_packed_snapshot_restores"
   ],
   "note": "A snapshot taken after exactly 2^63 draws is refused by restore; the resume theorem assumes fewer draws."
  },
  {
   "property": "C14",
   "status": "proved",
   "theorems": [
    "Verif.Reservoir.C14_fifo",
    "Verif.Reservoir.C14_saved_bytes_faithful"
   ],
   "note": ""
  },
  {
   "property": "C15",
   "status": "proved",
   "theorems": [
    "Verif.Npz.C15_stream",
    "Verif.Npz.C15_chunking",
    "Verif.Npz.C15_every_row_once",
    "Verif.Npz.C15_resolve"
   ],
   "note": ""
  },
  {
   "property": "C16",
   "status": "proved",
   "theorems": [
    "Verif.Npz.C16_shards",
    "Verif.Npz.C16_balanced"
   ],
   "note": ""
  },
  {
   "property": "C17",
   "status": "proved",
   "theorems": [
    "Verif.Npz.C17_packed_reads",
    "Verif.Npz.C17_ids_to_envelopes"
   ],
   "note": ""
  },
  {
   "property": "C18",
   "status": "proved",
   "theorems": [
    "Verif.Composite.C18_composite_save_restore",
    "Verif.Composite.C18_composite_resume",
    "Verif.Composite.C18_composite_restore_validates",
    "Verif.Npz.C18_npz_save_restore",
    "Verif.Npz.C18_npz_resume",
    "Verif.Npz.C18_npz_restore_validates",
    "Verif.Seq.C18_seq_save_restore",
    "Verif.Seq.C18_seq_resume",
    "Verif.Seq.C18_seq_restore_validates"
   ],
   "note": ""
  },
  {
   "property": "C19",
   "status": "proved",
   "theorems": [
    "Verif.Npz.C19_rows",
    "Verif.Npz.C19_accepts",
    "Verif.Npz.C19_stream"
   ],
   "note": ""
  },
  {
   "property": "C20",
   "status": "proved",
   "theorems": [
    "Verif.Seq.C20_prefix",
    "Verif.Seq.C20_complete",
    "Verif.Seq.C20_no_failure",
    "Verif.Seq.C20_bounded",
    "Verif.Seq.C20_open_files",
    "Verif.Seq.C20_each_once"
   ],
   "note": ""
  },
  {
   "property": "C21",
   "status": "proved",
   "theorems": [
    "Verif.Seq.C21_partition",
    "Verif.Seq.C21_balanced"
   ],
   "note": ""
  },
  {
   "property": "C22",
   "status": "proved",
   "theorems": [
    "Verif.Composite.C22_counts",
    "Verif.Composite.C22_each_child_weight_times",
    "Verif.Composite.C22_even"
   ],
   "note": ""
  },
  {
   "property": "C23",
   "status": "proved",
   "theorems": [
    "Verif.Composite.C23_sync",
    "Verif.Composite.C23_free",
    "Verif.Composite.C23_child_share"
   ],
   "note": ""
  },
  {
   "property": "C24",
   "status": "proved",
   "theorems": [
    "Verif.Composite.C24_weights",
    "Verif.Composite.C24_accepts"
   ],
   "note": ""
  },
  {
   "property": "C25",
   "status": "proved",
   "theorems": [
    "Verif.Planner.C25_eval",
    "Verif.Planner.C25_padding_copies",
    "Verif.Planner.C25_exceptions_justified"
   ],
   "note": ""
  },
  {
   "property": "C26",
   "status": "proved",
   "theorems": [
    "Verif.Planner.C26_train"
   ],
   "note": ""
  },
  {
   "property": "C27",
   "status": "proved",
   "theorems": [
    "Verif.Planner.C27_budget_sharded",
    "Verif.Planner.C27_budget_replicated",
    "Verif.Planner.C27_empty_source_raises"
   ],
   "note": ""
  },
  {
   "property": "C28",
   "status": "proved",
   "theorems": [
    "Verif.Planner.C28_uniform_equals_generic",
    "Verif.Planner.C28_packed_equals_uniform",
    "Verif.Planner.C28_uniform_implies_packed"
   ],
   "note": ""
  },
  {
   "property": "C29",
   "status": "proved",
   "theorems": [
    "Verif.Planner.C29_resume_exact",
    "Verif.Planner.C29_errors",
    "Verif.Planner.C29_finished",
    "Verif.Planner.C29_queue_limit_differs"
   ],
   "note": ""
  },
  {
   "property": "C30",
   "status": "proved",
   "theorems": [
    "Verif.Planner.C30_committed_prefix",
    "Verif.Planner.C30_commit_contiguous",
    "Verif.Planner.C30_rejected_commit",
    "Verif.Planner.C30_rollback_reissues",
    "Verif.Planner.C30_outstanding_commit",
    "Verif.Planner.C30_checkpoint_is_rollback"
   ],
   "note": ""
  },
  {
   "property": "C31",
   "status": "proved",
   "theorems": [
    "Verif.Prefetch.C31_prefix_of_sync",
    "Verif.Prefetch.C31_complete",
    "Verif.Prefetch.C31_in_flight",
    "Verif.Prefetch.C31_terminates"
   ],
   "note": ""
  },
  {
   "property": "C32",
   "status": "proved",
   "theorems": [
    "Verif.Prefetch.Cuda.C32_order",
    "Verif.Prefetch.Cuda.C32_complete",
    "Verif.Prefetch.Cuda.C32_terminates",
    "Verif.Prefetch.Cuda.C32_no_probe_past_terminal",
    "Verif.Prefetch.Cuda.C32_bounds",
    "Verif.Prefetch.Cuda.C32_host_alive",
    "Verif.Prefetch.Cuda.C32_use_after_copy"
   ],
   "note": ""
  },
  {
   "property": "C33",
   "status": "proved",
   "theorems": [
    "Verif.Sampler.C33_ranks_partition",
    "Verif.Sampler.C33_committed_exact",
    "Verif.Sampler.C33_outstanding_continue",
    "Verif.Sampler.C33_resume_suffix",
    "Verif.Sampler.C33_never_rejected",
    "Verif.Sampler.C33_load_iff",
    "Verif.Sampler.C33_rejects_gap"
   ],
   "note": ""
  },
  {
   "property": "C34",
   "status": "proved",
   "theorems": [
    "Verif.Sampler.C34_homogeneous_groups",
    "Verif.Sampler.C34_at_most_once"
   ],
   "note": ""
  },
  {
   "property": "C35",
   "status": "proved",
   "theorems": [
    "Verif.Sampler.C35_exact_coverage",
    "Verif.Sampler.C35_empty_rejected"
   ],
   "note": ""
  },
  {
   "property": "C36",
   "status": "proved",
   "theorems": [
    "Verif.Sampler.C36_in_range",
    "Verif.Sampler.C36_injective",
    "Verif.Sampler.C36_surjective",
    "Verif.Sampler.C36_out_of_range",
    "Verif.Sampler.C36_negative_first_child"
   ],
   "note": ""
  },
  {
   "property": "C37",
   "status": "proved",
   "theorems": [
    "Verif.Ckpt.C37_atomic",
    "Verif.Ckpt.C37_checkpoint"
   ],
   "note": "Process crashes are modelled (any prefix of the primitive operations); power loss without fsync is not."
  },
  {
   "property": "C38",
   "status": "proved",
   "theorems": [
    "Verif.Ckpt.C38_states_resumable",
    "Verif.Ckpt.C38_save_complete"
   ],
   "note": ""
  },
  {
   "property": "C39",
   "status": "proved",
   "theorems": [
    "Verif.Ckpt.C39_latest",
    "Verif.Ckpt.C39_names_round_trip",
    "Verif.Ckpt.C39_resume_latest",
    "Verif.Ckpt.C39_state_name_injective",
    "Verif.Ckpt.C39_tmp_ignored"
   ],
   "note": ""
  },
  {
   "property": "C40",
   "status": "proved",
   "theorems": [
    "Verif.Ckpt.C40_prune",
    "Verif.Ckpt.C40_interrupted",
    "Verif.Ckpt.C40_count",
    "Verif.Ckpt.C40_permanent_snapshots"
   ],
   "note": "With num_keep_states = 0 the pruning deletes the state just saved (finding, shown as an example)."
  },
  {
   "property": "C41",
   "status": "proved",
   "theorems": [
    "Verif.Ckpt.Writer.C41_order",
    "Verif.Ckpt.Writer.C41_errors",
    "Verif.Ckpt.Writer.C41_next_call",
    "Verif.Ckpt.Writer.C41_flush_succeeds",
    "Verif.Ckpt.Writer.C41_writer_ends"
   ],
   "note": ""
  },
  {
   "property": "C42",
   "status": "partial",
   "theorems": [
    "Verif.Ckpt.Loop.C42_finite_checkpoints_partial",
    "Verif.Ckpt.Loop.C42_interrupt_at_most_last",
    "Verif.Ckpt.Loop.C42_immediate",
    "Verif.Ckpt.Loop.C42_interrupt_witness"
   ],
   "note": "Full claim fails in one window: an asynchronous interrupt between setting and clearing _checkpoint_safe with the deferred check (C42_interrupt_witness). Proved without such interrupts, for immediate checks with them, and in general that only the last update can be affected."
  },
  {
   "property": "C43",
   "status": "proved",
   "theorems": [
    "Verif.Ckpt.Loop.C43_counters",
    "Verif.Ckpt.Loop.C43_checkpoint_consistent",
    "Verif.Ckpt.Loop.C43_failed_step",
    "Verif.Ckpt.Loop.C43_normal_end"
   ],
   "note": ""
  },
  {
   "property": "C44",
   "status": "proved",
   "theorems": [
    "Verif.Board.C44_move_array",
    "Verif.Board.C44_domain"
   ],
   "note": ""
  },
  {
   "property": "C45",
   "status": "proved",
   "theorems": [
    "Verif.Board.C45_bijection",
    "Verif.Board.C45_group",
    "Verif.Board.C45_faithful",
    "Verif.Board.C45_sets",
    "Verif.Board.C45_closed"
   ],
   "note": ""
  },
  {
   "property": "C46",
   "status": "proved",
   "theorems": [
    "Verif.Board.C46_process_sample"
   ],
   "note": ""
  },
  {
   "property": "C47",
   "status": "proved",
   "theorems": [
    "Verif.Board.C47_opposite",
    "Verif.Board.C47_swap",
    "Verif.Board.C47_involution",
    "Verif.Board.C47_black_first"
   ],
   "note": ""
  },
  {
   "property": "C48",
   "status": "proved",
   "theorems": [
    "Verif.Board.Packed.C48_read_encode",
    "Verif.Board.Packed.C48_readers_agree",
    "Verif.Board.Packed.C48_metadata_decodes",
    "Verif.Board.Packed.C48_file",
    "Verif.Board.Packed.C48_truncated"
   ],
   "note": ""
  },
  {
   "property": "C49",
   "status": "proved",
   "theorems": [
    "Verif.Board.Simple.C49_read_encode",
    "Verif.Board.Simple.C49_readers_agree",
    "Verif.Board.Simple.C49_file",
    "Verif.Board.Simple.C49_truncated"
   ],
   "note": ""
  },
  {
   "property": "C50",
   "status": "partial",
   "theorems": [
    "Verif.Board.Packed.C50_packed",
    "Verif.Board.Packed.C50_packed_side_partial",
    "Verif.Board.Packed.C50_packed_side_odd",
    "Verif.Board.Packed.C50_policy",
    "Verif.Board.Simple.C50_simple"
   ],
   "note": "Partial because the full claim is false of the code: for an odd opening the packed reader reports the wrong side (C50_packed_side_odd)."
  },
  {
   "property": "C51",
   "status": "proved",
   "theorems": [
    "Verif.Export.C51_lossless",
    "Verif.Export.C51_lossless_10",
    "Verif.Export.C51_size",
    "Verif.Export.C51_quantised_range"
   ],
   "note": ""
  },
  {
   "property": "C52",
   "status": "proved",
   "theorems": [
    "Verif.Export.C52_line_patterns",
    "Verif.Export.C52_ladder_chunk",
    "Verif.Export.C52_ladder_input",
    "Verif.Export.C52_rectangle_input",
    "Verif.Export.C52_rectangle_complete",
    "Verif.Export.C52_batched_table"
   ],
   "note": ""
  },
  {
   "property": "C53",
   "status": "proved",
   "theorems": [
    "Verif.Export.C53_in_range",
    "Verif.Export.C53_perfect_injective",
    "Verif.Export.C53_invalid_raises",
    "Verif.Export.C53_float"
   ],
   "note": ""
  },
  {
   "property": "C54",
   "status": "proved",
   "theorems": [
    "Verif.Export.C54_masks",
    "Verif.Export.C54_mask_rejects",
    "Verif.Export.C54_onnx_round_trip",
    "Verif.Export.C54_version_fits",
    "Verif.Export.C54_rules_explicit",
    "Verif.Export.C54_sizes",
    "Verif.Export.C54_header_round_trip",
    "Verif.Export.C54_header_exists"
   ],
   "note": ""
  },
  {
   "property": "C55",
   "status": "proved",
   "theorems": [
    "Verif.Telemetry.C55_load_key",
    "Verif.Telemetry.C55_load_exact",
    "Verif.Telemetry.C55_load_newest",
    "Verif.Telemetry.C55_save_bounded",
    "Verif.Telemetry.C55_save_load",
    "Verif.Telemetry.C55_save_atomic",
    "Verif.Telemetry.C55_concurrent"
   ],
   "note": ""
  },
  {
   "property": "C56",
   "status": "proved",
   "theorems": [
    "Verif.LineEnc.C56_accepts",
    "Verif.LineEnc.C56_same_code_iff_same_view",
    "Verif.LineEnc.C56_code_in_range",
    "Verif.LineEnc.C56_codes_fit",
    "Verif.LineEnc.C56_usage_flags",
    "Verif.LineEnc.C56_total_tight",
    "Verif.LineEnc.C56_raw",
    "Verif.LineEnc.C56_feature_map"
   ],
   "note": ""
  },
  {
   "property": "C57",
   "status": "proved",
   "theorems": [
    "Verif.Forbid.C57_queries_pure",
    "Verif.Forbid.C57_flags",
    "Verif.Forbid.C57_rule_determined",
    "Verif.Forbid.C57_only_empty",
    "Verif.Forbid.C57_terminates",
    "Verif.Forbid.C57_black_first",
    "Verif.Forbid.C57_five_and_overline",
    "Verif.Forbid.C57_symmetric"
   ],
   "note": ""
  },
  {
   "property": "C58",
   "status": "proved",
   "theorems": [
    "Verif.Telemetry.C58_bounds",
    "Verif.Telemetry.C58_locked",
    "Verif.Telemetry.C58_entries_lock_ignored",
    "Verif.Telemetry.C58_explicit",
    "Verif.Telemetry.C58_frozen",
    "Verif.Telemetry.C58_deadline",
    "Verif.Telemetry.C58_patience",
    "Verif.Telemetry.C58_direction",
    "Verif.Telemetry.C58_sync",
    "Verif.Telemetry.C58_foreign",
    "Verif.Telemetry.C58_log"
   ],
   "note": ""
  },
  {
   "property": "C59",
   "status": "proved",
   "theorems": [
    "Verif.Telemetry.C59_admission",
    "Verif.Telemetry.C59_bound",
    "Verif.Telemetry.C59_no_lost_wakeup",
    "Verif.Telemetry.C59_release",
    "Verif.Telemetry.C59_all_finish"
   ],
   "note": ""
  },
  {
   "property": "C60",
   "status": "proved",
   "theorems": [
    "Verif.Telemetry.C60_counters",
    "Verif.Telemetry.C60_percentile",
    "Verif.Telemetry.C60_fraction",
    "Verif.Telemetry.C60_monotone",
    "Verif.Telemetry.C60_clear"
   ],
   "note": ""
  },
  {
   "property": "C61",
   "status": "proved",
   "theorems": [
    "Verif.Telemetry.C61_evict",
    "Verif.Telemetry.C61_content",
    "Verif.Telemetry.C61_budget",
    "Verif.Telemetry.C61_recency",
    "Verif.Telemetry.C61_single_flight",
    "Verif.Telemetry.C61_hit",
    "Verif.Telemetry.C61_kept",
    "Verif.Telemetry.C61_all_finish",
    "Verif.Telemetry.C61_failed_read"
   ],
   "note": ""
  },
  {
   "property": "C62",
   "status": "proved",
   "theorems": [
    "Verif.Utils.C62_stream",
    "Verif.Utils.C62_prefix",
    "Verif.Utils.C62_flushed",
    "Verif.Utils.C62_write",
    "Verif.Utils.C62_no_raise",
    "Verif.Utils.C62_batched",
    "Verif.Utils.C62_close",
    "Verif.Utils.C62_partial_failure_duplicates"
   ],
   "note": ""
  },
  {
   "property": "C63",
   "status": "proved",
   "theorems": [
    "Verif.Utils.C63_read_back",
    "Verif.Utils.C63_offsets_aligned",
    "Verif.Utils.C63_total",
    "Verif.Utils.C63_gap",
    "Verif.Utils.C63_keeps"
   ],
   "note": ""
  },
  {
   "property": "C64",
   "status": "proved",
   "theorems": [
    "Verif.Utils.C64_ok_iff",
    "Verif.Utils.C64_error",
    "Verif.Utils.C64_new_value_wins",
    "Verif.Utils.C64_untouched_kept",
    "Verif.Utils.C64_both_dicts",
    "Verif.Utils.C64_addition",
    "Verif.Utils.C64_idempotent",
    "Verif.Utils.C64_empty"
   ],
   "note": ""
  },
  {
   "property": "C65",
   "status": "proved",
   "theorems": [
    "Verif.Filter.C65_result",
    "Verif.Filter.C65_result_rows",
    "Verif.Filter.C65_whitelist",
    "Verif.Filter.C65_depends_only_on_mentioned",
    "Verif.Filter.C65_reads",
    "Verif.Filter.C65_work",
    "Verif.Filter.C65_work_bound",
    "Verif.Filter.C65_allocations",
    "Verif.Filter.C65_executes_whitelisted",
    "Verif.Filter.C65_checked_before_execution",
    "Verif.Filter.C65_chain_unchecked",
    "Verif.Filter.C65_surplus_argument",
    "Verif.Filter.C65_raw_error",
    "Verif.Filter.C65_rows_kept",
    "Verif.Filter.C65_rows_aligned",
    "Verif.Filter.C65_rows_partial_update"
   ],
   "note": "NumPy primitives are an arbitrary record of functions (no writes into arguments): exact for calls without surplus positional arguments. Gaps of the code shown as theorems: unchecked conjunction of chained comparisons, surplus ufunc (out) arguments accepted, raw errors, partial update on short fields."
  },
  {
   "property": "C66",
   "status": "proved",
   "theorems": [
    "Verif.Utils.C66_assignment",
    "Verif.Utils.C66_partition",
    "Verif.Utils.C66_step",
    "Verif.Utils.C66_once",
    "Verif.Utils.C66_init_iff",
    "Verif.Utils.C66_add_iff",
    "Verif.Utils.C66_learning_rate",
    "Verif.Utils.C66_muon_adamw",
    "Verif.Utils.C66_initial_groups_merge",
    "Verif.Utils.C66_failed_add_breaks_step"
   ],
   "note": ""
  },
  {
   "property": "C67",
   "status": "proved",
   "theorems": [
    "Verif.Utils.C67_frame",
    "Verif.Utils.C67_bounds",
    "Verif.Utils.C67_bounds_virtual",
    "Verif.Utils.C67_inside_unchanged",
    "Verif.Utils.C67_total",
    "Verif.Utils.C67_enforced",
    "Verif.Utils.C67_resolve_iff",
    "Verif.Utils.C67_inverted"
   ],
   "note": ""
  },
  {
   "property": "C68",
   "status": "proved",
   "theorems": [
    "Verif.Eval.C68_forwards",
    "Verif.Eval.C68_failure",
    "Verif.Eval.C68_never_stuck",
    "Verif.Eval.C68_planned_equal",
    "Verif.Eval.C68_planned_differs",
    "Verif.Eval.C68_planned_never_stuck"
   ],
   "note": ""
  },
  {
   "property": "C69",
   "status": "proved",
   "theorems": [
    "Verif.Prefetch.Cuda.C69_reads_see_own_batch",
    "Verif.Prefetch.Cuda.C69_no_deadlock",
    "Verif.Prefetch.Cuda.C69_schema"
   ],
   "note": ""
  },
  {
   "property": "C70",
   "status": "partial",
   "theorems": [
    "Verif.Board.C70_two_step_partial",
    "Verif.Board.C70_moves_not_transformed",
    "Verif.Board.C70_padding_moved"
   ],
   "note": "Partial because the full claim is false of the code: moves are not transformed and padding is moved when augmentation is a second post-processing (witness theorems)."
  },
  {
   "property": "C71",
   "status": "proved",
   "theorems": [
    "Verif.Export.C71_int4_pair",
    "Verif.Export.C71_int4_row",
    "Verif.Export.C71_int4_rejects",
    "Verif.Export.C71_biased",
    "Verif.Export.C71_aligned"
   ],
   "note": ""
  },
  {
   "property": "C72",
   "status": "proved",
   "theorems": [
    "Verif.Export.C72_rows",
    "Verif.Export.C72_table"
   ],
   "note": ""
  },
  {
   "property": "C73",
   "status": "proved",
   "theorems": [
    "Verif.Export.C73_export_atomic",
    "Verif.Export.C73_onnx_not_atomic"
   ],
   "note": ""
  },
  {
   "property": "C74",
   "status": "proved",
   "theorems": [
    "Verif.Decode.C74_chunk_layout_limit",
    "Verif.Decode.C74_packed_layout_limit",
    "Verif.Decode.C74_row_content",
    "Verif.Decode.C74_packed",
    "Verif.Decode.C74_packed_eq",
    "Verif.Decode.C74_materialize",
    "Verif.Decode.C74_rowwise",
    "Verif.Decode.C74_batches",
    "Verif.Decode.C74_batches_complete"
   ],
   "note": ""
  },
  {
   "property": "C75",
   "status": "proved",
   "theorems": [
    "Verif.Total.C75_total",
    "Verif.Total.C75_total_teacher"
   ],
   "note": "Exact rationals instead of floats; torch.log is an arbitrary function; dtype/device promotion of results is not modelled. What each head sums over its rows is a parameter (any function of the part)."
  },
  {
   "property": "C76",
   "status": "proved",
   "theorems": [
    "Verif.Loss.C76_total",
    "Verif.Loss.C76_named",
    "Verif.Loss.C76_padding",
    "Verif.Loss.C76_all_padding",
    "Verif.Loss.C76_opaque_refused"
   ],
   "note": "Exact rationals; sigmoid, softmax, log-softmax, exp, log, power, BCE and Huber are arbitrary functions shared by both sides. Board masks must be binary (a fractional mask is weighted in training and counted in validation). A VQ auxiliary loss is assumed to report the value of its own slot statistics. An unknown loss type name (KeyError in training, treated as CE by validation) is outside the model, which has an enumeration."
  },
  {
   "property": "C77",
   "status": "proved",
   "theorems": [
    "Verif.Vq.C77_each_once",
    "Verif.Vq.C77_collectives",
    "Verif.Vq.C77_statistics",
    "Verif.Vq.C77_groups"
   ],
   "note": "Exact rationals; the nearest-code search and the soft assignment are arbitrary functions of a vector, the same on all ranks (evaluation never updates the codebook). The feature of an entry is assumed to be a function of its line encoding, as the code comments say of its mapping network."
  },
  {
   "property": "C78",
   "status": "proved",
   "theorems": [
    "Verif.Vq.C78_cache_invisible",
    "Verif.Vq.C78_expiry"
   ],
   "note": "Exact rationals (the code's safety factor 2 and the 1e-6 margins are then slack; the theorem needs only that they are at least 1); the code search and the random generator are arbitrary functions. plainHistory is the specification without bounds; C78_expiry says what one of its expiry steps does."
  },
  {
   "property": "C79",
   "status": "proved",
   "theorems": [
    "Verif.Vq.C79_life",
    "Verif.Vq.C79_target",
    "Verif.Vq.C79_payload"
   ],
   "note": "The argmin of k-means is an arbitrary function of means and entry; dtype and finiteness checks of samples are not modelled; kmeans_iter >= 1 (0 leaves `bins` unbound). Ranks share their settings (the first-forward check of that is not modelled)."
  },
  {
   "property": "C80",
   "status": "proved",
   "theorems": [
    "Verif.Vq.C80_step",
    "Verif.Vq.C80_single_process",
    "Verif.Vq.C80_replicas"
   ],
   "note": "BoundsOk: on one process the host bounds are valid (an invariant by C78), on several they are never set. C80_single_process needs a search that ignores the random state (no stochastic sampling)."
  },
  {
   "property": "C81",
   "status": "proved",
   "theorems": [
    "Verif.Search.C81_portable",
    "Verif.Search.C81_near",
    "Verif.Search.C81_exact",
    "Verif.Search.C81_in_bounds",
    "Verif.Search.C81_replay"
   ],
   "note": "One query at a time; the coarse products and the refinement are exact sums of (rounded) operands, so only the BF16 rounding of the operands is modelled, not the FP32 accumulation. kept codes per tile: 4/2/3/3 for 32/64/96/128 dimensions, 3 for cosine."
  },
  {
   "property": "C82",
   "status": "proved",
   "theorems": [
    "Verif.Train.C82_clean",
    "Verif.Train.C82_latency",
    "Verif.Train.C82_detected",
    "Verif.Train.C82_reported",
    "Verif.Train.C82_counters",
    "Verif.Train.C82_rerun",
    "Verif.Train.C82_schedule",
    "Verif.Train.C82_interrupt_gap"
   ],
   "note": "One process. What the step, validation and saving compute is arbitrary; the model has whether each raises, whether the check is finite, when copies land, and a signal in the gap after 4087. `Ready` fixes an empty event log and that no copy is outstanding on a CPU run; C82_clean needs NoInterrupt, which C82_interrupt_gap shows to be necessary."
  },
  {
   "property": "C83",
   "status": "proved",
   "theorems": [
    "Verif.Ranks.C83_prepare_gap",
    "Verif.Ranks.C83_exists_gap",
    "Verif.Ranks.C83_no_hang",
    "Verif.Ranks.C83_agree",
    "Verif.Ranks.C83_whole_steps",
    "Verif.Ranks.C83_saved",
    "Verif.Ranks.C83_no_swallow",
    "Verif.Ranks.C83_quiet",
    "Verif.Ranks.C83_blame"
   ],
   "note": "Hypothesis Shared: clip/prepare errors, file existence and the verdict on gathered states are the same on all processes; C83_prepare_gap and C83_exists_gap show that prepare and file existence are needed. A process dying or raising inside backward is not modelled. Validation is one guarded phase (its inside is C68); committing a prepared cursor does not fail (C23, C33)."
  },
  {
   "property": "C84",
   "status": "proved",
   "theorems": [
    "Verif.Resume.C84_agree",
    "Verif.Resume.C84_tamper",
    "Verif.Resume.C84_save_iff",
    "Verif.Resume.C84_load_sound",
    "Verif.Resume.C84_own_state",
    "Verif.Resume.C84_resumes_captured",
    "Verif.Resume.C84_roundtrip",
    "Verif.Resume.C84_rng",
    "Verif.Resume.C84_accept_iff",
    "Verif.Resume.C84_old_format"
   ],
   "note": ""
  },
  {
   "property": "C85",
   "status": "proved",
   "theorems": [
    "Verif.Quant.C85_product_gate",
    "Verif.Quant.C85_dwconv_can_overflow",
    "Verif.Quant.C85_bias_clip_differs",
    "Verif.Quant.C85_policy_can_overflow",
    "Verif.Quant.C85_forward",
    "Verif.Quant.C85_types",
    "Verif.Quant.C85_accumulators",
    "Verif.Quant.C85_board_sums",
    "Verif.Quant.C85_dwconv_int16",
    "Verif.Quant.C85_dwconv_check_never_fires"
   ],
   "note": ""
  },
  {
   "property": "C86",
   "status": "proved",
   "theorems": [
    "Verif.Quant.C86_layout",
    "Verif.Quant.C86_bucket_aligned",
    "Verif.Quant.C86_arch_hash",
    "Verif.Quant.C86_arch_hash_collides",
    "Verif.Quant.C86_text_static_policy"
   ],
   "note": ""
  },
  {
   "property": "C87",
   "status": "proved",
   "theorems": [
    "Verif.Adam.C87_silent_move",
    "Verif.Adam.C87_every_step_is_adamw",
    "Verif.Adam.C87_textbook",
    "Verif.Adam.C87_bias_correction",
    "Verif.Adam.C87_flat_tensor",
    "Verif.Adam.C87_layout_key",
    "Verif.Adam.C87_step_reload",
    "Verif.Adam.C87_step_reload_inexact"
   ],
   "note": ""
  },
  {
   "property": "C88",
   "status": "proved",
   "theorems": [
    "Verif.Adam.Ring.C88_kernel_reads_its_own_addresses",
    "Verif.Adam.Ring.C88_waits_only_for_old_work",
    "Verif.Adam.Ring.C88_never_stuck",
    "Verif.Adam.Ring.C88_step_launches"
   ],
   "note": ""
  },
  {
   "property": "C89",
   "status": "proved",
   "theorems": [
    "Verif.Katago.C89_small_board_symmetry",
    "Verif.Katago.C89_raw_row_decodes",
    "Verif.Katago.C89_policy_sum",
    "Verif.Katago.C89_rows_delivered",
    "Verif.Katago.C89_item_aligned",
    "Verif.Katago.C89_side_three",
    "Verif.Katago.C89_komi_zero",
    "Verif.Katago.C89_small_pass_symmetry"
   ],
   "note": "Exact rationals instead of floats. Tensor sides 1 and 3 are excluded (C89_side_three). Findings C89_komi_zero, C89_small_board_symmetry, C89_small_pass_symmetry."
  },
  {
   "property": "C90",
   "status": "proved",
   "theorems": [
    "Verif.Katago.C90_condition_must_be_rowwise",
    "Verif.Katago.C90_raw_map_is_stream",
    "Verif.Katago.C90_processed_map_is_stream",
    "Verif.Katago.C90_raw_empty_file"
   ],
   "note": "Both loaders are assumed to succeed and conditions to be row-wise; C90_raw_empty_file and C90_condition_must_be_rowwise show what happens otherwise."
  },
  {
   "property": "C91",
   "status": "proved",
   "theorems": [
    "Verif.Muon.C91_step",
    "Verif.Muon.C91_fits",
    "Verif.Muon.C91_step_size",
    "Verif.Muon.C91_vectors_refused"
   ],
   "note": "Exact reals instead of float/bfloat16. C91_vectors_refused: why two dimensions are required (the muon-adamw builder routes only those)."
  },
  {
   "property": "C92",
   "status": "proved",
   "theorems": [
    "Verif.Muon.C92_kernels",
    "Verif.Muon.C92_singular_values",
    "Verif.Muon.C92_svd_exists",
    "Verif.Muon.C92_bounds",
    "Verif.Muon.C92_default_range",
    "Verif.Muon.C92_spectral_norm",
    "Verif.Muon.C92_entries",
    "Verif.Muon.C92_ascent",
    "Verif.Muon.C92_transpose",
    "Verif.Muon.C92_scale"
   ],
   "note": "Exact reals instead of float/bfloat16."
  },
  {
   "property": "C93",
   "status": "proved",
   "theorems": [
    "Verif.Metric.C93_statistics",
    "Verif.Metric.C93_padding",
    "Verif.Metric.C93_score_range",
    "Verif.Metric.C93_validation",
    "Verif.Metric.C93_best_on_board",
    "Verif.Metric.C93_draws_differ"
   ],
   "note": "Exact rationals; argmax/topk are arbitrary deterministic functions of the row. C93_draws_differ: the two kinds of value heads count drawn targets differently."
  },
  {
   "property": "C94",
   "status": "proved",
   "theorems": [
    "Verif.Rotate.C94_value",
    "Verif.Rotate.C94_gradient",
    "Verif.Rotate.C94_isometry",
    "Verif.Rotate.C94_plane",
    "Verif.Rotate.C94_plain",
    "Verif.Rotate.C94_value_near",
    "Verif.Rotate.C94_zero_source"
   ],
   "note": "Exact real arithmetic. C94_zero_source is the degenerate exception: an input shorter than the clamp is not replaced by the code."
  },
  {
   "property": "C95",
   "status": "proved",
   "theorems": [
    "Verif.Link.C95_window",
    "Verif.Link.C95_enabled_irrelevant",
    "Verif.Link.C95_order_matters"
   ],
   "note": "Hypothesis Regular: initialisation is monotone and a mapping belongs to one quantiser, as the models guarantee; C95_order_matters shows monotonicity is needed."
  },
  {
   "property": "C96",
   "status": "proved",
   "theorems": [
    "Verif.Log.C96_means",
    "Verif.Log.C96_entries",
    "Verif.Log.C96_names",
    "Verif.Log.C96_whole_interval",
    "Verif.Log.C96_new_metric_aborts",
    "Verif.Log.C96_short_window"
   ],
   "note": "Findings C96_new_metric_aborts and C96_short_window."
  },
  {
   "property": "C97",
   "status": "proved",
   "theorems": [
    "Verif.Mapping.C97_row",
    "Verif.Mapping.C97_same_code_same_feature",
    "Verif.Mapping.C97_lookup",
    "Verif.Mapping.C97_end_to_end"
   ],
   "note": "Exact arithmetic over any commutative ring; normalisation per cell (none, or batch norm in eval mode); use_nonzero_padding and masks not modelled."
  },
  {
   "property": "C98",
   "status": "proved",
   "theorems": [
    "Verif.VqExport.C98_stale_mask",
    "Verif.VqExport.C98_file_is_network",
    "Verif.VqExport.C98_types",
    "Verif.VqExport.C98_refusals"
   ],
   "note": "Exact arithmetic; rotation_trick off; the nearest-code search is any function of a vector."
  },
  {
   "property": "C99",
   "status": "proved",
   "theorems": [
    "Verif.Loss.C99_regularised_strict",
    "Verif.Loss.C99_rowwise",
    "Verif.Loss.C99_split",
    "Verif.Loss.C99_gradient",
    "Verif.Loss.C99_regularised"
   ],
   "note": "Rational arithmetic with arbitrary numerical primitives; the gradient is any linear operator on functions of the parameters; networks whose rows influence each other (batch norm in training mode) are outside: the rows' outputs are given as functions of the parameters."
  },
  {
   "property": "C100",
   "status": "proved",
   "theorems": [
    "Verif.Sidecar.C100_grammar",
    "Verif.Sidecar.C100_name_accepted",
    "Verif.Sidecar.C100_token_checked",
    "Verif.Sidecar.C100_name_injective",
    "Verif.Sidecar.C100_temp_not_sidecar",
    "Verif.Sidecar.C100_crash",
    "Verif.Sidecar.C100_no_overwrite",
    "Verif.Sidecar.C100_success",
    "Verif.Sidecar.C100_cleanup"
   ],
   "note": "The regex is modelled as a matcher on character lists and proved equal to the grammar. fsync of the directory is not modelled (the code does none)."
  },
  {
   "property": "C101",
   "status": "proved",
   "theorems": [
    "Verif.Sidecar.C101_discovery",
    "Verif.Sidecar.C101_roundtrip",
    "Verif.Sidecar.C101_checked",
    "Verif.Sidecar.C101_capture_succeeds"
   ],
   "note": "torch.save/torch.load are an arbitrary lossless pair (existence shown in the example), SHA-256 an arbitrary function with 64 hex digits. Wrong-typed or wrong-keyed decoded values count as undecodable."
  },
  {
   "property": "C102",
   "status": "proved",
   "theorems": [
    "Verif.Pipe.C102_checks",
    "Verif.Pipe.C102_build",
    "Verif.Pipe.C102_accepts",
    "Verif.Pipe.C102_state",
    "Verif.Pipe.C102_initial",
    "Verif.Pipe.C102_other",
    "Verif.Pipe.C102_guard",
    "Verif.Pipe.C102_digest",
    "Verif.Pipe.C102_digest_dicts"
   ],
   "note": "SHA-256 is an arbitrary function; 'unchanged' is up to the digest, and C102_digest shows the digest stream determines dictionary-free values. Object arrays and custom classes are not in the stream model. `reject_unknown` is not used by the composer and not modelled."
  },
  {
   "property": "C103",
   "status": "proved",
   "theorems": [
    "Verif.Flat.C103_ladder_v1",
    "Verif.Flat.C103_ladder_v2",
    "Verif.Flat.C103_square_v2",
    "Verif.Flat.C103_square_v3",
    "Verif.Flat.C103_square_v4",
    "Verif.Flat.C103_square_v4_vq",
    "Verif.Flat.C103_batches",
    "Verif.Flat.C103_ladder_v1_file",
    "Verif.Flat.C103_ladder_v2_file",
    "Verif.Flat.C103_ladder_documented_size",
    "Verif.Flat.C103_int4_packing",
    "Verif.Flat.C103_square_v2_file",
    "Verif.Flat.C103_square_v2_int4_file",
    "Verif.Flat.C103_square_v3_file",
    "Verif.Flat.C103_square_v3_int4_file",
    "Verif.Flat.C103_square_v4_file",
    "Verif.Flat.C103_square_v4_vq_file",
    "Verif.Flat.C103_ladder_v1_symmetric",
    "Verif.Flat.C103_ladder_v2_symmetric",
    "Verif.Flat.C103_square_v4_symmetric",
    "Verif.Flat.C103_square_v2_blocks",
    "Verif.Flat.C103_square_v3_blocks",
    "Verif.Flat.C103_ladder_accepts",
    "Verif.Flat.C103_square_v3_accepts",
    "Verif.Flat.C103_square_accepts_iff",
    "Verif.Flat.C103_square_v2_refuses",
    "Verif.Flat.C103_sums_fit"
   ],
   "note": "Exact arithmetic instead of float32/float16; evaluation mode; policy heads (not exported) are not modelled; the codebook search of v4VQ is an arbitrary function."
  },
  {
   "property": "C104",
   "status": "proved",
   "theorems": [
    "Verif.Collate.C104_example",
    "Verif.Collate.C104_empty_moves",
    "Verif.Collate.C104_sample_iff",
    "Verif.Collate.C104_batch_iff",
    "Verif.Collate.C104_core_plain",
    "Verif.Collate.C104_core_required",
    "Verif.Collate.C104_core_shared",
    "Verif.Collate.C104_batch_rows",
    "Verif.Collate.C104_core_spatial",
    "Verif.Collate.C104_collate_iff",
    "Verif.Collate.C104_collated",
    "Verif.Collate.C104_files_iff",
    "Verif.Collate.C104_files_groups",
    "Verif.Collate.C104_files_same"
   ],
   "note": "Contents, numpy promotion and element equality are abstract with the laws stated in `Laws`; reflexivity of equality on shared values (false for NaN) is a hypothesis of `C104_collated`; error texts are not modelled."
  },
  {
   "property": "C105",
   "status": "proved",
   "theorems": [
    "Verif.Mix10.C105_low_feature_differs",
    "Verif.Mix10.C105_spherical_not_exported",
    "Verif.Mix10.C105_clamp_iff",
    "Verif.Mix10.C105_forward",
    "Verif.Mix10.C105_types",
    "Verif.Mix10.C105_layout",
    "Verif.Mix10.C105_aligned",
    "Verif.Mix10.C105_not_aligned",
    "Verif.Mix10.C105_arch_hash",
    "Verif.Mix10.C105_end_to_end"
   ],
   "note": "Exact arithmetic, one sample; the board-to-feature mapping is that of C97. Hypotheses: no spherical_feature, mapping outputs above -511.5/32, depthwise biases in [-64, 64]: each is needed (C105_low_feature_differs, C105_spherical_not_exported, C85_bias_clip_differs)."
  },
  {
   "property": "C106",
   "status": "proved",
   "theorems": [
    "Verif.Clip.C106_limit",
    "Verif.Clip.C106_no_limit",
    "Verif.Clip.C106_value",
    "Verif.Clip.C106_nan",
    "Verif.Clip.C106_inf_limit",
    "Verif.Clip.C106_inf_no_limit"
   ],
   "note": "Exact real arithmetic for finite entries (no rounding or overflow); Euclidean norm (the trainer's); the fallbacks to torch's and Accelerate's clipping are assumed to compute the same function."
  },
  {
   "property": "C107",
   "status": "proved",
   "theorems": [
    "Verif.Collide.C107_values_iff",
    "Verif.Collide.C107_accept_iff",
    "Verif.Collide.C107_values_self",
    "Verif.Collide.C107_fields",
    "Verif.Collide.C107_resave",
    "Verif.Collide.C107_changed",
    "Verif.Collide.C107_nan",
    "Verif.Collide.C107_old_format",
    "Verif.Collide.C107_decision"
   ],
   "note": "Loaded values are arguments (torch.load outside); torch.equal and Python == on scalars are parameters; the manifest and sidecar validators are predicates here (manifest and sidecar: C100, C101)."
  },
  {
   "property": "C108",
   "status": "proved",
   "theorems": [
    "Verif.Sidecar.C108_accept_iff",
    "Verif.Sidecar.C108_identity",
    "Verif.Sidecar.C108_file",
    "Verif.Sidecar.C108_own",
    "Verif.Sidecar.C108_restorable",
    "Verif.Sidecar.C108_float_needed"
   ],
   "note": "isinstance/key-set checks are folded into the structured manifest; SHA-256 and torch.save are parameters."
  },
  {
   "property": "C109",
   "status": "proved",
   "theorems": [
    "Verif.Schedule.C109_resume",
    "Verif.Schedule.C109_start",
    "Verif.Schedule.C109_changed",
    "Verif.Schedule.C109_reported",
    "Verif.Schedule.C109_rates",
    "Verif.Schedule.C109_cosine",
    "Verif.Schedule.C109_step"
   ],
   "note": "torch's LRScheduler classes are modelled from torch 2's source (not in /repo); the closed forms hold over the reals, the resume claims in any arithmetic; the step period is assumed positive."
  },
  {
   "property": "C110",
   "status": "proved",
   "theorems": [
    "Verif.Weights.C110_values",
    "Verif.Weights.C110_strict",
    "Verif.Weights.C110_lenient",
    "Verif.Weights.C110_roundtrip",
    "Verif.Weights.C110_legacy",
    "Verif.Weights.C110_pretrained",
    "Verif.Weights.C110_initialized"
   ],
   "note": "torch's state_dict/load_state_dict are modelled from torch 2's source (not in /repo); tensors shared between modules are not modelled; isdigit is ASCII."
  },
  {
   "property": "C111",
   "status": "proved",
   "theorems": [
    "Verif.Tuned.C111_stream",
    "Verif.Tuned.C111_failures",
    "Verif.Tuned.C111_limits"
   ],
   "note": "The settings change only while the generator is suspended (the tuner runs in the consumer); worker interleavings are C31's subject."
  },
  {
   "property": "C112",
   "status": "proved",
   "theorems": [
    "Verif.Norm.C112_gradient",
    "Verif.Norm.C112_gradient_plain",
    "Verif.Norm.C112_forward",
    "Verif.Norm.C112_normalised",
    "Verif.Norm.C112_padding",
    "Verif.Norm.C112_running",
    "Verif.Norm.C112_running_nonneg",
    "Verif.Norm.C112_eval"
   ],
   "note": "Over the reals: rounding and the half-precision conversions are not modelled. `var` and `mean` are marked non-differentiable outputs, as in the code. The ONNX export branch calls `F.batch_norm` and is not modelled."
  },
  {
   "property": "C113",
   "status": "proved",
   "theorems": [
    "Verif.Play.C113_state",
    "Verif.Play.C113_calls",
    "Verif.Play.C113_data",
    "Verif.Play.C113_engine",
    "Verif.Play.C113_game",
    "Verif.Play.C113_winrate",
    "Verif.Play.C113_policy",
    "Verif.Play.C113_notation"
   ],
   "note": "The data pipelines, the network and checkpoint loading are not modelled; the policy is an arbitrary real function and `torch.sort` an arbitrary descending order. Parsing covers lines of one character followed by digits."
  },
  {
   "property": "C114",
   "status": "proved",
   "theorems": [
    "Verif.Ckio.C114_target",
    "Verif.Ckio.C114_save",
    "Verif.Ckio.C114_load",
    "Verif.Ckio.C114_roundtrip",
    "Verif.Ckio.C114_reload_path"
   ],
   "note": "`torch.save` followed by `torch.load` is trusted to be the identity; crashes are C37's subject, permissions and disk space are not modelled."
  },
  {
   "property": "C115",
   "status": "proved",
   "theorems": [
    "Verif.Files.C115_contents",
    "Verif.Files.C115_deterministic"
   ],
   "note": "Symbolic links, unreadable directories and changes during the walk are not modelled; names are elements of a linear order."
  },
  {
   "property": "C116",
   "status": "proved",
   "theorems": [
    "Verif.Hash.C116_rows",
    "Verif.Hash.C116_refused",
    "Verif.Hash.C116_perfect",
    "Verif.Hash.C116_float"
   ],
   "note": "The feature vectors, the mapping after concatenation and the quantisation are not modelled; integers do not overflow; the size divisions are exact (the code divides floats); torch.round is any rounding to within 1/2."
  },
  {
   "property": "C117",
   "status": "proved",
   "theorems": [
    "Verif.Regions.C117_tiling",
    "Verif.Regions.C117_total",
    "Verif.Regions.C117_sizes",
    "Verif.Regions.C117_mean",
    "Verif.Regions.C117_symmetric",
    "Verif.Regions.C117_qsum",
    "Verif.Regions.C117_avg4",
    "Verif.Regions.C117_avg4_transpose"
   ],
   "note": "One sample and channel; exact arithmetic; the straight-through gradient of fake_quant is not modelled."
  }
 ]
}