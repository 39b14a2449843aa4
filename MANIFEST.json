{
 "claims": [
  {
   "property": "C01",
   "status": "proved",
   "theorems": [
    "Zopfli.C01_deflate_roundtrip"
   ],
   "note": ""
  },
  {
   "property": "C02",
   "status": "proved",
   "theorems": [
    "Zopfli.C02_gzip_roundtrip"
   ],
   "note": ""
  },
  {
   "property": "C03",
   "status": "proved",
   "theorems": [
    "Zopfli.C03_zlib_roundtrip"
   ],
   "note": ""
  },
  {
   "property": "C04",
   "status": "proved",
   "theorems": [
    "Zopfli.C04_C34_compress",
    "Zopfli.C04_C34_compress_lent",
    "Zopfli.C04_compress_slice"
   ],
   "note": "the _lent theorems are for slices and readers that lend their buffer"
  },
  {
   "property": "C05",
   "status": "proved",
   "theorems": [
    "Zopfli.C05_no_panic",
    "Zopfli.C05_no_panic_failing",
    "Zopfli.C05_compress_no_panic_failing",
    "Zopfli.C05_compress_lent_no_panic"
   ],
   "note": "also for sinks that fail"
  },
  {
   "property": "C06",
   "status": "proved",
   "theorems": [
    "Zopfli.C06_strict_decoders"
   ],
   "note": ""
  },
  {
   "property": "C07",
   "status": "proved",
   "theorems": [
    "Zopfli.C07_final_block"
   ],
   "note": ""
  },
  {
   "property": "C08",
   "status": "proved",
   "theorems": [
    "Zopfli.C08_back_references"
   ],
   "note": ""
  },
  {
   "property": "C09",
   "status": "proved",
   "theorems": [
    "Zopfli.C09_code_lengths"
   ],
   "note": ""
  },
  {
   "property": "C10",
   "status": "proved",
   "theorems": [
    "Zopfli.C10_optimal_lengths",
    "Zopfli.C10_optimal_code"
   ],
   "note": "For every histogram over at most 288 symbols of which at most 2^maxBits are used: no assignment of lengths <= maxBits that covers the used symbols and satisfies Kraft's inequality gives fewer total bits."
  },
  {
   "property": "C11",
   "status": "proved",
   "theorems": [
    "Zopfli.C11_canonical_codes"
   ],
   "note": ""
  },
  {
   "property": "C12",
   "status": "proved",
   "theorems": [
    "Zopfli.C12_length_symbols",
    "Zopfli.C12_distance_symbols"
   ],
   "note": ""
  },
  {
   "property": "C13",
   "status": "proved",
   "theorems": [
    "Zopfli.C13_histogram"
   ],
   "note": ""
  },
  {
   "property": "C15",
   "status": "proved",
   "theorems": [
    "Zopfli.C15_tree_smallest"
   ],
   "note": ""
  },
  {
   "property": "C16",
   "status": "proved",
   "theorems": [
    "Zopfli.C16_tree_decodes",
    "Zopfli.C16_block_lengths"
   ],
   "note": ""
  },
  {
   "property": "C17",
   "status": "proved",
   "theorems": [
    "Zopfli.C17_smoothing"
   ],
   "note": ""
  },
  {
   "property": "C21",
   "status": "proved",
   "theorems": [
    "Zopfli.C21_sink_errors",
    "Zopfli.C21_reported_at_once",
    "Zopfli.C21_drop",
    "Zopfli.C21_compress",
    "Zopfli.C21_compress_lent",
    "Zopfli.spy_transparent",
    "Zopfli.spy_transparent_compress"
   ],
   "note": ""
  },
  {
   "property": "C22",
   "status": "proved",
   "theorems": [
    "Zopfli.C22_C23_C26_same_stream",
    "Zopfli.C21_sink_errors"
   ],
   "note": "Ok(0) on a non-empty buffer is recorded by spy as the failure WriteZero"
  },
  {
   "property": "C23",
   "status": "proved",
   "theorems": [
    "Zopfli.C23_drop_finishes",
    "Zopfli.C22_C23_C26_same_stream",
    "Zopfli.C21_drop"
   ],
   "note": ""
  },
  {
   "property": "C24",
   "status": "proved",
   "theorems": [
    "Zopfli.C24_violated"
   ],
   "note": "the property is false of the code; the theorem is the counterexample"
  },
  {
   "property": "C25",
   "status": "proved",
   "theorems": [
    "Zopfli.C25_violated"
   ],
   "note": "the property is false of the code; the theorem is the counterexample"
  },
  {
   "property": "C26",
   "status": "proved",
   "theorems": [
    "Zopfli.C26_flush_forwards",
    "Zopfli.C22_C23_C26_same_stream"
   ],
   "note": ""
  },
  {
   "property": "C27",
   "status": "proved",
   "theorems": [
    "Zopfli.C27_stored_stream",
    "Zopfli.C27_stored_size"
   ],
   "note": ""
  },
  {
   "property": "C29",
   "status": "proved",
   "theorems": [
    "Zopfli.C29_window",
    "Zopfli.C29_memory"
   ],
   "note": ""
  },
  {
   "property": "C31",
   "status": "proved",
   "theorems": [
    "Zopfli.C31_bit_packing",
    "Zopfli.C31_bit_order"
   ],
   "note": ""
  },
  {
   "property": "C33",
   "status": "proved",
   "theorems": [
    "Zopfli.C33_slice_write_all",
    "Zopfli.C33_vec_write_all",
    "Zopfli.C33_slice_session",
    "Zopfli.C33_vec_session"
   ],
   "note": ""
  },
  {
   "property": "C34",
   "status": "proved",
   "theorems": [
    "Zopfli.C04_C34_compress",
    "Zopfli.C21_compress",
    "Zopfli.C04_C34_compress_lent",
    "Zopfli.C21_compress_lent"
   ],
   "note": ""
  },
  {
   "property": "C35",
   "status": "proved",
   "theorems": [
    "Zopfli.C35_empty",
    "Zopfli.C35_empty_writes"
   ],
   "note": ""
  },
  {
   "property": "C14",
   "status": "proved",
   "theorems": [
    "Zopfli.C14_fixed_estimate",
    "Zopfli.C14_dynamic_estimate",
    "Zopfli.C14_stored_estimate"
   ],
   "note": ""
  },
  {
   "property": "C18",
   "status": "proved",
   "theorems": [
    "Zopfli.C18_block_splitting",
    "Zopfli.C18_fixed_mode"
   ],
   "note": ""
  },
  {
   "property": "C19",
   "status": "proved",
   "theorems": [
    "Zopfli.C19_zero_means_one"
   ],
   "note": "the documentation is violated; the theorem says what the code does instead: one piece per write"
  },
  {
   "property": "C28",
   "status": "proved",
   "theorems": [
    "Zopfli.C28_block_choice",
    "Zopfli.C28_never_worse_than_stored"
   ],
   "note": "for writes below 2^28 bytes, beyond which the u32 size estimate can wrap"
  },
  {
   "property": "C20",
   "status": "proved",
   "theorems": [
    "Zopfli.C20_cache_answers",
    "Zopfli.C20_cache_parses"
   ],
   "note": ""
  },
  {
   "property": "C30",
   "status": "proved",
   "theorems": [
    "Zopfli.C30_best_pass",
    "Zopfli.C30_more_is_never_worse"
   ],
   "note": ""
  },
  {
   "property": "C32",
   "status": "proved",
   "theorems": [
    "Zopfli.C32_longest_common_prefix"
   ],
   "note": ""
  },
  {
   "property": "C36",
   "status": "proved",
   "theorems": [
    "Zopfli.C36_generator"
   ],
   "note": ""
  },
  {
   "property": "C37",
   "status": "proved",
   "theorems": [
    "Zopfli.C37_longest_match",
    "Zopfli.C37_sharing_le"
   ],
   "note": "Conditional on the 8192-step chain limit not being exhausted, as the property says; C37_sharing_le: the condition holds at every position below 8193."
  },
  {
   "property": "C38",
   "status": "proved",
   "theorems": [
    "Zopfli.C38_shortest_fixed_block"
   ],
   "note": "Conditional, as the property says, on chunk size (so that f32 bit counts are exact) and on the match finder not giving up; runs of equal bytes of any length are covered, except runs of exactly 257 or 258 bytes, where the match finder itself may lose one byte (C37)."
  },
  {
   "property": "C39",
   "status": "proved",
   "theorems": [
    "Zopfli.C39_dynamic_best_codes"
   ],
   "note": ""
  },
  {
   "property": "C40",
   "status": "proved",
   "theorems": [
    "Zopfli.C40_debug_build",
    "Zopfli.C40_debug_compress",
    "Zopfli.C40_debug_compress_lent",
    "Zopfli.C40_sizes_fit"
   ],
   "note": "All debug assertions are guards of the model, so every theorem about sessions also covers them; C40_debug_build adds the floating point ones. Overflow checks other than the 32-bit sums are not part of this property."
  },
  {
   "property": "C41",
   "status": "proved",
   "theorems": [
    "Zopfli.C41_predicted",
    "Zopfli.C41_cheaper_division"
   ],
   "note": "Predicted sizes are exact below 2^28 bytes per write (above, the 32-bit sums of the estimate may wrap)."
  },
  {
   "property": "C42",
   "status": "proved",
   "theorems": [
    "Zopfli.C42_cuts",
    "Zopfli.C42_first_cuts"
   ],
   "note": "Below 2^28 bytes per write. The last block is examined without its last item once there is a cut, and this is part of the statement."
  },
  {
   "property": "C43",
   "status": "proved",
   "theorems": [
    "Zopfli.C43_joined",
    "Zopfli.C43_same_as_joined",
    "Zopfli.C43_buffered_stream",
    "Zopfli.C43_one_write",
    "Zopfli.C43_cuts_do_not_matter",
    "Zopfli.C43_spy_transparent",
    "Zopfli.C43_sink_errors",
    "Zopfli.C43_no_panic"
   ],
   "note": ""
  },
  {
   "property": "C44",
   "status": "proved",
   "theorems": [
    "Zopfli.C44_checked_same",
    "Zopfli.C44_checked_stream",
    "Zopfli.C44_checked_drop",
    "Zopfli.C44_panics_or_same",
    "Zopfli.C44_compress_panics_or_same",
    "Zopfli.C44_compress_same",
    "Zopfli.C44_compress_reliable",
    "Zopfli.C44_buffered_panics_or_same",
    "Zopfli.C44_buffered_same",
    "Zopfli.C44_buffered_stream",
    "Zopfli.C44_lent_same",
    "Zopfli.C44_program",
    "Zopfli.C44_checked_size",
    "Zopfli.C44_checked_violated"
   ],
   "note": "C44_checked_violated shows a panic after a sink failure; the other theorems cover every session without failed calls. All u32/i32 arithmetic that can overflow is checked in the model; usize arithmetic is unbounded (usize subtraction below zero panics in every build of the model). In dynamic mode single writes are below 2^28 - 1 bytes."
  },
  {
   "property": "C45",
   "status": "proved",
   "theorems": [
    "Zopfli.C45_log2_accuracy",
    "Zopfli.C45_log2_powers",
    "Zopfli.C45_log2_special",
    "Zopfli.C45_log2_monotone",
    "Zopfli.C45_abs",
    "Zopfli.C45_log2_ok",
    "Zopfli.C45_no_std_session"
   ],
   "note": "Zero has no sign in the model of binary64 (-0 and 0 are one value); this matters to neither function on the arguments the encoder uses."
  },
  {
   "property": "C46",
   "status": "proved",
   "theorems": [
    "Zopfli.C46_success",
    "Zopfli.C46_failure",
    "Zopfli.C46_files",
    "Zopfli.C46_compresses",
    "Zopfli.C46_unreadable",
    "Zopfli.C46_count",
    "Zopfli.C46_statistics_transparent",
    "Zopfli.C46_no_panic"
   ],
   "note": "Links between files, other processes and the log message at the end are not modelled."
  },
  {
   "property": "C47",
   "status": "proved",
   "theorems": [
    "Zopfli.C47_truncated",
    "Zopfli.C47_all_or_nothing",
    "Zopfli.C47_unfinished",
    "Zopfli.C47_compress",
    "Zopfli.C47_program"
   ],
   "note": "A disk that dies is one on which from some moment on every write fails; what an operating system does with data it had already accepted is not modelled."
  },
  {
   "property": "C48",
   "status": "proved",
   "theorems": [
    "Zopfli.C48_self_delimiting",
    "Zopfli.C48_sessions",
    "Zopfli.C48_gzip_file"
   ],
   "note": ""
  },
  {
   "property": "C49",
   "status": "proved",
   "theorems": [
    "Zopfli.C49_pieces",
    "Zopfli.C49_small",
    "Zopfli.C49_small_any_sink",
    "Zopfli.C49_full_reads",
    "Zopfli.C49_program"
   ],
   "note": "For more than 991,808 bytes the output of compress() can depend on how the reader fragments the data and on its kind (a slice is written in one piece); DESIGN.md lists this as a finding. C49_pieces says exactly how far."
  },
  {
   "property": "C50",
   "status": "proved",
   "theorems": [
    "Zopfli.C50_progress"
   ],
   "note": ""
  },
  {
   "property": "C51",
   "status": "proved",
   "theorems": [
    "Zopfli.C51_local",
    "Zopfli.C51_same_blocks"
   ],
   "note": ""
  },
  {
   "property": "C52",
   "status": "proved",
   "theorems": [
    "Zopfli.C52_cheapest_passes"
   ],
   "note": ""
  },
  {
   "property": "C53",
   "status": "proved",
   "theorems": [
    "Zopfli.C53_damage_detected",
    "Zopfli.C53_stored_damage"
   ],
   "note": ""
  },
  {
   "property": "C54",
   "status": "proved",
   "theorems": [
    "Zopfli.C54_session_size",
    "Zopfli.C54_slice_large_enough",
    "Zopfli.C54_compress_size",
    "Zopfli.C54_compress_slice"
   ],
   "note": "In the default mode the bound is stated for writes of fewer than 2^28 bytes, as in C28."
  },
  {
   "property": "C55",
   "status": "proved",
   "theorems": [
    "Zopfli.C55_short_writes"
   ],
   "note": "Conditional, as the property says, on the match finder not giving up (as in C38)."
  },
  {
   "property": "C56",
   "status": "proved",
   "theorems": [
    "Zopfli.C56_same_body",
    "Zopfli.C56_overhead"
   ],
   "note": ""
  },
  {
   "property": "C57",
   "status": "proved",
   "theorems": [
    "Zopfli.C57_options_ignored",
    "Zopfli.C57_options_ignored_buffered"
   ],
   "note": ""
  },
  {
   "property": "C58",
   "status": "proved",
   "theorems": [
    "Zopfli.C58_more_is_never_longer",
    "Zopfli.C58_compress"
   ],
   "note": ""
  },
  {
   "property": "C59",
   "status": "proved",
   "theorems": [
    "Zopfli.C59_shortest_fixed_stream",
    "Zopfli.C59_dynamic"
   ],
   "note": ""
  },
  {
   "property": "C60",
   "status": "proved",
   "theorems": [
    "Zopfli.C60_all_or_nothing",
    "Zopfli.C60_window",
    "Zopfli.C60_framed",
    "Zopfli.C60_checksum",
    "Zopfli.C60_no_panic",
    "Zopfli.C60_tape_transparent"
   ],
   "note": ""
  },
  {
   "property": "C61",
   "status": "proved",
   "theorems": [
    "Zopfli.C61_periodic",
    "Zopfli.C61_constant"
   ],
   "note": ""
  },
  {
   "property": "C62",
   "status": "proved",
   "theorems": [
    "Zopfli.C62_cheap_repeats",
    "Zopfli.C62_written_twice"
   ],
   "note": ""
  },
  {
   "property": "C63",
   "status": "proved",
   "theorems": [
    "Zopfli.C63_own_codes_pay"
   ],
   "note": ""
  },
  {
   "property": "C64",
   "status": "proved",
   "theorems": [
    "Zopfli.C64_initialised",
    "Zopfli.C64_reused",
    "Zopfli.C64_one_pass",
    "Zopfli.C64_shared_nodes"
   ],
   "note": ""
  },
  {
   "property": "C65",
   "status": "proved",
   "theorems": [
    "Zopfli.C65_linear_work",
    "Zopfli.C65_part",
    "Zopfli.C65_match_search"
   ],
   "note": "steps are those of the functions with a clock in Model/Work; one operation on the tables of fixed size (288+32 symbols) counts as E steps, for every E"
  },
  {
   "property": "C66",
   "status": "proved",
   "theorems": [
    "Zopfli.C66_invisible",
    "Zopfli.C66_no_panic",
    "Zopfli.C66_split_points",
    "Zopfli.C66_iterations",
    "Zopfli.C66_block_report_dynamic",
    "Zopfli.C66_block_report_fixed"
   ],
   "note": "a logger is any state machine that does not panic; the rendering of the values as text by core::fmt is not modelled"
  },
  {
   "property": "C67",
   "status": "proved",
   "theorems": [
    "Zopfli.C67_as_error",
    "Zopfli.C67_no_abort",
    "Zopfli.C67_refines",
    "Zopfli.C67_prefix",
    "Zopfli.C67_written_twice",
    "Zopfli.C67_checked_violated"
   ],
   "note": "the two remarks at the end of the property are proved by executions; what destructors further inside do between a second panic and the abort is not modelled"
  },
  {
   "property": "C68",
   "status": "proved",
   "theorems": [
    "Zopfli.C68_reader_panics",
    "Zopfli.C68_reader_panics_sink_fails",
    "Zopfli.C68_no_abort",
    "Zopfli.C68_prefix",
    "Zopfli.C68_refines",
    "Zopfli.C68_lent_as_error",
    "Zopfli.C68_lent_no_abort",
    "Zopfli.C68_lent_prefix",
    "Zopfli.C68_lent_complete",
    "Zopfli.C68_lent_refines"
   ],
   "note": "release builds, as C67; the sink and the reader both panicking is not covered (the process may then be aborted)"
  },
  {
   "property": "C69",
   "status": "proved",
   "theorems": [
    "Zopfli.C69_code_lengths",
    "Zopfli.C69_block_sizes",
    "Zopfli.C69_estimates",
    "Zopfli.C69_32bit",
    "Zopfli.C69_64bit"
   ],
   "note": "code lengths and block sizes; C71 is about the rest"
  },
  {
   "property": "C70",
   "status": "proved",
   "theorems": [
    "Zopfli.C70_plain_calls",
    "Zopfli.C70_plain_session",
    "Zopfli.C70_roundtrip",
    "Zopfli.C70_write_vectored",
    "Zopfli.C70_copy",
    "Zopfli.C70_copy_roundtrip",
    "Zopfli.C70_nested",
    "Zopfli.C70_nested_any",
    "Zopfli.C70_nested_no_panic"
   ],
   "note": "formatting for write! is assumed not to fail by itself"
  },
  {
   "property": "C71",
   "status": "proved",
   "theorems": [
    "Zopfli.C71_chunk",
    "Zopfli.C71_session",
    "Zopfli.C71_compress",
    "Zopfli.C71_compress_slice",
    "Zopfli.C71_32bit_64bit",
    "Zopfli.C71_buffered",
    "Zopfli.C71_program",
    "Zopfli.C71_32bit_roundtrip"
   ],
   "note": "encoders in the release build; in a build with overflow checks a 32-bit target panics once 4 GiB have been written"
  },
  {
   "property": "C72",
   "status": "proved",
   "theorems": [
    "Zopfli.C72_cheap_repeats",
    "Zopfli.C72_written_twice"
   ],
   "note": ""
  },
  {
   "property": "C73",
   "status": "proved",
   "theorems": [
    "Zopfli.C73_as_error",
    "Zopfli.C73_no_abort",
    "Zopfli.C73_prefix",
    "Zopfli.C73_refines",
    "Zopfli.C73_buffer_lost"
   ],
   "note": ""
  },
  {
   "property": "C74",
   "status": "proved",
   "theorems": [
    "Zopfli.C74_write_vectored",
    "Zopfli.C74_plain_calls",
    "Zopfli.C74_plain_session",
    "Zopfli.C74_roundtrip",
    "Zopfli.C74_compress_deque",
    "Zopfli.C74_compress_deque_errors",
    "Zopfli.C74_compress_deque_no_panic"
   ],
   "note": ""
  },
  {
   "property": "C75",
   "status": "proved",
   "theorems": [
    "Zopfli.C75_compress_linear",
    "Zopfli.C75_compress_lent_linear",
    "Zopfli.C75_buffered_linear",
    "Zopfli.C75_call_bounded"
   ],
   "note": ""
  },
  {
   "property": "C76",
   "status": "proved",
   "theorems": [
    "Zopfli.C76_no_logarithm",
    "Zopfli.C76_sessions",
    "Zopfli.C76_compress",
    "Zopfli.C76_program",
    "Zopfli.C76_sessions_finite",
    "Zopfli.C76_compress_finite",
    "Zopfli.C76_program_finite"
   ],
   "note": ""
  },
  {
   "property": "C77",
   "status": "proved",
   "theorems": [
    "Zopfli.C77_same_as_provided",
    "Zopfli.C77_slice_and_vec",
    "Zopfli.C77_slice_session",
    "Zopfli.C77_any_write_all",
    "Zopfli.C77_write_is_not_called",
    "Zopfli.C77_by_ref",
    "Zopfli.C77_same_stream",
    "Zopfli.C77_buffered_stream",
    "Zopfli.C77_compress",
    "Zopfli.C77_sink_errors",
    "Zopfli.C77_buffered_errors",
    "Zopfli.C77_no_panic"
   ],
   "note": ""
  },
  {
   "property": "C78",
   "status": "proved",
   "theorems": [
    "Zopfli.C78_chunk",
    "Zopfli.C78_session",
    "Zopfli.C78_compress",
    "Zopfli.C78_compress_slice",
    "Zopfli.C78_buffered",
    "Zopfli.C78_program",
    "Zopfli.C78_roundtrip",
    "Zopfli.C78_compress_roundtrip",
    "Zopfli.C78_no_panic",
    "Zopfli.C78_failing_sink",
    "Zopfli.C78_checked",
    "Zopfli.C78_flag_last",
    "Zopfli.C78_chunks"
   ],
   "note": ""
  },
  {
   "property": "C79",
   "status": "proved",
   "theorems": [
    "Zopfli.C79_write",
    "Zopfli.C79_write_all",
    "Zopfli.C79_session",
    "Zopfli.C79_compress",
    "Zopfli.C79_contents",
    "Zopfli.C79_buffered",
    "Zopfli.C79_slice_to_slice"
   ],
   "note": ""
  }
 ]
}