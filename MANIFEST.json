{
 "claims": [
  {
   "property": "C01",
   "status": "proved",
   "theorems": [
    "Verif.C01_read_never_panics"
   ],
   "note": "Every byte slice; all three readers."
  },
  {
   "property": "C02",
   "status": "proved",
   "theorems": [
    "Verif.C02_read_iff",
    "Verif.C02_round_trip",
    "Verif.C02_read_none_iff",
    "Verif.C02_unique",
    "Verif.C02_dlt_entry_read_iff"
   ],
   "note": "try_read is exactly the inverse of an independently written serialisation (Spec/Wire.lean)."
  },
  {
   "property": "C03",
   "status": "proved",
   "theorems": [
    "Verif.C03_size"
   ],
   "note": ""
  },
  {
   "property": "C04",
   "status": "partial",
   "theorems": [
    "Verif.C04_storage_entry_exceeds_max_len",
    "Verif.C04_max_len_partial"
   ],
   "note": "Violated by the code: DltStorageEntry::max_len is 65535 but stored messages reach 65551 bytes; negation proved, plus the exact attained bound and the positive statement for DltEntry."
  },
  {
   "property": "C05",
   "status": "proved",
   "theorems": [
    "Verif.C05_accessors_are_bits",
    "Verif.C05_new_then_read",
    "Verif.C05_read_then_new"
   ],
   "note": "All 256 bytes and all flag/version combinations, checked by kernel evaluation of the whole finite table and lifted."
  },
  {
   "property": "C06",
   "status": "partial",
   "theorems": [
    "Verif.C06_no_round_trip",
    "Verif.C06_round_trip_iff_partial",
    "Verif.C06_aligned_decodes_as_log",
    "Verif.C06_info_log_round_trips"
   ],
   "note": "Violated by the code (casts constructor function addresses, MTIN mask 0x50); negation for every address assignment and exact round-trip condition proved."
  },
  {
   "property": "C07",
   "status": "partial",
   "theorems": [
    "Verif.C07_info_deviates",
    "Verif.C07_info_exact_partial",
    "Verif.C07_info_standard_partial",
    "Verif.C07_types_never_reported",
    "Verif.C07_verbose"
   ],
   "note": "Violated by the code (mask 0x15<<4 truncates to 0x50); negation and exact behaviour on all 256 bytes proved."
  },
  {
   "property": "C08",
   "status": "partial",
   "theorems": [
    "Verif.C08_ecu_id_can_panic",
    "Verif.C08_ecu_id_exact_partial"
   ],
   "note": "Violated: ecu_id() panics on a readable message with the ECU flag and fewer than 4 tail bytes; exact result and panic condition proved."
  },
  {
   "property": "C09",
   "status": "proved",
   "theorems": [
    "Verif.C09_timestamp",
    "Verif.C09_timestamp_some_iff"
   ],
   "note": ""
  },
  {
   "property": "C10",
   "status": "partial",
   "theorems": [
    "Verif.C10_ext_and_payload_can_panic",
    "Verif.C10_panic_iff_partial",
    "Verif.C10_extended_header_iff",
    "Verif.C10_payload_iff",
    "Verif.C10_regions"
   ],
   "note": "Violated: both calls panic on readable messages whose flagged optional fields do not fit; exact panic condition and exact results proved."
  },
  {
   "property": "C11",
   "status": "proved",
   "theorems": [
    "Verif.C11_dltit_terminates",
    "Verif.C11_next_never_panics"
   ],
   "note": "Fits: slices have at most isize::MAX bytes. Recursion depth (stack) is not modelled."
  },
  {
   "property": "C12",
   "status": "proved",
   "theorems": [
    "Verif.C12_dltit_sound"
   ],
   "note": ""
  },
  {
   "property": "C13",
   "status": "proved",
   "theorems": [
    "Verif.C13_dltit_order_and_gaps",
    "Verif.C13_dltit_stop"
   ],
   "note": ""
  },
  {
   "property": "C14",
   "status": "proved",
   "theorems": [
    "Verif.C14_dltit_round_trip"
   ],
   "note": ""
  },
  {
   "property": "C15",
   "status": "proved",
   "theorems": [
    "Verif.C15_dltit_fused",
    "Verif.C15_dltit_no_offset_fused"
   ],
   "note": ""
  },
  {
   "property": "C16",
   "status": "partial",
   "theorems": [
    "Verif.C16_corruption_hides_the_rest",
    "Verif.C16_no_recovery",
    "Verif.C16_recovers_over_markerless_bytes_partial"
   ],
   "note": "Violated: a corrupted message that keeps its marker ends the iteration; negation proved, and recovery over marker-free bytes proved."
  },
  {
   "property": "C17",
   "status": "proved",
   "theorems": [
    "Verif.C17_concat"
   ],
   "note": ""
  },
  {
   "property": "C18",
   "status": "proved",
   "theorems": [
    "Verif.C18_search",
    "Verif.C18_search_generic",
    "Verif.C18_search_beyond",
    "Verif.C18_search_fused",
    "Verif.C18_search_none_offset",
    "Verif.C18_search_recovers"
   ],
   "note": ""
  },
  {
   "property": "C19",
   "status": "proved",
   "theorems": [
    "Verif.C19_search_extends_dltit",
    "Verif.C19_agree_on_clean"
   ],
   "note": ""
  },
  {
   "property": "C20",
   "status": "proved",
   "theorems": [
    "Verif.C20_rev_search"
   ],
   "note": ""
  },
  {
   "property": "C21",
   "status": "partial",
   "theorems": [
    "Verif.C21_rev_search_not_fused",
    "Verif.C21_not_fused",
    "Verif.C21_after_none_partial"
   ],
   "note": "Violated: after None the offset is usize::MAX and the next call restarts. Exact: it stays ended if and only if the file holds no message at all, otherwise it starts again with the last message (if it ever returns: C97)."
  },
  {
   "property": "C22",
   "status": "proved",
   "theorems": [
    "Verif.C22_read_iterator",
    "Verif.C22_read_iterator_fused"
   ],
   "note": ""
  },
  {
   "property": "C23",
   "status": "proved",
   "theorems": [
    "Verif.C23_grep_sound"
   ],
   "note": "Regex abstracted as a function giving the preferred match at each start position (leftmost-first find_at). C23 excludes panics; divergence is C25."
  },
  {
   "property": "C24",
   "status": "proved",
   "theorems": [
    "Verif.C24_grep_increasing",
    "Verif.C24_grep_resumes_behind",
    "Verif.C24_repeats_forever"
   ],
   "note": "Patterns without empty matches are the stated quantifier; beyond it the claim is false, proved for (?m)$."
  },
  {
   "property": "C25",
   "status": "partial",
   "theorems": [
    "Verif.C25_grep_terminates_partial",
    "Verif.C25_next_diverges",
    "Verif.C24_repeats_forever",
    "Verif.C25_terminates_iff"
   ],
   "note": "Proved for patterns without empty matches; violated otherwise (empty pattern makes next() recurse for ever). Exactly, for every pattern, file and offset: the iteration ends if and only if it does not get to an offset with an empty match that is not inside the message it is attributed to."
  },
  {
   "property": "C26",
   "status": "partial",
   "theorems": [
    "Verif.C26_grep_complete_partial",
    "Verif.C26_grep_literal_partial",
    "Verif.C26_spanning_match_hides_hit"
   ],
   "note": "Proved for patterns whose matches do not overlap message boundaries and literals; violated for matches spanning messages (witness)."
  },
  {
   "property": "C27",
   "status": "partial",
   "theorems": [
    "Verif.C27_regex_sound_partial",
    "Verif.C27_regex_terminates_partial",
    "Verif.C27_reported_twice",
    "Verif.C27_message_skipped",
    "Verif.C27_no_group_finds_nothing",
    "Verif.C27_terminates_iff",
    "Verif.C27_line_end_never_ends"
   ],
   "note": "Violated: next() adds message offset and absolute group end; negations proved. Exactly when the iteration ends (C27_terminates_iff): the pattern (?m)($) on a message with a newline reports the same line end for ever."
  },
  {
   "property": "C28",
   "status": "proved",
   "theorems": [
    "Verif.C28_contained_by_sound",
    "Verif.C28_contained_by_sound_generic"
   ],
   "note": ""
  },
  {
   "property": "C29",
   "status": "partial",
   "theorems": [
    "Verif.C29_contained_by_outermost_partial",
    "Verif.C29_oversized_not_found",
    "Verif.C29_straddling_message_found",
    "Verif.C29_found_iff"
   ],
   "note": "Proved for top-level messages of at most 65536 bytes and no marker straddling a message end; both exceptions shown to be real violations. Exactly, for messages of any length none of which has a message starting in its last 3 bytes or behind its first 65536: the message around p is found if and only if p is at most 65535 bytes behind its start (C29_found_iff). On every file: C79."
  },
  {
   "property": "C30",
   "status": "proved",
   "theorems": [
    "Verif.C30_partition_contiguous",
    "Verif.C30_partition_panics_iff",
    "Verif.C30_partition_contiguous_generic"
   ],
   "note": ""
  },
  {
   "property": "C31",
   "status": "partial",
   "theorems": [
    "Verif.C31_partition_drops_the_tail",
    "Verif.C31_loses_bytes",
    "Verif.C31_more_partitions_than_bytes",
    "Verif.C31_what_is_lost_partial",
    "Verif.C31_loses_less_than_a_slice_partial",
    "Verif.C33_large_files_partial"
   ],
   "note": "Violated: the last slice is dropped in several situations (witnesses). Proved: the slices are a prefix, the three reasons for a loss, less than one slice is lost if no message is longer than a slice; conditions for losslessness under C33."
  },
  {
   "property": "C32",
   "status": "partial",
   "theorems": [
    "Verif.C32_no_message_spans_two_partial",
    "Verif.C32_oversized_message_is_cut",
    "Verif.C32_straddled_message_is_cut",
    "Verif.C32_only_the_end",
    "Verif.C32_first_cut_iff"
   ],
   "note": "Proved for messages of at most 65536 bytes without straddling; exceptions shown to be real. For messages of any length (C32_only_the_end): a slice that ends inside a message ends in its last 15 bytes and has exactly the size aimed at; the first slice does so if and only if the place aimed at is there (C32_first_cut_iff)."
  },
  {
   "property": "C33",
   "status": "partial",
   "theorems": [
    "Verif.C33_large_files_partial",
    "Verif.C33_short_messages_partial",
    "Verif.C33_no_slices",
    "Verif.C33_too_many_slices",
    "Verif.C33_slice_count_wrong"
   ],
   "note": "Proved for files large relative to message size; violated in general."
  },
  {
   "property": "C34",
   "status": "partial",
   "theorems": [
    "Verif.C34_par_count_exact_partial",
    "Verif.C34_par_count_partial",
    "Verif.C34_par_count_large_partial",
    "Verif.C34_par_count_never_panics",
    "Verif.C34_par_count_wrong",
    "Verif.C34_par_count_iff"
   ],
   "note": "par_count never panics and returns the number of messages in the slices (every file); it equals the sequential count on clean files with messages of at most 65536 bytes that do not straddle and slices that lose nothing. Violated in general: witness file on which the two counts differ. On such files the two agree if and only if no message starts behind the slices."
  },
  {
   "property": "C35",
   "status": "proved",
   "theorems": [
    "Verif.C35_counters",
    "Verif.C35_counters_sum",
    "Verif.C35_commands",
    "Verif.C35_par_histogram",
    "Verif.C35_par_split",
    "Verif.C66_one_result"
   ],
   "note": "The result of each multithreaded command is a function of the file and the number of threads: every schedule (every split of the slice list into a reduction tree) gives the same result. The remaining multithreaded command (grepit) is in C66_one_result."
  },
  {
   "property": "C36",
   "status": "partial",
   "theorems": [
    "Verif.C36_par_histogram_partial",
    "Verif.C36_par_split_counts_partial",
    "Verif.C36_par_histogram_differs",
    "Verif.C36_par_histogram_iff"
   ],
   "note": "The counts per key are the sequential ones on clean files whose slices lose nothing; the lifecycle spans are per slice, so the full equality is violated (witness). Exactly, on such files: par_histogram_timestamp is histogram_timestamp if and only if the seconds decrease at every cut."
  },
  {
   "property": "C37",
   "status": "proved",
   "theorems": [
    "Verif.C37_chain_terminates",
    "Verif.C37_reducer_on_collected",
    "Verif.C37_reducer_panic",
    "Verif.C37_chain_composes",
    "Verif.C37_nil_chain"
   ],
   "note": ""
  },
  {
   "property": "C38",
   "status": "proved",
   "theorems": [
    "Verif.C38_filter",
    "Verif.C38_map",
    "Verif.C38_panics_iff"
   ],
   "note": ""
  },
  {
   "property": "C39",
   "status": "partial",
   "theorems": [
    "Verif.C39_groupby_maximal_runs_partial",
    "Verif.C39_runs_unique",
    "Verif.C39_nonreflexive_drops_inputs",
    "Verif.C39_strict_less_loses_run",
    "Verif.C39_groupby_exact",
    "Verif.C39_reflexive_iff"
   ],
   "note": "Proved for every reflexive predicate (all predicates used in ripdlt); for predicates that do not relate an item to itself, inputs are dropped (witness). Exactly: for every relation and input, the runs are returned if and only if every run of one element is related to itself, otherwise fewer pairs; the relations for which this holds of every input are the reflexive ones."
  },
  {
   "property": "C40",
   "status": "proved",
   "theorems": [
    "Verif.C40_merge_generic",
    "Verif.C40_merge_overlapping"
   ],
   "note": "Generic merge for any key order and merge function that preserves coverage, and merge_overlapping_timestamps behind any chain."
  },
  {
   "property": "C41",
   "status": "partial",
   "theorems": [
    "Verif.C41_mergeable_left",
    "Verif.C41_bridge",
    "Verif.C41_merge_disjoint_partial",
    "Verif.C41_exact",
    "Verif.C41_groups"
   ],
   "note": "Violated: an interval bridging two already separated intervals is merged with only one of them (witness). Exactly, for every sequence of well-formed intervals: no two outputs can be merged further if and only if no interval, when it arrives, meets two earlier ones that are not linked by earlier ones; and then the outputs are the groups of linked intervals."
  },
  {
   "property": "C42",
   "status": "proved",
   "theorems": [
    "Verif.C42_split",
    "Verif.C42_split_total"
   ],
   "note": ""
  },
  {
   "property": "C43",
   "status": "proved",
   "theorems": [
    "Verif.C43_fork",
    "Verif.C43_fold",
    "Verif.C43_count",
    "Verif.C43_sum",
    "Verif.C43_collect"
   ],
   "note": ""
  },
  {
   "property": "C44",
   "status": "proved",
   "theorems": [
    "Verif.C44_pull_groupby_eq_push"
   ],
   "note": ""
  },
  {
   "property": "C45",
   "status": "proved",
   "theorems": [
    "Verif.C45_message_sizes",
    "Verif.C45_count",
    "Verif.messages_of_file"
   ],
   "note": "Including the printed total."
  },
  {
   "property": "C46",
   "status": "proved",
   "theorems": [
    "Verif.C46_timestamp_histogram"
   ],
   "note": "Including the printed bucket lines."
  },
  {
   "property": "C47",
   "status": "proved",
   "theorems": [
    "Verif.C47_split_timestamp"
   ],
   "note": "Printing the ECU id is C56. The specification EcuSpans determines the spans (C141); how many there are is C142."
  },
  {
   "property": "C48",
   "status": "partial",
   "theorems": [
    "Verif.C48_lifecycle_histogram_partial",
    "Verif.C48_lifecycle_iter_partial",
    "Verif.C48_lifecycle_split_partial",
    "Verif.C48_lifecycles_can_panic"
   ],
   "note": "Exact characterisation: the three functions panic exactly if a message flagged to have a time stamp is too short to hold it (witness, so the full statement is false), and otherwise return the stated histogram."
  },
  {
   "property": "C49",
   "status": "partial",
   "theorems": [
    "Verif.C49_count_hello_world_partial",
    "Verif.C49_count_hello_world_can_panic",
    "Verif.C49_raw",
    "Verif.C49_search_text"
   ],
   "note": "Exact characterisation: count_hello_world panics exactly if a message's flagged fields are incomplete (witness), otherwise counts the payloads that contain the text; the raw count never panics and counts the leftmost non-overlapping occurrences."
  },
  {
   "property": "C50",
   "status": "partial",
   "theorems": [
    "Verif.C50_payload_sizes_partial",
    "Verif.C50_message_types_partial",
    "Verif.C50_histograms_can_panic"
   ],
   "note": "Exact characterisation of the panics (witness), otherwise exact histograms."
  },
  {
   "property": "C51",
   "status": "partial",
   "theorems": [
    "Verif.C51_round_trip_partial",
    "Verif.C51_round_trip_small_partial",
    "Verif.C51_payload_cut",
    "Verif.C51_overflow",
    "Verif.C84_reads_back_iff"
   ],
   "note": "Holds for payload sizes 1..65517 on every input none of whose chunks has more bytes behind its last newline than the output buffer takes: 1024, or 1023 with later versions of the standard library (always for sizes up to one more than that). Violated beyond: dd_dlt calls write once, std's LineWriter accepts only part of a long payload after a newline, and the rest is lost (C51_payload_cut); with overflow checks the time stamp overflows after 42949673 messages (C51_overflow). C84_reads_back_iff: the output reads back if and only if no payload is too long behind its last newline."
  },
  {
   "property": "C52",
   "status": "partial",
   "theorems": [
    "Verif.C52_size_argument",
    "Verif.C52_usage",
    "Verif.C52_bad_size_partial",
    "Verif.C52_bad_id",
    "Verif.C52_short_input",
    "Verif.C52_too_large_panics",
    "Verif.C52_too_large_unreadable",
    "Verif.C52_size_zero_never_ends",
    "Verif.C52_size_zero_panics"
   ],
   "note": "The argument parser accepts exactly the decimals up to 65535; bad sizes and ids are reported. Violated: in a release build sizes 65518..65521 wrap the length field and give unreadable output, size 0 never ends."
  },
  {
   "property": "C53",
   "status": "partial",
   "theorems": [
    "Verif.C53_partition_partial",
    "Verif.C53_large_messages_are_cut",
    "Verif.C53_partition_iff",
    "Verif.C53_few_slices",
    "Verif.C53_marker_at_the_end"
   ],
   "note": "Holds for payload sizes up to 65502 and every input, nested DLT files included; violated for 65503..65517 (messages longer than the 64 KiB read window are cut). Exactly, unless a payload has the marker behind its first 65502 bytes: the cuts are at message boundaries if and only if len/num leaves a remainder below 65536 when divided by the message size (C53_partition_iff), which is always so for up to 4370 slices (C53_few_slices). With such a marker already two messages in two slices are cut (C53_marker_at_the_end)."
  },
  {
   "property": "C54",
   "status": "partial",
   "theorems": [
    "Verif.C54_read_file_partial",
    "Verif.C54_read_error_truncates",
    "Verif.C54_read_file_ok_but_short"
   ],
   "note": "Holds when no read call fails; violated otherwise: read_file discards the result of read_to_end, so an I/O error gives a silently shortened buffer (for every split of the contents)."
  },
  {
   "property": "C55",
   "status": "proved",
   "theorems": [
    "Verif.C55_len",
    "Verif.C55_same_contents",
    "Verif.C55_read_and_mmap_agree"
   ],
   "note": "For every buffer, and for every file opened in both ways without a read error."
  },
  {
   "property": "C56",
   "status": "partial",
   "theorems": [
    "Verif.C56_split_timestamp_partial",
    "Verif.C56_split_lifecycles_partial",
    "Verif.C56_par_split_timestamp_partial",
    "Verif.C56_split_timestamp_can_panic",
    "Verif.utf8Valid_iff"
   ],
   "note": "Violated for ids that are not UTF-8 (witness); panics characterised exactly, otherwise one line per id."
  },
  {
   "property": "C57",
   "status": "partial",
   "theorems": [
    "Verif.C57_lifecycle_itertools_partial",
    "Verif.C57_lifecycle_itertools_can_panic"
   ],
   "note": "Exact characterisation: panics exactly if a time-stamped message other than the last is incomplete (witness: a file of two messages)."
  },
  {
   "property": "C58",
   "status": "partial",
   "theorems": [
    "Verif.C58_par_count_hello_world_partial",
    "Verif.C58_par_count_hello_world_wrong",
    "Verif.C58_par_count_hello_world_iff"
   ],
   "note": "Holds, panics included, on clean files with messages of at most 65536 bytes that do not straddle and slices that lose nothing; outside of that the slices can lose or change messages as in C34 (witness: five messages, two threads, four counted). Exactly, on such files: they agree if and only if a message in the slices is incomplete (both panic) or all messages behind the slices are complete and do not have the text."
  },
  {
   "property": "C59",
   "status": "proved",
   "theorems": [
    "Verif.C59_standard_header",
    "Verif.C59_extended_header",
    "Verif.C59_storage_header",
    "Verif.C59_as_bytes_is_wire_format"
   ],
   "note": "All header values and slices."
  },
  {
   "property": "C60",
   "status": "proved",
   "theorems": [
    "Verif.C60_mmap_file",
    "Verif.C60_empty_file"
   ],
   "note": "Every file and every answer of the operating system; memmap 0.7 refuses empty files."
  },
  {
   "property": "C61",
   "status": "proved",
   "theorems": [
    "Verif.C61_count_grepit"
   ],
   "note": "Which messages exactly is C62_grepit_exact. Concrete semantics of the pattern H.* World (leftmost-first, greedy, dot = any scalar but newline) modelled and proved to be what the regex contract says."
  },
  {
   "property": "C62",
   "status": "partial",
   "theorems": [
    "Verif.C62_grepit_lines_partial",
    "Verif.C62_grepit_misses_messages",
    "Verif.C62_grepit_exact"
   ],
   "note": "Exact when every message ends in a newline and markers occur only at message starts; violated otherwise (witness: two messages saying Hello World, count 0)."
  },
  {
   "property": "C63",
   "status": "proved",
   "theorems": [
    "Verif.C63_histogram_hello_world",
    "Verif.C63_histogram_exact"
   ],
   "note": "Every file."
  },
  {
   "property": "C64",
   "status": "proved",
   "theorems": [
    "Verif.C64_names",
    "Verif.C64_usage",
    "Verif.C64_rejects",
    "Verif.C64_runs"
   ],
   "note": "Every argument list and file."
  },
  {
   "property": "C65",
   "status": "proved",
   "theorems": [
    "Verif.C65_mmap_or_read",
    "Verif.C65_same_text"
   ],
   "note": "Every way the reads are split; C65_same_text for the printed text, which differs only in the argument mmap or read itself in the first line."
  },
  {
   "property": "C66",
   "status": "proved",
   "theorems": [
    "Verif.C66_one_result",
    "Verif.C66_program_ends"
   ],
   "note": "Files of at most isize::MAX bytes (Fits), num threads >= 1."
  },
  {
   "property": "C67",
   "status": "proved",
   "theorems": [
    "Verif.C67_sequential_panics",
    "Verif.C67_complete_files"
   ],
   "note": "Exact panic conditions by the messages of the file."
  },
  {
   "property": "C68",
   "status": "proved",
   "theorems": [
    "Verif.C68_sequential_prints"
   ],
   "note": "The specification of each report is Spec.Prints; it allows exactly one report (C141)."
  },
  {
   "property": "C69",
   "status": "proved",
   "theorems": [
    "Verif.C69_counters",
    "Verif.C69_parallel_panics"
   ],
   "note": "Slices are those of partition; which messages they contain is the subject of C30-C34."
  },
  {
   "property": "C70",
   "status": "proved",
   "theorems": [
    "Verif.C70_balanced"
   ],
   "note": "L is any bound of the message lengths, at most len/num; file of at most isize::MAX bytes (Fits)."
  },
  {
   "property": "C71",
   "status": "proved",
   "theorems": [
    "Verif.C71_partition_exact"
   ],
   "note": "The specification is the inductive Spec.Cuts; messages <= 65536 bytes and not straddled are part of the quantifier."
  },
  {
   "property": "C72",
   "status": "proved",
   "theorems": [
    "Verif.C72_slices_hold_a_prefix",
    "Verif.C72_par_count_bounds"
   ],
   "note": "Clean files with messages <= 65536 bytes that are not straddled (part of the quantifier)."
  },
  {
   "property": "C73",
   "status": "partial",
   "theorems": [
    "Verif.C73_partition_exponential",
    "Verif.C73_not_polynomial",
    "Verif.C73_partition_linear_partial"
   ],
   "note": "Violated: contained_by recurses without memory, so a file of 131080*a bytes of nested length announcements costs at least 3276^a - 1 reads. Proved: at most 131071 reads per slice (and once more) if messages have at most 65536 bytes and embedded messages end with the message they are in."
  },
  {
   "property": "C74",
   "status": "partial",
   "theorems": [
    "Verif.C74_stack_sound",
    "Verif.C74_linear_depth_partial",
    "Verif.C74_depth_grows"
   ],
   "note": "Violated: on n bytes x without a message, searching for x takes exactly n nested calls (the recursion is not a loop; a compiler may or may not turn it into one). Proved: for patterns without empty matches the depth is at most the number of bytes behind the offset and one."
  },
  {
   "property": "C75",
   "status": "proved",
   "theorems": [
    "Verif.C75_from_code",
    "Verif.C75_to_code",
    "Verif.C75_tables_agree"
   ],
   "note": "All 256 numbers by kernel evaluation of the whole table, lifted."
  },
  {
   "property": "C76",
   "status": "proved",
   "theorems": [
    "Verif.C76_search_marker",
    "Verif.C76_search_last_marker"
   ],
   "note": "Any marker type; empty markers are excluded by the model's type."
  },
  {
   "property": "C77",
   "status": "proved",
   "theorems": [
    "Verif.C77_fold_stateful",
    "Verif.C77_fold_stateless"
   ],
   "note": "Fold is the only place where the code takes FnMut closures; all others are Fn and modelled as functions."
  },
  {
   "property": "C78",
   "status": "partial",
   "theorems": [
    "Verif.C78_copies_erase",
    "Verif.C78_collect_copies_partial",
    "Verif.C78_not_linear"
   ],
   "note": "Violated: Fold::next clones the accumulated value for every item, so collecting n items clones exactly n(n+1)/2; exact count proved."
  },
  {
   "property": "C79",
   "status": "proved",
   "theorems": [
    "Verif.C79_contained_by_exact",
    "Verif.C79_free_unique"
   ],
   "note": "Exact on every slice of at most isize::MAX bytes (Fits); C29 is what it amounts to on files without oversized or straddling messages."
  },
  {
   "property": "C80",
   "status": "proved",
   "theorems": [
    "Verif.C80_partition_exact"
   ],
   "note": "Exact on every slice of at most isize::MAX bytes (Fits)."
  },
  {
   "property": "C81",
   "status": "proved",
   "theorems": [
    "Verif.C81_next_exact",
    "Verif.C81_grep_exact",
    "Verif.C81_diverges_iff"
   ],
   "note": "Exact on every slice of at most isize::MAX bytes (Fits) and for every pattern, empty matches included; C23-C26 are consequences on restricted inputs."
  },
  {
   "property": "C82",
   "status": "proved",
   "theorems": [
    "Verif.C82_next_exact",
    "Verif.C82_capture_exact"
   ],
   "note": "Exact on every slice of at most isize::MAX bytes (Fits) and for every pattern; that a call never returns iff the search has no outcome is part of C82_next_exact (same search as C81)."
  },
  {
   "property": "C83",
   "status": "proved",
   "theorems": [
    "Verif.C83_chain_exact",
    "Verif.C83_program_exact",
    "Verif.C83_program_runs"
   ],
   "note": "Covers every program of the API; the key function of merge is total (a panic inside it is not modelled) and closures other than fold's are pure."
  },
  {
   "property": "C84",
   "status": "proved",
   "theorems": [
    "Verif.C84_dd_output",
    "Verif.C84_reads_back_iff"
   ],
   "note": "Standard output is the model of std's line-buffered writer in Model/Stdout, in the version of the commit's date and in the later one, which take different numbers of bytes (the process' output takes every byte). C51-C53 are consequences on restricted inputs."
  },
  {
   "property": "C85",
   "status": "proved",
   "theorems": [
    "Verif.C85_reader",
    "Verif.C85_search",
    "Verif.C85_rev_search",
    "Verif.C85_ends"
   ],
   "note": "The reader for every type satisfying Spec.Reads, the searches for every type satisfying Spec.Searches (markers that do not overlap themselves); the DLT type is one (dlt_lawful) and a made-up frame type another (frames_lawful). The repository's test type WrapTestStruct is not lawful: its two read functions disagree."
  },
  {
   "property": "C86",
   "status": "proved",
   "theorems": [
    "Verif.C86_contained_by_exact",
    "Verif.C86_partition_exact",
    "Verif.C30_partition_contiguous_generic",
    "Verif.C86_no_free_value_cut"
   ],
   "note": "As C79 and C80, for every lawful type."
  },
  {
   "property": "C87",
   "status": "proved",
   "theorems": [
    "Verif.C87_next_exact",
    "Verif.C87_grep_exact",
    "Verif.C87_diverges_iff",
    "Verif.C87_capture_exact"
   ],
   "note": "As C81 and C82, for every lawful type."
  },
  {
   "property": "C88",
   "status": "proved",
   "theorems": [
    "Verif.C88_text",
    "Verif.C88_panics",
    "Verif.C88_ends",
    "Verif.C88_one_output",
    "Verif.C88_panic_prints_title",
    "Verif.C88_split_timestamp_stops",
    "Verif.C88_split_lifecycles_stops",
    "Verif.C88_par_split_stops",
    "Verif.C88_usage",
    "Verif.C88_rejects",
    "Verif.C88_runs"
   ],
   "note": "Standard output takes every byte; panic messages (standard error) are not modelled."
  },
  {
   "property": "C89",
   "status": "proved",
   "theorems": [
    "Verif.C89_text_identifies_report"
   ],
   "note": "An ECU id has exactly four bytes, which is why line breaks in it do no harm."
  },
  {
   "property": "C90",
   "status": "proved",
   "theorems": [
    "Verif.C90_par_iter_prints",
    "Verif.C90_par_iter_panics",
    "Verif.C90_order_varies",
    "Verif.C90_cut_lifecycle"
   ],
   "note": "println! writes whole lines."
  },
  {
   "property": "C91",
   "status": "proved",
   "theorems": [
    "Verif.C91_cut",
    "Verif.C91_grows",
    "Verif.C91_count",
    "Verif.C91_search_cut",
    "Verif.C91_search_finds_inner",
    "Verif.C91_rev_cut"
   ],
   "note": "The search iterator may find further messages inside the one that was cut; that is part of the statement and shown to happen."
  },
  {
   "property": "C92",
   "status": "proved",
   "theorems": [
    "Verif.C92_programs_see_through_closures",
    "Verif.C92_chains_see_through_closures",
    "Verif.C92_map_first"
   ],
   "note": "The programs are those of C83 (Model/Program)."
  },
  {
   "property": "C93",
   "status": "proved",
   "theorems": [
    "Verif.C93_footprint",
    "Verif.C93_only_messages",
    "Verif.C93_raw_search_sees_more"
   ],
   "note": "SameFor (Spec/Footprint) says per command what of a message matters. The raw and regex searches and the commands on slices are outside the claim; that a raw search does see other bytes is shown."
  },
  {
   "property": "C94",
   "status": "proved",
   "theorems": [
    "Verif.C94_reader",
    "Verif.C94_commands",
    "Verif.C94_par_count_sees_payloads"
   ],
   "note": "The claim is about the sequential commands; par_count is shown not to have the property."
  },
  {
   "property": "C95",
   "status": "proved",
   "theorems": [
    "Verif.C95_reports",
    "Verif.C95_texts"
   ],
   "note": "The eleven commands that go through the messages one by one. The message type is whatever the address-dependent info byte decodes to (C06)."
  },
  {
   "property": "C96",
   "status": "partial",
   "theorems": [
    "Verif.C96_dltit_linear_partial",
    "Verif.C96_search_zeros",
    "Verif.C96_rev_zeros",
    "Verif.C96_search_not_linear",
    "Verif.C96_search_bound_partial",
    "Verif.C96_rev_bound_partial",
    "Verif.C96_search_packed_partial",
    "Verif.C96_grep_quadratic"
   ],
   "note": "True of dltit; refuted for the others: after a failed search SearchIterator and RevSearchIterator move on by only the length of the marker and search the same bytes again (exactly 2q(q+1) bytes for 4q zero bytes), GrepIterator searches backwards from each match (n(n-1)/2 bytes). Proved: exact counts for these files, upper bounds for all files (quadratic only in the gap in front of the message found), and that logs without gaps are not affected."
  },
  {
   "property": "C97",
   "status": "partial",
   "theorems": [
    "Verif.C97_dltit_two_frames_partial",
    "Verif.C97_search_unbounded_stack",
    "Verif.C97_rev_after_none",
    "Verif.C96_search_zeros",
    "Verif.C96_rev_zeros",
    "Verif.C96_search_bound_partial",
    "Verif.C96_rev_bound_partial",
    "Verif.C96_search_packed_partial"
   ],
   "note": "dltit: two frames. Refuted for SearchIterator and RevSearchIterator: one frame per four bytes without a message (exactly q and q+1 for 4q zero bytes), and never more than that. Asking a RevSearchIterator again after None nests more than 2^61 calls on every file. The calls are in tail position, but Rust does not promise to eliminate them. GrepIterator: C74."
  },
  {
   "property": "C98",
   "status": "proved",
   "theorems": [
    "Verif.C98_pipeline_is_loop",
    "Verif.C98_fork_is_loop",
    "Verif.C98_effects_do_not_matter",
    "Verif.C98_no_effects"
   ],
   "note": "Equality of the run with the loop, including the world after every panic."
  },
  {
   "property": "C99",
   "status": "proved",
   "theorems": [
    "Verif.C99_groupby_calls",
    "Verif.C99_groupby_count"
   ],
   "note": "The exact list of calls, and its length."
  },
  {
   "property": "C100",
   "status": "proved",
   "theorems": [
    "Verif.C100_split_factory_calls",
    "Verif.C100_not_once_per_key"
   ],
   "note": "What a user would expect, one call per key, is refuted on every input with two elements of the same key."
  },
  {
   "property": "C101",
   "status": "proved",
   "theorems": [
    "Verif.C101_merge_calls_bound",
    "Verif.C101_merge_quadratic",
    "Verif.C101_merge_linear"
   ],
   "note": "Lifecycles without overlap are this worst case: merge is quadratic in their number."
  },
  {
   "property": "C102",
   "status": "proved",
   "theorems": [
    "Verif.C102_first_group",
    "Verif.C102_next_group",
    "Verif.C102_endless_run"
   ],
   "note": "The state of the source after the call is the state after exactly |run|+1 calls."
  },
  {
   "property": "C103",
   "status": "partial",
   "theorems": [
    "Verif.C103_ends_partial",
    "Verif.C103_asks_again",
    "Verif.C103_rev_groupby_never_ends",
    "Verif.C44_pull_groupby_eq_push"
   ],
   "note": "True of sources that stay exhausted (C44). Refuted for RevSearchIterator: groupby does not remember the end of its source (FromAdaptFn's third field is never read), asks again, and a backward search starts again at the end of the file; so on every file with a message groupby over it never returns None. On a real machine the call that starts again needs 2^61 frames first (C97)."
  },
  {
   "property": "C104",
   "status": "proved",
   "theorems": [
    "Verif.C104_front",
    "Verif.C104_messages"
   ],
   "note": "Combines with C91 (a file that breaks off)."
  },
  {
   "property": "C105",
   "status": "partial",
   "theorems": [
    "Verif.C105_reported_partial",
    "Verif.C105_only_if_missing",
    "Verif.C105_ends",
    "Verif.C105_silent_loss",
    "Verif.C105_point_of_silence",
    "Verif.C105_last_payload"
   ],
   "note": "Refuted as stated: what is still in the buffer of Stdout when main returns is flushed at exit, and a failure then is ignored, so the loss of up to 1024 bytes and one write goes unreported (witness: the last byte of one message). Proved: if more is missing the error is reported; an error is reported only if bytes are missing; and the program always ends, also for payload size 0. Also exact: for every run there is one point of the output, near its end, such that the error is reported exactly if the output breaks off in front of it (C105_point_of_silence); a break inside the last payload is never noticed, and if that payload has a newline or at least 1024 bytes every other break is (C105_last_payload)."
  },
  {
   "property": "C106",
   "status": "partial",
   "theorems": [
    "Verif.C106_only_lost",
    "Verif.C106_whole_partial",
    "Verif.C106_short_write_loss"
   ],
   "note": "Refuted as stated: dd_dlt ignores the number returned by write; a short write of a line drops the rest of the data (witness: an output that takes one byte at a time). Proved: the output is always a subsequence of the complete one; and if the output takes each write of up to max(1024, payload size) bytes as a whole, the program behaves as on an unlimited output (this also shows that Model/Refuse extends Model/DdDlt)."
  },
  {
   "property": "C107",
   "status": "proved",
   "theorems": [
    "Verif.C107_complete_or_panic",
    "Verif.C107_limited"
   ],
   "note": "In contrast to dd_dlt (C105, C106): println! uses write_all, and every text of ripdlt consists of complete lines, which never stay in the buffer. The run is taken to stop at the first text that is refused; what the other threads of par_iter may print after that is the subject of C144."
  },
  {
   "property": "C108",
   "status": "proved",
   "theorems": [
    "Verif.C108_reader",
    "Verif.C108_search",
    "Verif.C108_read",
    "Verif.C108_beyond",
    "Verif.C108_rev_beyond",
    "Verif.C108_resume"
   ],
   "note": "The out-of-range parts are stated for the DLT type."
  },
  {
   "property": "C109",
   "status": "proved",
   "theorems": [
    "Verif.C109_dltit_search",
    "Verif.C109_search_rev"
   ],
   "note": ""
  },
  {
   "property": "C110",
   "status": "partial",
   "theorems": [
    "Verif.C110_search_overlap",
    "Verif.C110_rev_overlap",
    "Verif.C110_contained_by_overlap",
    "Verif.C110_reader_partial",
    "Verif.C110_size_zero_never_ends",
    "Verif.C110_test_type_panics",
    "Verif.C110_test_type_reads",
    "Verif.C110_test_type_breaks_contract",
    "Verif.C110_test_type_iterators"
   ],
   "note": "Violated for markers that overlap themselves (C110_search_overlap, C110_rev_overlap, C110_contained_by_overlap exhibit lost values); holds for the sequential reader (C110_reader_partial), and for the searches with borderless markers (C85). A type reporting size zero makes the readers yield for ever; the test type of the repository panics on short slices and reads behind the marker in try_read; the iterators that do not use try_read find its values (C110_test_type_iterators)."
  },
  {
   "property": "C111",
   "status": "proved",
   "theorems": [
    "Verif.C111_order_blind",
    "Verif.C111_time_sees_order"
   ],
   "note": "The second theorem is a witness that the commands about time are rightly excluded."
  },
  {
   "property": "C112",
   "status": "proved",
   "theorems": [
    "Verif.C112_interleaving"
   ],
   "note": ""
  },
  {
   "property": "C113",
   "status": "proved",
   "theorems": [
    "Verif.C113_sizes",
    "Verif.C113_kinds",
    "Verif.C113_times",
    "Verif.C113_texts"
   ],
   "note": ""
  },
  {
   "property": "C114",
   "status": "proved",
   "theorems": [
    "Verif.C114_panics",
    "Verif.C114_counts",
    "Verif.C114_periods",
    "Verif.C114_lifecycles",
    "Verif.C114_iter",
    "Verif.C114_itertools",
    "Verif.C114_itertools_panics",
    "Verif.C114_raw"
   ],
   "note": ""
  },
  {
   "property": "C115",
   "status": "proved",
   "theorems": [
    "Verif.C115_raw",
    "Verif.C115_count",
    "Verif.C115_hello",
    "Verif.C115_periods",
    "Verif.C115_iter"
   ],
   "note": "The exact differences for the files on which nothing is missed are C34, C36, C58."
  },
  {
   "property": "C116",
   "status": "proved",
   "theorems": [
    "Verif.C116_follow",
    "Verif.C116_follow_dlt",
    "Verif.C116_search_differs",
    "Verif.C116_search_covers"
   ],
   "note": "C116_search_differs exhibits the message the searching iterator misses; C116_search_covers says what holds for it."
  },
  {
   "property": "C117",
   "status": "proved",
   "theorems": [
    "Verif.C117_extract",
    "Verif.C117_iterators",
    "Verif.C117_select",
    "Verif.C117_clean"
   ],
   "note": ""
  },
  {
   "property": "C118",
   "status": "proved",
   "theorems": [
    "Verif.C118_matches",
    "Verif.C118_texts",
    "Verif.C118_ends",
    "Verif.C118_nullable",
    "Verif.C118_group",
    "Verif.C118_capture_ends",
    "Verif.C118_finds",
    "Verif.C118_stays",
    "Verif.C118_literal",
    "Verif.C118_hello",
    "Verif.C118_others",
    "Verif.C118_preference",
    "Verif.C118_whole_group",
    "Verif.C118_last_group",
    "Verif.C118_notation"
   ],
   "note": "The regex crate is a dependency: Pat.compile models its documented leftmost-first semantics; parsing of the concrete syntax is not modelled."
  },
  {
   "property": "C119",
   "status": "proved",
   "theorems": [
    "Verif.C119_builds",
    "Verif.C119_scanning",
    "Verif.C119_reading",
    "Verif.C119_slicing",
    "Verif.C119_far_positions",
    "Verif.C119_commands",
    "Verif.C119_ripdlt",
    "Verif.C119_release_is_debug"
   ],
   "note": "dd_dlt is covered by its own build parameter (C51 and others); it does differ between builds once its time stamps overflow."
  },
  {
   "property": "C120",
   "status": "proved",
   "theorems": [
    "Verif.C120_counts",
    "Verif.C120_lifecycles",
    "Verif.C120_equal_lifecycles",
    "Verif.C120_single_messages_merge",
    "Verif.C120_periods",
    "Verif.C120_ecus",
    "Verif.C120_par_count",
    "Verif.C120_payloads",
    "Verif.C120_nested",
    "Verif.C120_runs_exist",
    "Verif.C120_script",
    "Verif.C120_script_random",
    "Verif.C120_skipped"
   ],
   "note": "The parts of the script that copy the .dlt files of the repository are covered by C114 (concatenation); the contents of these files are not modelled."
  },
  {
   "property": "C121",
   "status": "proved",
   "theorems": [
    "Verif.C121_in_order"
   ],
   "note": "Orders are stated in Spec/Listing.lean without the model's key order: first differing byte for ECU ids, an explicit list for message types."
  },
  {
   "property": "C122",
   "status": "proved",
   "theorems": [
    "Verif.C122_not_text",
    "Verif.C122_no_name",
    "Verif.C122_dd_usage",
    "Verif.C122_rip_usage",
    "Verif.C122_dd_codes",
    "Verif.C122_rip_codes",
    "Verif.C122_rip_runs",
    "Verif.C122_rip_fails",
    "Verif.C122_dd_reports",
    "Verif.C122_same_number"
   ],
   "note": "The text of a panic message on standard error is not modelled (err = none). Outputs that refuse bytes are C105, C106 and C107."
  },
  {
   "property": "C123",
   "status": "partial",
   "theorems": [
    "Verif.C123_stack_sound",
    "Verif.C123_depth_bound",
    "Verif.C123_two_frames_partial",
    "Verif.C123_depth_grows",
    "Verif.C123_partition_overflows",
    "Verif.C123_deep_is_cheap"
   ],
   "note": "Violated: the recursion of contained_by is not a tail call, and in a file of messages that each reach over the marker of the next it is as deep as the number of messages in front (exactly j + 1 calls, one for every 20 bytes, at no more than 3276 reads each); no fixed stack is enough to cut such a file in two. Proved: a quarter of the file's length is always enough, and two calls are enough if messages have at most 65536 bytes and embedded messages end with the message they are in."
  },
  {
   "property": "C124",
   "status": "partial",
   "theorems": [
    "Verif.C124_search_partial",
    "Verif.C124_search_panics",
    "Verif.C124_release_starts_again",
    "Verif.C124_grep",
    "Verif.C124_captures"
   ],
   "note": "True of the two pattern iterators. SearchIterator moves its offset on with every call, also behind the end: true for the first (2^64 - offset)/4 further calls, then a debug build panics and a release build starts again at the front of the slice (both proved). dltit: C15, ReadIterator: C22, RevSearchIterator: C21."
  },
  {
   "property": "C125",
   "status": "partial",
   "theorems": [
    "Verif.C125_rip_success",
    "Verif.C125_rip_front",
    "Verif.C125_rip_limited",
    "Verif.C125_rip_runs",
    "Verif.C125_dd_codes",
    "Verif.C125_dd_whole",
    "Verif.C125_dd_error",
    "Verif.C125_dd_loss_partial",
    "Verif.C125_dd_ends",
    "Verif.C125_dd_silent",
    "Verif.C125_dd_last_payload"
   ],
   "note": "Proved of ripdlt, and of dd_dlt for exit code 1 and for losses of more than 66559 bytes. Violated by dd_dlt otherwise (C125_dd_silent): with one byte missing it ends with exit code 0 and says that it wrote a message. C125_dd_last_payload: a loss inside the last payload is never shown in the exit code, and if that payload has a newline or at least 1024 bytes every other loss is. The text of the messages std writes to standard error is not modelled."
  },
  {
   "property": "C126",
   "status": "proved",
   "theorems": [
    "Verif.C126_slices",
    "Verif.C126_messages",
    "Verif.C126_count",
    "Verif.C126_hello",
    "Verif.C126_iff",
    "Verif.C126_enough",
    "Verif.C126_few",
    "Verif.C126_dd"
   ],
   "note": "Exact. Shows that the multithreaded counts are wrong on most small files: 5 or 7 messages and 2 threads lose one, 15 messages and 4 threads lose a whole slice of 3."
  },
  {
   "property": "C127",
   "status": "proved",
   "theorems": [
    "Verif.C127_reports",
    "Verif.C127_texts",
    "Verif.C127_par_iter"
   ],
   "note": "Exact for payloads up to 65502 bytes (longer ones do not fit a DLT message of 65535 bytes as the slicing reads it; see C51). For the raw counts on such a file see C136."
  },
  {
   "property": "C128",
   "status": "proved",
   "theorems": [
    "Verif.C128_one_slice",
    "Verif.C128_no_slice",
    "Verif.C128_one_core",
    "Verif.C128_one_core_same_text",
    "Verif.C128_one_core_raw",
    "Verif.C128_one_core_par_iter",
    "Verif.C128_too_many",
    "Verif.C128_too_many_text",
    "Verif.C128_empty"
   ],
   "note": "The files with more cores than bytes are tiny, but they show that the multithreaded counts do not only differ from the sequential ones by messages at the end of the file (C126): a file of 96 bytes with four messages gives 0 on 97 cores."
  },
  {
   "property": "C129",
   "status": "proved",
   "theorems": [
    "Verif.C129_merge_twice",
    "Verif.C129_order",
    "Verif.C129_third",
    "Verif.C129_second_iff",
    "Verif.C129_merge_apart"
   ],
   "note": "C41 shows that one merge (which is what timestamp_splitit uses) is not enough; the second one is the remedy."
  },
  {
   "property": "C130",
   "status": "proved",
   "theorems": [
    "Verif.C130_map_map",
    "Verif.C130_filter_filter",
    "Verif.C130_map_filter",
    "Verif.C130_nested_chains",
    "Verif.C130_no_adapters",
    "Verif.C130_fork_behind",
    "Verif.C130_behind_congr",
    "Verif.C130_fork_congr",
    "Verif.C130_split_congr",
    "Verif.C130_split_filter",
    "Verif.C130_split_split",
    "Verif.C130_split_collect"
   ],
   "note": "The split laws are stated for runs that return; the adapter and fork laws also say that both sides panic on the same inputs."
  },
  {
   "property": "C131",
   "status": "proved",
   "theorems": [
    "Verif.C131_frame",
    "Verif.C131_frame_commands",
    "Verif.C131_reader_front",
    "Verif.C131_search_front",
    "Verif.C131_backwards",
    "Verif.C131_search_behind",
    "Verif.C131_reader_behind",
    "Verif.C131_wiped"
   ],
   "note": ""
  },
  {
   "property": "C132",
   "status": "proved",
   "theorems": [
    "Verif.C132_periods",
    "Verif.C132_lifecycles",
    "Verif.C132_split",
    "Verif.C132_boots"
   ],
   "note": ""
  },
  {
   "property": "C133",
   "status": "proved",
   "theorems": [
    "Verif.C133_one_period_iff",
    "Verif.C133_split",
    "Verif.C133_par_periods",
    "Verif.C133_par_split"
   ],
   "note": ""
  },
  {
   "property": "C134",
   "status": "proved",
   "theorems": [
    "Verif.C134_panics",
    "Verif.C134_numbers",
    "Verif.C134_sizes",
    "Verif.C134_types",
    "Verif.C134_ecus",
    "Verif.C134_copies",
    "Verif.C134_periods"
   ],
   "note": ""
  },
  {
   "property": "C135",
   "status": "proved",
   "theorems": [
    "Verif.C135_slices",
    "Verif.C135_count",
    "Verif.C135_count_packed",
    "Verif.C135_hello",
    "Verif.C135_reports",
    "Verif.C135_one_lost",
    "Verif.C135_dd"
   ],
   "note": "C135_one_lost: two messages of 65551 and 65541 bytes, two threads: par_count prints 1. Completes C34, C58 and C115 for long messages."
  },
  {
   "property": "C136",
   "status": "proved",
   "theorems": [
    "Verif.C136_raw",
    "Verif.C136_par_raw",
    "Verif.C136_dd",
    "Verif.C136_dd_input",
    "Verif.C136_dd_par"
   ],
   "note": "C136_dd_input and C136_dd_par count in the input of dd_dlt itself. An application id ending with e.g. \"He\" can complete a text that is not in the input (example beside the theorems)."
  },
  {
   "property": "C137",
   "status": "proved",
   "theorems": [
    "Verif.C137_iterator_is_generator",
    "Verif.C137_read_process_alternate",
    "Verif.C137_pipeline_is_loop",
    "Verif.C137_over_a_list",
    "Verif.C137_groupby_calls",
    "Verif.C137_effects_do_not_matter",
    "Verif.C137_no_effects_groupby",
    "Verif.C137_no_effects_std",
    "Verif.C137_over_is_needed"
   ],
   "note": "The source must be over once it has said None (sources that are not: C103); C137_over_is_needed shows that otherwise it is false."
  },
  {
   "property": "C138",
   "status": "proved",
   "theorems": [
    "Verif.C138_other_markers",
    "Verif.C138_reader",
    "Verif.C138_search",
    "Verif.C138_rev",
    "Verif.C138_rev_never_ends",
    "Verif.C138_contained_by"
   ],
   "note": "contained_by for try_read that does not panic and values whose end does not overflow usize. Grep iterators and partition_from: C139."
  },
  {
   "property": "C139",
   "status": "proved",
   "theorems": [
    "Verif.C139_other_markers",
    "Verif.C139_grep_next",
    "Verif.C139_grep",
    "Verif.C139_grep_diverges_iff",
    "Verif.C139_capture_next",
    "Verif.C139_capture",
    "Verif.C139_partition"
   ],
   "note": "Hypotheses: reading in the slice does not panic and the end of a value does not overflow usize (Harmless)."
  },
  {
   "property": "C140",
   "status": "proved",
   "theorems": [
    "Verif.C140_text",
    "Verif.C140_success",
    "Verif.C140_succeeds_iff",
    "Verif.C140_same_text"
   ],
   "note": "par-iter, whose lines may come in any order, is excluded from C140_text and C140_same_text. C140_success and C140_succeeds_iff are about the commands that run on one thread; what the other commands report is the subject of C34, C58, C115, C126 and C135. Hypothesis: the file fits in memory (Fits)."
  },
  {
   "property": "C141",
   "status": "proved",
   "theorems": [
    "Verif.C141_determined",
    "Verif.C141_exact"
   ],
   "note": "C141_determined is about the specification alone (Spec.Prints of C68 is a partial function); with C68 it gives C141_exact. Hypothesis of C141_exact: the file fits in memory (Fits)."
  },
  {
   "property": "C142",
   "status": "partial",
   "theorems": [
    "Verif.C142_one_period_iff",
    "Verif.C142_jitter",
    "Verif.C142_groups",
    "Verif.C142_total_partial",
    "Verif.C142_too_long"
   ],
   "note": "The last sentence is false of the code: on the messages 10, 12, 3, 5, 4, 11 (within 9 seconds) split_timestamp shows periods of 2 and 8 seconds (C142_too_long), because merge extends only the first span a run meets (C41). It is proved for files on which no run bridges a gap (C142_total_partial); the other sentences are proved for every file."
  },
  {
   "property": "C143",
   "status": "proved",
   "theorems": [
    "Verif.C143_determined",
    "Verif.C143_sum",
    "Verif.C143_exact",
    "Verif.C143_by_messages"
   ],
   "note": "C143_determined is about the specification alone (Spec.AddsUp is a partial function). C143_exact is an iff: a report is possible if and only if it is the sum of reports on the slices. C143_by_messages replaces the run of the sequential command by the specification of its report (C68, C141). Hypotheses: the file fits in memory, at least one thread. That the sum may differ from the sequential report on the whole file is C36."
  },
  {
   "property": "C144",
   "status": "proved",
   "theorems": [
    "Verif.C144_success",
    "Verif.C144_limited",
    "Verif.C144_bytes",
    "Verif.C144_exists",
    "Verif.C144_other_commands",
    "Verif.C144_gap"
   ],
   "note": "Lifts the simplification of C107 and C125, which stop at the first text that is refused. C144_limited and C144_bytes need that the file fits in memory (Fits). C144_gap shows that the claim of C107 (what comes out is a front of the text) is false of par_iter on outputs that recover."
  },
  {
   "property": "C145",
   "status": "partial",
   "theorems": [
    "Verif.C145_delivered",
    "Verif.C145_pieces",
    "Verif.C145_complete_partial",
    "Verif.C145_silent",
    "Verif.C145_loss"
   ],
   "note": "Proved: sizes and interruptions do not matter, and without read errors the complete input is processed. Violated: a read error ends the loop like the end of the input (dd_dlt/src/main.rs:28-31), for every position of the error, with exit code 0 and a message that reports success (C145_silent, C145_loss)."
  },
  {
   "property": "C146",
   "status": "partial",
   "theorems": [
    "Verif.C146_builds",
    "Verif.C146_scanning",
    "Verif.C146_reading",
    "Verif.C146_slicing",
    "Verif.C146_reverse",
    "Verif.C146_reverse_asked",
    "Verif.C146_commands_partial",
    "Verif.C146_timestamp_iff",
    "Verif.C146_par_timestamp_iff",
    "Verif.C146_ripdlt_partial"
   ],
   "note": "Proved for the library and for all commands but two. Violated by histogram_timestamp and par_histogram_timestamp (ripdlt/src/main.rs:342,348: k+1 with k: usize made from a u32): they agree exactly if no run of messages with non-decreasing storage seconds starts in second 0 and ends in second 2^32-1. If there is one, the 32-bit debug build panics in front of the last line, and the 32-bit release build prints 4294967295-0 (C146_timestamp_iff, C146_par_timestamp_iff, with a file of four messages). Not modelled: what mmap and read do with files of 2^31 bytes or more on such a machine."
  },
  {
   "property": "C147",
   "status": "proved",
   "theorems": [
    "Verif.C147_call_safe",
    "Verif.C147_call_unchanged",
    "Verif.C147_safe",
    "Verif.C147_behind",
    "Verif.C147_written",
    "Verif.C147_filled",
    "Verif.C147_follow",
    "Verif.C147_half_message",
    "Verif.C147_wrong_size",
    "Verif.C147_search_safe",
    "Verif.C147_search_unchanged",
    "Verif.C147_search_skips",
    "Verif.C147_search_overlap"
   ],
   "note": "Simplified: one access (comparing the marker, one search for it, one try_read_valid_marker, reading the length again) sees one version of the file, and a message returned is a copy of what was read (in the program it refers to the mapping, so its bytes can change later). The file does not get shorter while it is mapped (the operating system ends the program then). The Rust language calls it undefined behaviour if bytes behind a shared slice change at all; the model says what the code does if the compiler makes each access once, as written."
  },
  {
   "property": "C148",
   "status": "proved",
   "theorems": [
    "Verif.C148_chain_open",
    "Verif.C148_kept_exact",
    "Verif.C148_constant",
    "Verif.C148_split_keys",
    "Verif.C148_merge_keeps",
    "Verif.C148_merge_copy",
    "Verif.C148_merge_unbounded"
   ],
   "note": "Counted are the values held in the fields of the stages and reducers between two calls. An accumulated value counts as one, whatever it contains (collect keeps a list that grows), and so does a value, whatever its size; what closures capture and the temporaries of a call are not counted, nor the spare room of the maps."
  },
  {
   "property": "C149",
   "status": "proved",
   "theorems": [
    "Verif.C149_most_lines",
    "Verif.C149_lines_by_file",
    "Verif.C149_reached"
   ],
   "note": "Lines are counted, not characters (C88 has the text of a line); the total at the end of the sizes and commands that print a number are not tables. An ECU id that is not UTF-8 ends the split commands with a panic (C56), so the longest table of ECUs that is printed has a line for each text of four bytes. That the bounds are reached is proved for the sequential commands. 22 and not 40 lines of types: the decoder drops a bit of the type (C07), so nine of the twenty kinds never appear."
  },
  {
   "property": "C150",
   "status": "proved",
   "theorems": [
    "Verif.C150_line",
    "Verif.C150_panics",
    "Verif.C150_together",
    "Verif.C150_sums",
    "Verif.C150_periods",
    "Verif.C150_lifecycles",
    "Verif.C150_periods_not_sum"
   ],
   "note": "The copying is done by the reader of the offsets (C117), there is no such command in ripdlt. itertools is excluded from C150_panics because its sum is over all messages and can overflow on the log only (C37). histogram_lifecycles on the whole log is not the sum: it cuts where messages of ECUs alternate (C47). C150_periods_not_sum: the log of two ECUs whose clocks are five seconds apart shows two periods of five seconds, the file of each ECU one of one second."
  },
  {
   "property": "C151",
   "status": "proved",
   "theorems": [
    "Verif.C151_recorder",
    "Verif.C151_set_clock",
    "Verif.C151_stamps",
    "Verif.C151_steps",
    "Verif.C151_lifecycles",
    "Verif.C151_one_clock",
    "Verif.C151_recorder_text",
    "Verif.C151_stamps_text",
    "Verif.C151_lifecycles_text"
   ],
   "note": "The commands that search the raw bytes or cut the file into slices are not covered: the bytes of another time may hold a marker or a newline. The values must not leave the 32 bits of their fields, which the equations on integers in `Received` and `Stamped` say. The `_text` theorems say the same of the printed text of the runs that end, and of whether a run panics; the lines that a panicking run has printed before are not compared."
  },
  {
   "property": "C152",
   "status": "proved",
   "theorems": [
    "Verif.C152_blind",
    "Verif.C152_renamed",
    "Verif.C152_panics",
    "Verif.C152_text"
   ],
   "note": "Ids in the storage header only; histogram_lifecycles compares those in the standard header, which stay. Commands that search the raw bytes or cut the file into slices are not covered: another id may hold a marker."
  }
 ]
}