{
 "claims": [
  {
   "property": "C01",
   "status": "proved",
   "theorems": [
    "Flbwt.C01_bwt_string_correct"
   ],
   "note": "3 <= n < 2^57, T[n] readable and <= every byte of T; assumes std::sort meets its contract and LengthsSafe (fresh realloc bytes 0, or no stored string of a length that is a multiple of 256, see C18; C93_correct: the same result under the weakest condition on the text, C93_exact: that condition is exact)."
  },
  {
   "property": "C02",
   "status": "proved",
   "theorems": [
    "Flbwt.C02_last_is_rank"
   ],
   "note": "3 <= n < 2^57, T[n] readable and <= every byte of T; assumes std::sort meets its contract and LengthsSafe (fresh realloc bytes 0, or no stored string of a length that is a multiple of 256, see C18)."
  },
  {
   "property": "C03",
   "status": "proved",
   "theorems": [
    "Flbwt.C03_invalid_argument"
   ],
   "note": "every T, n, free_T; std::sort throws only what its comparison throws"
  },
  {
   "property": "C04",
   "status": "proved",
   "theorems": [
    "Flbwt.C04_short_input_null_deref"
   ],
   "note": "The violation is proved: null dereference for n = 1, 2."
  },
  {
   "property": "C05",
   "status": "proved",
   "theorems": [
    "Flbwt.C05_independent_of_memory"
   ],
   "note": "3 <= n < 2^57, T[n] readable and <= every byte of T; assumes std::sort meets its contract and LengthsSafe (fresh realloc bytes 0, or no stored string of a length that is a multiple of 256, see C18)."
  },
  {
   "property": "C06",
   "status": "proved",
   "theorems": [
    "Flbwt.C06_free_T_irrelevant",
    "Flbwt.C06_no_access_after_release"
   ],
   "note": "Every call. C06_no_access_after_release makes every access to and release of the text visible as an action and proves that none follows the release."
  },
  {
   "property": "C07",
   "status": "proved",
   "theorems": [
    "Flbwt.C07_file_format"
   ],
   "note": "healthy host (ftell, malloc, fread, fwrite work); 3<=n<2^57; LengthsSafe (C18)"
  },
  {
   "property": "C08",
   "status": "proved",
   "theorems": [
    "Flbwt.C08_lossless",
    "Flbwt.C08_injective"
   ],
   "note": "decoder decodeFile in FileSpec"
  },
  {
   "property": "C09",
   "status": "proved",
   "theorems": [
    "Flbwt.C09_no_input",
    "Flbwt.C09_no_memory",
    "Flbwt.C09_nothing_read",
    "Flbwt.C09_no_output"
   ],
   "note": "each error path; every host"
  },
  {
   "property": "C10",
   "status": "proved",
   "theorems": [
    "Flbwt.C10_packed_array_is_array"
   ],
   "note": ""
  },
  {
   "property": "C11",
   "status": "proved",
   "theorems": [
    "Flbwt.C11_packed_array_in_bounds"
   ],
   "note": ""
  },
  {
   "property": "C12",
   "status": "proved",
   "theorems": [
    "Flbwt.C12_packed_array_junk_independent"
   ],
   "note": ""
  },
  {
   "property": "C13",
   "status": "proved",
   "theorems": [
    "Flbwt.C13_queue_is_deque",
    "Flbwt.C13_dequeue_value"
   ],
   "note": ""
  },
  {
   "property": "C14",
   "status": "proved",
   "theorems": [
    "Flbwt.C14_queue_memory_safe"
   ],
   "note": ""
  },
  {
   "property": "C15",
   "status": "proved",
   "theorems": [
    "Flbwt.HashTable.C15_insert_reports_new"
   ],
   "note": "all histories of insert_string; lengths >=3; multiples of 256 only with zeroed fresh memory (see C18)"
  },
  {
   "property": "C16",
   "status": "proved",
   "theorems": [
    "Flbwt.HashTable.C16_find_name"
   ],
   "note": "walk over the table + set_name + find_name"
  },
  {
   "property": "C17",
   "status": "proved",
   "theorems": [
    "Flbwt.HashTable.C17_table_memory_safe"
   ],
   "note": "Tot excludes every out-of-bounds access and non-termination"
  },
  {
   "property": "C18",
   "status": "proved",
   "theorems": [
    "Flbwt.HashTable.C18_length_round_trip",
    "Flbwt.HashTable.C18_length_round_trip_fails"
   ],
   "note": "property holds exactly outside multiples of 256 on dirty memory; violation proved for every multiple of 256"
  },
  {
   "property": "C19",
   "status": "proved",
   "theorems": [
    "Flbwt.HashTable.C19_pointer_and_name_round_trip"
   ],
   "note": ""
  },
  {
   "property": "C20",
   "status": "proved",
   "theorems": [
    "Flbwt.C20_extract_counts"
   ],
   "note": "Valid for 3 <= n < 2^57, T[n] readable and <= every byte of T; assumes std::sort meets its contract and LengthsSafe (see C18)."
  },
  {
   "property": "C21",
   "status": "proved",
   "theorems": [
    "Flbwt.C21_extract_histograms"
   ],
   "note": "Valid for 3 <= n < 2^57, T[n] readable and <= every byte of T; assumes std::sort meets its contract and LengthsSafe (see C18)."
  },
  {
   "property": "C22",
   "status": "proved",
   "theorems": [
    "Flbwt.C22_names_respect_order"
   ],
   "note": "Valid for 3 <= n < 2^57, T[n] readable and <= every byte of T; assumes std::sort meets its contract and LengthsSafe (see C18)."
  },
  {
   "property": "C23",
   "status": "proved",
   "theorems": [
    "Flbwt.C23_shortened_string"
   ],
   "note": "Valid for 3 <= n < 2^57, T[n] readable and <= every byte of T; assumes std::sort meets its contract and LengthsSafe (see C18)."
  },
  {
   "property": "C24",
   "status": "proved",
   "theorems": [
    "Flbwt.C24_sais32_suffix_array",
    "Flbwt.isSuffixArray_iff_sorted",
    "Flbwt.C25_naive_sort"
   ],
   "note": "all strings, fs, junk; k <= 2^31, n < 2^31, packed width != 32"
  },
  {
   "property": "C25",
   "status": "proved",
   "theorems": [
    "Flbwt.C25_sais_all_widths",
    "Flbwt.C25_sais_agree",
    "Flbwt.C25_naive_sort"
   ],
   "note": "40/48/56/64 bit versions and agreement of any two versions"
  },
  {
   "property": "C26",
   "status": "proved",
   "theorems": [
    "Flbwt.C26_split_integers"
   ],
   "note": ""
  },
  {
   "property": "C27",
   "status": "proved",
   "theorems": [
    "Flbwt.C27_sais_stays_inside"
   ],
   "note": "every access is checked in the model; frame beyond n+fs; the text of the call is read only by construction (it is not part of the state that the functions return; checked against the code: no store to T except through SA)"
  },
  {
   "property": "C28",
   "status": "proved",
   "theorems": [
    "Flbwt.C28_sais_terminates",
    "Flbwt.C28_recursive_calls_halve"
   ],
   "note": "All five widths; recursion budget floor(log2 n)+1 suffices (all loops are bounded by counters), and in the log of all nested calls each is on a nonempty string of less than half the length; non-vacuous: a concrete run with a nested call."
  },
  {
   "property": "C29",
   "status": "proved",
   "theorems": [
    "Flbwt.C29_width_selection"
   ],
   "note": "Valid for 3 <= n < 2^57, T[n] readable and <= every byte of T; assumes std::sort meets its contract and LengthsSafe (see C18)."
  },
  {
   "property": "C30",
   "status": "proved",
   "theorems": [
    "Flbwt.C30_position_of_msb"
   ],
   "note": ""
  },
  {
   "property": "C31",
   "status": "proved",
   "theorems": [
    "Flbwt.HashTable.C31_hash_function"
   ],
   "note": ""
  },
  {
   "property": "C32",
   "status": "proved",
   "theorems": [
    "Flbwt.C32_bwt_permutation"
   ],
   "note": "3 <= n < 2^57, T[n] readable and <= every byte of T; assumes std::sort meets its contract and LengthsSafe (fresh realloc bytes 0, or no stored string of a length that is a multiple of 256, see C18)."
  },
  {
   "property": "C33",
   "status": "proved",
   "theorems": [
    "Flbwt.C33_induce_variants_agree"
   ],
   "note": "Any container, any two representations."
  },
  {
   "property": "C34",
   "status": "proved",
   "theorems": [
    "Flbwt.C34_induce_memory_safe"
   ],
   "note": "Valid for 3 <= n < 2^57, T[n] readable and <= every byte of T; assumes std::sort meets its contract and LengthsSafe (see C18)."
  },
  {
   "property": "C35",
   "status": "proved",
   "theorems": [
    "Flbwt.C35_terminates",
    "Flbwt.C35_every_call",
    "Flbwt.C35_every_call_terminates"
   ],
   "note": "Every pointer, length n < 2^57, block size, content and terminator byte (C35_every_call classifies the outcome); assumes std::sort meets its contract, realloc succeeds and LengthsSafe (fresh realloc bytes 0, or no stored string of a length that is a multiple of 256, see C18, C91)."
  },
  {
   "property": "C36",
   "status": "proved",
   "theorems": [
    "Flbwt.C36_terminator_required",
    "Flbwt.C36_block_too_small"
   ],
   "note": "every block of at most n bytes, 3<=n (n < 2^62 for exactly n, < 2^57 for fewer); std::sort contract"
  },
  {
   "property": "C37",
   "status": "proved",
   "theorems": [
    "Flbwt.C37_only_output_changes"
   ],
   "note": "all worlds, hosts and outcomes"
  },
  {
   "property": "C38",
   "status": "proved",
   "theorems": [
    "Flbwt.C38_pipe_heap_overflow"
   ],
   "note": "violation proved"
  },
  {
   "property": "C39",
   "status": "proved",
   "theorems": [
    "Flbwt.C39_short_read_undetected"
   ],
   "note": "violation proved"
  },
  {
   "property": "C40",
   "status": "proved",
   "theorems": [
    "Flbwt.C40_full_disk_undetected"
   ],
   "note": "violation proved"
  },
  {
   "property": "C41",
   "status": "proved",
   "theorems": [
    "Flbwt.C41_no_leak",
    "Flbwt.C41_leak_on_read_failure",
    "Flbwt.C41_leak_on_output_failure"
   ],
   "note": "no leak on success; leaks on two error paths proved"
  },
  {
   "property": "C42",
   "status": "proved",
   "theorems": [
    "Flbwt.C42_short_file"
   ],
   "note": "violation proved"
  },
  {
   "property": "C43",
   "status": "proved",
   "theorems": [
    "Flbwt.C43_example_program",
    "Flbwt.C43_example_usage"
   ],
   "note": ""
  },
  {
   "property": "C44",
   "status": "proved",
   "theorems": [
    "Flbwt.HashTable.C44_table_space",
    "Flbwt.C44_buffer_linear"
   ],
   "note": "amortised: the free bytes of the last blocks pay for the part of a block that is left unused"
  },
  {
   "property": "C45",
   "status": "proved",
   "theorems": [
    "Flbwt.C45_head_length_256",
    "Flbwt.C45_equal_bytes",
    "Flbwt.C45_depends_on_memory"
   ],
   "note": "violation proved: consequence of C18 for bwt_string; std::sort contract assumed"
  },
  {
   "property": "C46",
   "status": "proved",
   "theorems": [
    "Flbwt.C46_same_or_null",
    "Flbwt.C46_memory_threshold"
   ],
   "note": "C46_same_or_null is for every call of bwt_string, valid or not; C46_memory_threshold gives the exact amount B for valid calls (same hypotheses as C01). Only the realloc calls of the table (insert_string and sort_LMS_strings) fail in this model; a failure moves nothing (realloc keeps the old block)."
  },
  {
   "property": "C47",
   "status": "proved",
   "theorems": [
    "Flbwt.C47_no_leak",
    "Flbwt.C47_release_restores"
   ],
   "note": "same hypotheses as C01; blocks are identified by purpose and size, the theorem counts the live blocks of every description; every request and release is checked against the operator family of the block. Sizes of the classes are those of a 64 bit ABI"
  },
  {
   "property": "C48",
   "status": "proved",
   "theorems": [
    "Flbwt.C48_every_allocation_failure",
    "Flbwt.C48_rejected_call"
   ],
   "note": "same hypotheses as C01"
  },
  {
   "property": "C49",
   "status": "proved",
   "theorems": [
    "Flbwt.C49_text_ownership",
    "Flbwt.C49_bad_alloc_ambiguous"
   ],
   "note": "second part: violation proved. Same hypotheses as C01"
  },
  {
   "property": "C50",
   "status": "proved",
   "theorems": [
    "Flbwt.C50_linear_memory",
    "Flbwt.C50_array_bytes",
    "Flbwt.C50_linear_memory_any_outcome"
   ],
   "note": "bytes requested, without the overhead of the allocator. Same hypotheses as C01. C50_linear_memory_any_outcome covers calls that fail: a call refused at some request has done what the call that is refused nothing does up to that request (Peak.lean)."
  },
  {
   "property": "C51",
   "status": "proved",
   "theorems": [
    "Flbwt.C51_failure_leaks",
    "Flbwt.C51_leak_reachable"
   ],
   "note": "violation proved. Same hypotheses as C01"
  },
  {
   "property": "C52",
   "status": "proved",
   "theorems": [
    "Flbwt.C52_quadratic_searches",
    "Flbwt.C52_not_linear"
   ],
   "note": "Negative result about the code (the README calls the algorithm linear time). C52_quadratic_searches constructs the text by a pigeonhole argument over the hash function of the model and bounds the public counter collisions from below; C52_not_linear: no constant up to 2^40. NoLength256 is part of the statement, so the hypotheses are met whatever fresh memory contains."
  },
  {
   "property": "C53",
   "status": "proved",
   "theorems": [
    "Flbwt.C53_counts_the_model",
    "Flbwt.C53_linear_without_searches",
    "Flbwt.C53_quadratic",
    "Flbwt.C53_quadratic_is_reached"
   ],
   "note": "Counting program bwtStringT (weight ws for the chain searches) proved to erase to the model of bwt_string for all arguments. Iterations of std::sort, malloc, realloc and of loops over the bytes of one machine word are elementary operations; the bytes copied by realloc are counted in C82."
  },
  {
   "property": "C54",
   "status": "proved",
   "theorems": [
    "Flbwt.C54_suffix_sort_linear"
   ],
   "note": "All five widths (LawfulSaStore)."
  },
  {
   "property": "C55",
   "status": "proved",
   "theorems": [
    "Flbwt.C55_bwt_string_never_truncates",
    "Flbwt.C55_sais_never_truncates",
    "Flbwt.C55_store_truncates_iff"
   ],
   "note": "Every store into SA and the bucket arrays is checked in the model (fault overflow); the fault never occurs. C55_store_truncates_iff says exactly when it would."
  },
  {
   "property": "C56",
   "status": "proved",
   "theorems": [
    "Flbwt.C56_blocks_do_not_matter",
    "Flbwt.C56_no_stale_pointer",
    "Flbwt.C56_insert_no_stale_pointer",
    "Flbwt.C56_growing_moves",
    "Flbwt.C56_sort_moves"
   ],
   "note": "Model with block-numbered pointers (PtrModel.lean); proved equal to the model with offsets, so the outcome stale never occurs."
  },
  {
   "property": "C57",
   "status": "proved",
   "theorems": [
    "Flbwt.C57_file_every_allocation_failure",
    "Flbwt.C57_unlimited",
    "Flbwt.C57_output_destroyed_reachable",
    "Flbwt.C57_no_output",
    "Flbwt.C57_linear_memory",
    "Flbwt.C57_linear_memory_any_outcome"
   ],
   "note": "bwt_file with every request explicit. C57_output_destroyed_reachable shows the violation: after a refused request of 8 bytes the old output file is gone, its stream stays open and the result is leaked. C57_no_output: the result is leaked when the output cannot be opened."
  },
  {
   "property": "C58",
   "status": "proved",
   "theorems": [
    "Flbwt.C58_crash_points",
    "Flbwt.C58_every_prefix_occurs",
    "Flbwt.C58_torn_file_decodes_wrong",
    "Flbwt.C58_other_files_never_touched"
   ],
   "note": "All states of the file system during a call. Buffering in the stream only delays bytes; reordering of writes by the operating system is not modelled."
  },
  {
   "property": "C59",
   "status": "proved",
   "theorems": [
    "Flbwt.C59_dequeue_on_empty",
    "Flbwt.C59_returns_uninitialised"
   ],
   "note": "Proved behaviour on misuse (violation of what a user of a queue expects): exact characterisation by the number of enqueue calls modulo 1024, and reachability of every uninitialised value."
  },
  {
   "property": "C60",
   "status": "proved",
   "theorems": [
    "Flbwt.C60_oversized_store",
    "Flbwt.C60_left_neighbour_corrupted"
   ],
   "note": "Proved behaviour on misuse, exact about which cells may change, and reachability of the corruption for every width below 64."
  },
  {
   "property": "C61",
   "status": "proved",
   "theorems": [
    "Flbwt.HashTable.C61_empty_string_diverges",
    "Flbwt.HashTable.C61_two_byte_string"
   ],
   "note": "Proved behaviour on misuse: divergence for the empty string after every history; out-of-bounds access after a two-byte string on a new table. bwt_string never inserts such strings (C17, C20)."
  },
  {
   "property": "C62",
   "status": "proved",
   "theorems": [
    "Flbwt.C62_history_of_calls",
    "Flbwt.C62_no_accumulated_leak"
   ],
   "note": "Induction over the history on top of C48; the client is written with the operations of the heap model."
  },
  {
   "property": "C63",
   "status": "proved",
   "theorems": [
    "Flbwt.C63_terminator_does_not_matter",
    "Flbwt.C63_names_with_any_terminator",
    "Flbwt.C63_larger_terminator_breaks_order"
   ],
   "note": "Correctness for every T[n] <= min byte, independence of its value, names for arbitrary T[n], and a text where a larger T[n] breaks the order of the names (shown for the naming stage; C78 describes the final array for every terminator)."
  },
  {
   "property": "C64",
   "status": "proved",
   "theorems": [
    "Flbwt.C64_row_last",
    "Flbwt.C64_all_rows_determined",
    "Flbwt.C64_else_uninitialised"
   ],
   "note": "Full description of row last, for all strings; corollaries: determined iff LastDetermined."
  },
  {
   "property": "C65",
   "status": "proved",
   "theorems": [
    "Flbwt.C65_raw_layout",
    "Flbwt.C65_cells_uninitialised"
   ],
   "note": "Bit-exact layout of the raw words; a cell never stored to can read as anything."
  },
  {
   "property": "C66",
   "status": "proved",
   "theorems": [
    "Flbwt.C66_concurrent_calls",
    "Flbwt.C66_no_waiting",
    "Flbwt.C66_terminates",
    "Flbwt.C66_can_finish",
    "Flbwt.C66_shared_text_released"
   ],
   "note": "Machine with threads, owned blocks and texts (ConcMachine.lean); the thread program is proved to be the model with the heap (run_bwtString). The library has no global variables, so the allocator and the texts are all that is shared."
  },
  {
   "property": "C67",
   "status": "proved",
   "theorems": [
    "Flbwt.C67_enough_memory_for_all"
   ],
   "note": "Sum of the bounds of C50, for an allocator that grants every request that fits its capacity."
  },
  {
   "property": "C68",
   "status": "proved",
   "theorems": [
    "Flbwt.bwtFileC_run",
    "Flbwt.C68_concurrent_files",
    "Flbwt.C68_concurrent_errors",
    "Flbwt.C68_at_any_moment",
    "Flbwt.C68_inputs_kept",
    "Flbwt.C68_bounded",
    "Flbwt.C68_no_waiting",
    "Flbwt.C68_can_finish",
    "Flbwt.C68_same_output",
    "Flbwt.C68_input_of_another"
   ],
   "note": "bwtFileC is bwt_file with every file system action visible (fopen, ftell, every byte of fread and fwrite, malloc); bwtFileC_run proves that alone it does what the model of C07-C09 does. Stream buffering, read and write errors (C39, C40), and removal/renaming of files are not in this machine; the transform between the actions is one of the actions' continuation (its own interleavings are C66)."
  },
  {
   "property": "C69",
   "status": "proved",
   "theorems": [
    "Flbwt.C69_width_zero",
    "Flbwt.C69_too_wide",
    "Flbwt.C69_length_wraps",
    "Flbwt.Queue.C69_queue_width_zero",
    "Flbwt.Queue.C69_queue_too_wide"
   ],
   "note": "For wrapped sizes: if the wrapped number of bits is within 128 of 2^64 no claim is made."
  },
  {
   "property": "C70",
   "status": "proved",
   "theorems": [
    "Flbwt.C70_integer_text",
    "Flbwt.C70_all_widths",
    "Flbwt.C70_same_as_packed",
    "Flbwt.C70_linear_time",
    "Flbwt.C70_naive_sort"
   ],
   "note": "The text is in memory of its own, apart from SA; the entries are given by their values as read by the macro chr."
  },
  {
   "property": "C71",
   "status": "proved",
   "theorems": [
    "Flbwt.C71_empty_string"
   ],
   "note": "A misuse of the API found by reading; bwt_string never calls the sorters on an empty string."
  },
  {
   "property": "C72",
   "status": "proved",
   "theorems": [
    "Flbwt.HashTable.C72_table_is_a_map"
   ],
   "note": "History semantics (any interleaving) against a finite-map specification."
  },
  {
   "property": "C73",
   "status": "proved",
   "theorems": [
    "Flbwt.HashTable.C73_record_layout"
   ],
   "note": "Layout, accessors, bounds and pairwise disjointness after any history."
  },
  {
   "property": "C74",
   "status": "proved",
   "theorems": [
    "Flbwt.HashTable.C74_no_slots",
    "Flbwt.HashTable.C74_one_slot"
   ],
   "note": "Violation for size 0 and the boundary size 1."
  },
  {
   "property": "C75",
   "status": "proved",
   "theorems": [
    "Flbwt.C75_failed_transform",
    "Flbwt.C75_equal_bytes_file",
    "Flbwt.C75_memory_threshold_file"
   ],
   "note": "General theorem, the C45 family and the C46 threshold lifted to files."
  },
  {
   "property": "C76",
   "status": "proved",
   "theorems": [
    "Flbwt.C76_alphabet_bound",
    "Flbwt.C76_alphabet_bound_ints"
   ],
   "note": "A character >= k with fs < k makes the counter lookup go past the k allocated counters in all five sorters, for both forms of the text."
  },
  {
   "property": "C77",
   "status": "proved",
   "theorems": [
    "Flbwt.C77_histories",
    "Flbwt.C77_in_place"
   ],
   "note": "By induction over the sequence, from C07/C08. The specification (originsAfter) tracks only names, depths and sizes."
  },
  {
   "property": "C78",
   "status": "proved",
   "theorems": [
    "Flbwt.C78_any_terminator_is_safe",
    "Flbwt.C78_any_terminator_is_deterministic",
    "Flbwt.C78_larger_terminator_wrong_transform",
    "Flbwt.C78_any_terminator_memory"
   ],
   "note": "The correctness argument for the induced sort carried out again for an arbitrary order of the rows that satisfies the local conditions the two passes rely on (Gen*.lean), instead of the order of the suffixes. C78_any_terminator_memory: what C47, C48 and C50 say about memory, for any byte after the string."
  },
  {
   "property": "C79",
   "status": "proved",
   "theorems": [
    "Flbwt.C79_lossless",
    "Flbwt.C79_injective"
   ],
   "note": "decoder invert (BwtSpec.lean): LF-mapping walk from row 0"
  },
  {
   "property": "C80",
   "status": "proved",
   "theorems": [
    "Flbwt.C80_count",
    "Flbwt.C80_rows",
    "Flbwt.C80_file"
   ],
   "note": "backwardSearch and occurrences are defined in PropsIndex.lean, independent of the model"
  },
  {
   "property": "C81",
   "status": "proved",
   "theorems": [
    "Flbwt.C81_sort_precondition",
    "Flbwt.C81_sort_precondition_any_terminator"
   ],
   "note": "std::sort is wrapped (strictSort) so that it refuses, as undefined behaviour, every range and comparison that violate the precondition of the C++ standard; the call still succeeds. The wrapped sort satisfies the contract SortsOK assumed elsewhere."
  },
  {
   "property": "C82",
   "status": "proved",
   "theorems": [
    "Flbwt.erase_bwtStringR",
    "Flbwt.C82_copied_quadratic",
    "Flbwt.C82_copied_at_least",
    "Flbwt.C82_copied_not_linear"
   ],
   "note": "Counting program bwtStringR (Copy.lean): every realloc of the table buffer is charged the size of the block it gets. Erasing the counter gives the model of bwt_string for all arguments (first theorem)."
  },
  {
   "property": "C83",
   "status": "proved",
   "theorems": [
    "Flbwt.C83_memory_of_the_caller_stays",
    "Flbwt.C83_outcome_independent_of_other_memory",
    "Flbwt.C83_fails_only_by_own_request",
    "Flbwt.C83_memory_available_again",
    "Flbwt.C83_any_call",
    "Flbwt.C83_file_call"
   ],
   "note": "Frame.lean shows for every function of the heap model that more live blocks change nothing and stay (no hypothesis except that no dead block is released), and that only requests from now on matter. C48/C57 exclude the release of dead blocks. TextOwned: with free_T the text must be on the heap."
  },
  {
   "property": "C84",
   "status": "proved",
   "theorems": [
    "Flbwt.C84_history_with_failures",
    "Flbwt.C84_no_failure_no_leak",
    "Flbwt.C84_recovers"
   ],
   "note": "Client: COp.exec (not code of the repository): on an exception it releases the text itself exactly if it did not pass free_T, because with free_T it cannot know whether the text is still there (C49). Undefined behaviour (unchecked malloc/realloc, C48) ends the history. The files a call reads are stored by the client just before the call; the host reads and writes completely, opening the output may fail."
  },
  {
   "property": "C85",
   "status": "proved",
   "theorems": [
    "Flbwt.C85_result_independent_of_memory",
    "Flbwt.C85_two_heaps",
    "Flbwt.C85_unlimited",
    "Flbwt.C85_file_independent_of_memory"
   ],
   "note": "Two independent models: the program with explicit allocation and release (bwtStringH, bwtFileH) and the plain program (bwtString, bwtFile). The fresh contents of memory are the same parameter (World) in both. The statement for bwt_file compares with the host whose malloc always succeeds. Releasing a block that is not live (possible only when the caller hands over a text that is not on the heap, C83) ends the program with memory and is excluded from the comparison."
  },
  {
   "property": "C86",
   "status": "proved",
   "theorems": [
    "Flbwt.C86_queue_survives_bad_alloc",
    "Flbwt.C86_refused_changes_nothing",
    "Flbwt.C86_leak_unbounded"
   ],
   "note": "Member functions of Queue modelled statement by statement on an object that survives exceptions (QueueObj.lean), shown to agree with the model of C13/C47. C86_queue_survives_bad_alloc: results, is_empty, destructor, leak; C86_refused_changes_nothing: strong guarantee on the object; C86_leak_unbounded: the leak (k calls leave k qblocks) is reachable."
  },
  {
   "property": "C87",
   "status": "proved",
   "theorems": [
    "Flbwt.C87_table_life",
    "Flbwt.C87_constructor_leaks"
   ],
   "note": "Client of C72 run on the programs with memory (newTableH, insertStringH, deleteTableH). C87_table_life: all outcomes; C87_constructor_leaks: the leak of the array rest is reachable for every size."
  },
  {
   "property": "C88",
   "status": "proved",
   "theorems": [
    "Flbwt.C88_queue_copy",
    "Flbwt.C88_packed_copy",
    "Flbwt.C88_table_copy"
   ],
   "note": "Violation of the usual expectation (rule of three), proved. The copy of a queue has its own members and shares the blocks (Queue.sharing). For PackedArray and HashTable the double release is shown in programs that have no other block of the same kind and size, because the heap of the model counts blocks by kind and size."
  },
  {
   "property": "C89",
   "status": "proved",
   "theorems": [
    "Flbwt.C89_call",
    "Flbwt.C89_return",
    "Flbwt.C89_file",
    "Flbwt.C89_file_return",
    "Flbwt.C89_history",
    "Flbwt.C89_losses_add_up"
   ],
   "note": "C89_call, C89_file: any outcome; C89_return, C89_file_return: exact; C89_history: histories with failures (output files that can be opened; a history that ends by a null dereference is covered by C89_call); C89_losses_add_up: the deviation, for every text and every number of attempts."
  },
  {
   "property": "C90",
   "status": "proved",
   "theorems": [
    "Flbwt.C90_size_is_trusted",
    "Flbwt.C90_file_grows",
    "Flbwt.C90_file_shrinks",
    "Flbwt.C90_size_zero",
    "Flbwt.C90_size_tiny"
   ],
   "note": "general theorem, growing, shrinking, size 0, size 1 or 2"
  },
  {
   "property": "C91",
   "status": "proved",
   "theorems": [
    "Flbwt.C91_valid_string_rejected",
    "Flbwt.C91_bac",
    "Flbwt.C91_depends_on_memory",
    "Flbwt.C91_valid_file_rejected",
    "Flbwt.C91_bac_file"
   ],
   "note": "Violation of what a user expects, proved for every string with a single S* position whose substring length is a multiple of 256 and not of 65536 (fresh bytes 1..11); C91_bac gives an explicit infinite family, C91_depends_on_memory contrasts zeroed and recycled memory."
  },
  {
   "property": "C92",
   "status": "proved",
   "theorems": [
    "Flbwt.C92_wrong_transform",
    "Flbwt.C92_depends_on_memory",
    "Flbwt.C92_wrong_file",
    "Flbwt.C92_information_lost"
   ],
   "note": "Proved violation. wrong_transform: all rows and last described exactly, result is not IsBWT. depends_on_memory: same call, zero bytes give the transform, bytes 1 give another result, no error. wrong_file, information_lost: bwt_file through the same path. Only fresh byte 1 is covered here: bytes >= 13 are C45; 2..12 with a head record are not described."
  },
  {
   "property": "C93",
   "status": "proved",
   "theorems": [
    "Flbwt.C93_exact",
    "Flbwt.C93_correct",
    "Flbwt.C93_fault",
    "Flbwt.C93_exact_file",
    "Flbwt.C93_star_length_256",
    "Flbwt.C93_exact_condition",
    "Flbwt.C93_star_length_256_file",
    "Flbwt.C93_bacac",
    "Flbwt.C93_any_limit"
   ],
   "note": "C93_exact: the exact condition on the text, without side conditions (BlocksSafe, stored: PropsExact.lean; plan: Plan.lean). C93_fault: outside it there is a memory in which the call faults. C93_correct: C01 under this weakest condition. C93_exact_file: the same for bwt_file. C93_star_length_256 and C93_any_limit: every memory with such bytes, no assumption on std::sort; C93_exact_condition: a corollary in terms of lengths only, for texts without S* substrings of a length that is a multiple of 65536 and without non-last S* substrings of exactly 256 bytes."
  },
  {
   "property": "C94",
   "status": "proved",
   "theorems": [
    "Flbwt.C94_never_ends",
    "Flbwt.C94_diverges",
    "Flbwt.C94_more_steps",
    "Flbwt.C94_bac",
    "Flbwt.C94_file"
   ],
   "note": "Proved violation. C94_never_ends: for every number k of additional steps of the walk in sort_LMS_strings (bwtStringFor k; bwtStringFor 0 is bwtString by definition) the call does not end. C94_more_steps: a call that returns is not changed by additional steps. C94_bac: explicit infinite family, with the contrast to zeroed memory. C94_file: bwt_file."
  },
  {
   "property": "C95",
   "status": "proved",
   "theorems": [
    "Flbwt.C95_last_column",
    "Flbwt.C95_marker_row",
    "Flbwt.C95_file",
    "Flbwt.isBWT_iff_textbook",
    "Flbwt.fileFormat_iff_textbook"
   ],
   "note": "textbook and textbookFile are executable functions on lists in Textbook.lean that mention neither suffix arrays nor the model; isBWT_iff_textbook and fileFormat_iff_textbook show that the specifications used everywhere else (IsBWT, FileFormat) are equivalent to them for every string."
  },
  {
   "property": "C96",
   "status": "proved",
   "theorems": [
    "Flbwt.C96_file_from_string",
    "Flbwt.C96_entry_points_agree",
    "Flbwt.C96_output_refused"
   ],
   "note": "First and third theorem for every world without assumptions on text, memory or sorter; second across two worlds."
  },
  {
   "property": "C97",
   "status": "proved",
   "theorems": [
    "Flbwt.C97_shape",
    "Flbwt.C97_short_never_written"
   ],
   "note": "Partial correctness: holds of every value returned, in every world."
  },
  {
   "property": "C98",
   "status": "proved",
   "theorems": [
    "Flbwt.C98_accepted",
    "Flbwt.C98_accepted_iff",
    "Flbwt.C98_recoded",
    "Flbwt.C98_file"
   ],
   "note": "Acceptance, array and file. The table only has to be increasing on the characters that occur."
  }
 ]
}