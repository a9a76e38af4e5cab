{
 "claims": [
  {
   "property": "C01",
   "status": "proved",
   "theorems": [
    "Verif.Glob.C01_glob_exact",
    "Verif.Glob.C01_glob_unique"
   ],
   "note": "exact glob language, termination and in-bounds reads, all texts/patterns without NUL"
  },
  {
   "property": "C02",
   "status": "proved",
   "theorems": [
    "Verif.Glob.C02_any_pattern"
   ],
   "note": "first matching member of the encoded list"
  },
  {
   "property": "C03",
   "status": "proved",
   "theorems": [
    "Verif.Text.C03_strnchr",
    "Verif.Text.C03_strcasestr"
   ],
   "note": "first occurrence, ASCII case folding"
  },
  {
   "property": "C04",
   "status": "partial",
   "theorems": [
    "Verif.Text.C04_line_walk_partial",
    "Verif.Text.C04_reads_before_mapping",
    "Verif.Text.C04_reads_after_mapping",
    "Verif.Text.C04_last_line_untrimmed"
   ],
   "note": "full claim is false: three witnesses; exact for files meeting the stated boundary conditions"
  },
  {
   "property": "C05",
   "status": "partial",
   "theorems": [
    "Verif.Suppress.C05_exact_simple_partial",
    "Verif.Suppress.C05_complete_plain_partial",
    "Verif.Suppress.C05_sound_simple_partial",
    "Verif.Suppress.C05_over_suppression",
    "Verif.Suppress.C05_module_ellipsis_matches_zero",
    "Verif.Suppress.C05_missed_suppression"
   ],
   "note": "full claim is false (three witnesses); exact for specs where each ellipsis is followed by one ordinary line; complete for all plain-ellipsis specs; always terminates"
  },
  {
   "property": "C06",
   "status": "partial",
   "theorems": [
    "Verif.Suppress.C06_round_trip_partial",
    "Verif.Suppress.C06_file_text",
    "Verif.Suppress.C06_plus_in_module_name",
    "Verif.Suppress.C06_unnamed_module",
    "Verif.Suppress.C06_type_prefix"
   ],
   "note": "full claim is false (three witnesses); round trip through writer, line reader, parser and matcher for all writable frames"
  },
  {
   "property": "C07",
   "status": "proved",
   "theorems": [
    "Verif.Suppress.C07_suppressed_iff",
    "Verif.Suppress.C07_effect",
    "Verif.Suppress.C07_monotone"
   ],
   "note": ""
  },
  {
   "property": "C08",
   "status": "proved",
   "theorems": [
    "Verif.Shadow.C08_read_last_write",
    "Verif.Shadow.C08_save_restore",
    "Verif.Shadow.C08_get_dword",
    "Verif.Shadow.C08_qword_unallocated"
   ],
   "note": "shadow_get_qword over an unallocated block is a finding (C08_qword_unallocated); the byte map itself is exact"
  },
  {
   "property": "C09",
   "status": "proved",
   "theorems": [
    "Verif.Shadow.C09_set_range",
    "Verif.Shadow.C09_set_non_matching"
   ],
   "note": ""
  },
  {
   "property": "C10",
   "status": "partial",
   "theorems": [
    "Verif.Shadow.C10_sound",
    "Verif.Shadow.C10_exact_partial",
    "Verif.Shadow.C10_missed_undefined",
    "Verif.Shadow.C10_backward"
   ],
   "note": "full claim is false for unaligned starts (C10_missed_undefined); exact otherwise"
  },
  {
   "property": "C11",
   "status": "partial",
   "theorems": [
    "Verif.Shadow.C11_copy_range_partial",
    "Verif.Shadow.C11_short_unaligned",
    "Verif.Shadow.C11_forward_overlap"
   ],
   "note": "full claim is false (two witnesses); exact for non-overlapping dword-compatible copies"
  },
  {
   "property": "C12",
   "status": "proved",
   "theorems": [
    "Verif.ShadowTables.C12_dword_is_addressable",
    "Verif.ShadowTables.C12_dword_is_addr_not_bit",
    "Verif.ShadowTables.C12_2_to_dword",
    "Verif.ShadowTables.C12_4_to_dword",
    "Verif.ShadowTables.C12_byte_defined",
    "Verif.ShadowTables.C12_word_defined",
    "Verif.ShadowTables.C12_byte_addr_not_bit",
    "Verif.ShadowTables.C12_word_addr_not_bit"
   ],
   "note": "finite tables checked whole by the kernel"
  },
  {
   "property": "C14",
   "status": "partial",
   "theorems": [
    "Verif.Umbra.C14_create",
    "Verif.Umbra.C14_set_range",
    "Verif.Umbra.C14_write",
    "Verif.Umbra.C14_read",
    "Verif.Umbra.C14_copy_partial",
    "Verif.Umbra.C14_last_byte_dropped",
    "Verif.Umbra.C14_last_byte_dropped_long",
    "Verif.Umbra.C14_copy_overlap",
    "Verif.Umbra.C14_default_ff",
    "Verif.Umbra.C14_fault_clobbers_next_block"
   ],
   "note": "set/read/write exact under alignment; copy for disjoint ranges; witnesses where the full claim fails"
  },
  {
   "property": "C13",
   "status": "proved",
   "theorems": [
    "Verif.Umbra64.C13_injective",
    "Verif.Umbra64.C13_not_application",
    "Verif.Umbra64.C13_two_maps",
    "Verif.Umbra64.C13_shadow_of_shadow",
    "Verif.Umbra64.C13_shadow_to_app",
    "Verif.Umbra64.C13_inline_agrees",
    "Verif.Umbra64.C13_inline_disagrees",
    "Verif.Umbra64.C13_affine",
    "Verif.Umbra64.C13_map_create",
    "Verif.Umbra64.C13_fault_addr"
   ],
   "note": "64-bit Linux layout, all scales, both maps"
  },
  {
   "property": "C15",
   "status": "partial",
   "theorems": [
    "Verif.RB.C15_history",
    "Verif.RB.C15_history_release_partial",
    "Verif.RB.C15_release_overlap",
    "Verif.RB.C15_insert_fresh",
    "Verif.RB.C15_insert_overlapping",
    "Verif.RB.C15_delete",
    "Verif.RB.C15_in_node",
    "Verif.RB.C15_in_node_none",
    "Verif.RB.C15_find",
    "Verif.RB.C15_overlaps",
    "Verif.RB.C15_find_client",
    "Verif.RB.C15_iterate",
    "Verif.RB.C15_set_client"
   ],
   "note": "proved in full for debug builds; release builds accept overlapping intervals (C15_release_overlap), so for them only histories without overlapping insertions"
  },
  {
   "property": "C16",
   "status": "proved",
   "theorems": [
    "Verif.RB.C16_height"
   ],
   "note": "any history, both build types"
  },
  {
   "property": "C17",
   "status": "partial",
   "theorems": [
    "Verif.RB.C17_max",
    "Verif.RB.C17_min",
    "Verif.RB.C17_next_higher_misses",
    "Verif.RB.C17_next_higher_not_nearest",
    "Verif.RB.C17_next_lower_not_nearest",
    "Verif.RB.C17_next_lower_partial",
    "Verif.RB.C17_next_higher_partial"
   ],
   "note": "max/min exact; next_higher/next_lower do not return the nearest interval (witnesses), only soundness holds"
  },
  {
   "property": "C18",
   "status": "proved",
   "theorems": [
    "Verif.Regions.C18_heap_regions",
    "Verif.Regions.C18_remove_two_regions"
   ],
   "note": "every history respecting the documented contract, debug and release builds; C18_remove_two_regions shows the contract is needed"
  },
  {
   "property": "C19",
   "status": "partial",
   "theorems": [
    "Verif.Regions.C19_history_partial",
    "Verif.Regions.C19_remove",
    "Verif.Regions.C19_add_disjoint_partial",
    "Verif.Regions.C19_add_one_partial",
    "Verif.Regions.C19_lookup",
    "Verif.Regions.C19_merge_loses",
    "Verif.Regions.C19_release_misses"
   ],
   "note": "unmapping exact for arbitrary overlaps; adding exact over untracked addresses (and, in debug builds, over one tracked mapping); full claim false (two witnesses)"
  },
  {
   "property": "C38",
   "status": "proved",
   "theorems": [
    "Verif.Md5.C38_md5",
    "Verif.Md5.C38_region",
    "Verif.Md5.C38_digest_compare"
   ],
   "note": "equal to an RFC 1321 specification for every byte string and every way of cutting it"
  },
  {
   "property": "C39",
   "status": "partial",
   "theorems": [
    "Verif.Crc.C39_crc32",
    "Verif.Crc.C39_unique",
    "Verif.Crc.C39_whole_and_half_partial",
    "Verif.Crc.C39_half_prefix_off_by_one",
    "Verif.Crc.C39_half_unset"
   ],
   "note": "checksum equals the GF(2) polynomial remainder for every buffer; the half checksum covers len/2+1 bytes, not the documented len/2, and is unset for len 0 (witnesses)"
  },
  {
   "property": "C40",
   "status": "partial",
   "theorems": [
    "Verif.Libc.C40_memset",
    "Verif.Libc.C40_bzero",
    "Verif.Libc.C40_wmemset",
    "Verif.Libc.C40_memcpy",
    "Verif.Libc.C40_wmemcpy",
    "Verif.Libc.C40_memmove",
    "Verif.Libc.C40_memchr_found",
    "Verif.Libc.C40_memchr_none",
    "Verif.Libc.C40_memrchr_found",
    "Verif.Libc.C40_memrchr_none",
    "Verif.Libc.C40_rawmemchr",
    "Verif.Libc.C40_memcmp_eq",
    "Verif.Libc.C40_memcmp_diff",
    "Verif.Libc.C40_wmemcmp_eq",
    "Verif.Libc.C40_wmemcmp_diff_partial",
    "Verif.Libc.C40_wmemcmp_overflow"
   ],
   "note": "every routine exact for all contents, addresses and lengths, except wmemcmp: its int subtraction overflows (witness), exact when it does not"
  },
  {
   "property": "C41",
   "status": "partial",
   "theorems": [
    "Verif.Libc.C41_strlen",
    "Verif.Libc.C41_strnlen",
    "Verif.Libc.C41_strchr_found",
    "Verif.Libc.C41_strchr_none",
    "Verif.Libc.C41_strrchr_found",
    "Verif.Libc.C41_strrchr_none",
    "Verif.Libc.C41_strchrnul",
    "Verif.Libc.C41_strcmp_less",
    "Verif.Libc.C41_strcmp_greater",
    "Verif.Libc.C41_strcmp_eq",
    "Verif.Libc.C41_strcmp_zero_iff",
    "Verif.Libc.C41_strncmp_less",
    "Verif.Libc.C41_strncmp_greater",
    "Verif.Libc.C41_strncmp_eq",
    "Verif.Libc.C41_stpcpy",
    "Verif.Libc.C41_strcpy",
    "Verif.Libc.C41_strncpy",
    "Verif.Libc.C41_strcat",
    "Verif.Libc.C41_strcat_concat",
    "Verif.Libc.C41_strncat",
    "Verif.Libc.C41_strspn_partial",
    "Verif.Libc.C41_strcspn_partial",
    "Verif.Libc.C41_strspn_255",
    "Verif.Libc.C41_strstr"
   ],
   "note": "every routine exact for all strings, except strspn/strcspn: a 255-entry table is indexed by a byte, so byte 255 writes past its end (C41_strspn_255); exact without that byte"
  },
  {
   "property": "C35",
   "status": "proved",
   "theorems": [
    "Verif.Mut.C35_ordered"
   ],
   "note": "any seed of 1 to 2^29-1 bytes"
  },
  {
   "property": "C36",
   "status": "partial",
   "theorems": [
    "Verif.Mut.C36_random_partial",
    "Verif.Mut.C36_large"
   ],
   "note": "exact for buffers up to 4096 bytes and every random outcome; the short differences overflow for larger ones (C36_large, a write outside the buffer)"
  },
  {
   "property": "C37",
   "status": "partial",
   "theorems": [
    "Verif.Mut.C37_sparse_partial",
    "Verif.Mut.C37_not_every_sth",
    "Verif.Mut.C37_wrap"
   ],
   "note": "exact list of produced values for every sparsity with 8*size+sparsity <= 2^32; it restarts and clamps at each number of bits, so the claim as stated is false (C37_not_every_sth); index overflow for larger sparsity (C37_wrap)"
  },
  {
   "property": "C32",
   "status": "partial",
   "theorems": [
    "Verif.Cs.C32_module_lookup",
    "Verif.Cs.C32_contiguous",
    "Verif.Cs.C32_is_in_module_partial",
    "Verif.Cs.C32_is_in_module_unaligned",
    "Verif.Cs.C32_is_in_module_page0"
   ],
   "note": "module_lookup exact for every history, debug and release; is_in_module exact for modules made of whole pages other than page 0 (witnesses otherwise)"
  },
  {
   "property": "C30",
   "status": "partial",
   "theorems": [
    "Verif.Cs.C30_decode_partial",
    "Verif.Cs.C30_exact",
    "Verif.Cs.C30_sees_unique",
    "Verif.Cs.C30_multiple",
    "Verif.Cs.C30_huge",
    "Verif.Cs.C30_reload"
   ],
   "note": "Exact decoding for all histories; the English claim fails for offsets that are positive multiples of 2^24-1 (decoded as no module), beyond 129*(2^24-1) (signed overflow) and for a path loaded again with a larger size (C30_reload); proved under the negation of these."
  },
  {
   "property": "C31",
   "status": "partial",
   "theorems": [
    "Verif.Cs.C31_cmp_partial",
    "Verif.Cs.C31_cmp_confuses",
    "Verif.Cs.C31_hash",
    "Verif.Cs.C31_clone",
    "Verif.Cs.C31_clone_empty",
    "Verif.Cst.C31_refcounts",
    "Verif.Cst.C31_intern"
   ],
   "note": "Comparison is exact for packed/packed and full/full stacks without system call; otherwise it needs the C30 offset condition (C31_cmp_confuses). Reference counts and interning proved for all histories."
  },
  {
   "property": "C42",
   "status": "partial",
   "theorems": [
    "Verif.Er.C42_reports",
    "Verif.Er.C42_reported_once",
    "Verif.Er.C42_duplicates",
    "Verif.Er.C42_counts",
    "Verif.Er.C42_unique_total",
    "Verif.Er.C42_suppressed",
    "Verif.Er.C42_throttled",
    "Verif.Er.C42_count_wraps"
   ],
   "note": "exact for every history of fewer than 2^32 errors; the 32-bit count wraps after that and the error is reported again (C42_count_wraps)"
  },
  {
   "property": "C43",
   "status": "partial",
   "theorems": [
    "Verif.Er.C43_counts_partial",
    "Verif.Er.C43_nudge_partial",
    "Verif.Er.C43_occurrences_partial",
    "Verif.Er.C43_unique_partial",
    "Verif.Er.C43_unique_set",
    "Verif.Er.C43_unique_first",
    "Verif.Er.C43_unique_wrong",
    "Verif.Er.C43_total_underflow",
    "Verif.Er.C43_fork_partial",
    "Verif.Er.C43_fork_reachable"
   ],
   "note": "proved for every history; unique leaks found again after a nudge are counted in the wrong set (C43_unique_wrong), a hidden likely false positive makes the total wrap (C43_total_underflow), a forked child keeps the bytes of reachable leaks (C43_fork_reachable)"
  },
  {
   "property": "C20",
   "status": "partial",
   "theorems": [
    "Verif.Al.C20_total_partial",
    "Verif.Al.C20_disjoint_partial",
    "Verif.Al.C20_gap",
    "Verif.Al.C20_inside_partial",
    "Verif.Al.C20_regions",
    "Verif.Al.C20_aligned_partial",
    "Verif.Al.C20_total_needs_memory"
   ],
   "note": "every sequence of malloc/memalign/calloc/realloc/free calls and application stores; premises: sizes not within a few pages of 4 GB (see C23_wraps), and the system grants memory once there is a second arena (C20_total_needs_memory: otherwise the code follows a null pointer)"
  },
  {
   "property": "C21",
   "status": "partial",
   "theorems": [
    "Verif.Al.C21_fifo",
    "Verif.Al.C21_delay_partial",
    "Verif.Al.C21_kept_partial",
    "Verif.Al.C21_limit_one"
   ],
   "note": "FIFO order, exact counters and disjointness from live blocks for every run; the delay bound needs the system to grant memory (the code gives up the quarantine otherwise) and the count limit keeps limit-1 blocks (C21_limit_one)"
  },
  {
   "property": "C22",
   "status": "partial",
   "theorems": [
    "Verif.Al.C22_free_partial",
    "Verif.Al.C22_realloc_partial",
    "Verif.Al.C22_forged"
   ],
   "note": "exact unless the application writes the bytes of a chunk header into its own block (C22_forged)"
  },
  {
   "property": "C23",
   "status": "partial",
   "theorems": [
    "Verif.Al.C23_size_partial",
    "Verif.Al.C23_size_none",
    "Verif.Al.C23_too_large",
    "Verif.Al.C23_wraps",
    "Verif.Al.C23_memalign_wraps",
    "Verif.Al.C23_calloc32",
    "Verif.Al.C23_calloc64_sound",
    "Verif.Al.C23_calloc64_exact",
    "Verif.Al.C23_calloc64_misses",
    "Verif.Al.C23_calloc_partial"
   ],
   "note": "exact for requests not within a few pages of 4 GB; just below 4 GB the rounded size wraps (C23_wraps) and the 64-bit calloc overflow check misses products (C23_calloc64_misses)"
  },
  {
   "property": "C24",
   "status": "proved",
   "theorems": [
    "Verif.Al.C24_class",
    "Verif.Al.C24_once",
    "Verif.Al.C24_served"
   ],
   "note": "in every state reached by a run"
  },
  {
   "property": "C25",
   "status": "partial",
   "theorems": [
    "Verif.Al.C25_contents_partial"
   ],
   "note": "contents, size and all other blocks; the shadow-state update is not modelled"
  },
  {
   "property": "C26",
   "status": "proved",
   "theorems": [
    "Verif.Al.C26_iterate"
   ],
   "note": "in every state reached by a run"
  },
  {
   "property": "C27",
   "status": "partial",
   "theorems": [
    "Verif.DelayFree.C27_off",
    "Verif.DelayFree.C27_once",
    "Verif.DelayFree.C27_limit",
    "Verif.DelayFree.C27_conserve_partial",
    "Verif.DelayFree.C27_conserve_small",
    "Verif.DelayFree.C27_conserve_same",
    "Verif.DelayFree.C27_fifo",
    "Verif.DelayFree.C27_not_early_partial",
    "Verif.DelayFree.C27_asserts_partial",
    "Verif.DelayFree.C27_overlap_partial",
    "Verif.DelayFree.C27_destroyed",
    "Verif.DelayFree.C27_lost",
    "Verif.DelayFree.C27_lost_stale",
    "Verif.DelayFree.C27_bytes_after_destroy",
    "Verif.DelayFree.C27_wrong_heap",
    "Verif.DelayFree.C27_no_wrap"
   ],
   "note": "no block is passed on twice, for every history; the code loses a block when a full queue over the byte limit gives up a block that is not the oldest (C27_lost), keeps the bytes of destroyed heaps (C27_bytes_after_destroy) and frees an old block with the handle of another heap (C27_wrong_heap); exact conservation, FIFO order and overlap queries without these"
  },
  {
   "property": "C28",
   "status": "partial",
   "theorems": [
    "Verif.Leak.C28_total",
    "Verif.Leak.C28_reachable",
    "Verif.Leak.C28_leaked",
    "Verif.Leak.C28_once",
    "Verif.Leak.C28_definite",
    "Verif.Leak.C28_possible",
    "Verif.Leak.C28_maybe_partial",
    "Verif.Leak.C28_zero_size",
    "Verif.Leak.C28_maybe_child",
    "Verif.Leak.C28_maybe_cycle",
    "Verif.Leak.C28_words",
    "Verif.Leak.C28_words_end",
    "Verif.Leak.C28_memory"
   ],
   "note": "reachability is exact for every heap of non-empty blocks; blocks directly pointed into from a root or reachable block are possible leaks unless claimed by another leak; the claim fails for blocks further behind a mid-block pointer and for zero-size blocks (witnesses)"
  },
  {
   "property": "C29",
   "status": "partial",
   "theorems": [
    "Verif.Leak.C29_groups",
    "Verif.Leak.C29_total",
    "Verif.Leak.C29_direct_partial",
    "Verif.Leak.C29_cycle_partial",
    "Verif.Leak.C29_two_leaks",
    "Verif.Leak.C29_ignored",
    "Verif.Leak.C29_bound"
   ],
   "note": "every unreachable block is in exactly one group and the bytes add up, for every heap and order; one direct leak per cycle is proved for cycles nothing else points into, and false in general (C29_two_leaks)"
  },
  {
   "property": "C33",
   "status": "partial",
   "theorems": [
    "Verif.SymCache.C33_roundtrip_partial",
    "Verif.SymCache.C33_stale",
    "Verif.SymCache.C33_version",
    "Verif.SymCache.C33_size",
    "Verif.SymCache.C33_sound",
    "Verif.SymCache.C33_no_crash",
    "Verif.SymCache.C33_reload",
    "Verif.SymCache.C33_restart",
    "Verif.SymCache.C33_comma",
    "Verif.SymCache.C33_long",
    "Verif.SymCache.C33_large",
    "Verif.SymCache.C33_large_abort",
    "Verif.SymCache.C33_same_name"
   ],
   "note": "round trip exact for names of 1..255 characters without comma and newline and offsets below 2^32, over all runs of loads, unloads and exits with distinct preferred names; witnesses for the excluded names, offsets and shared names"
  },
  {
   "property": "C34",
   "status": "partial",
   "theorems": [
    "Verif.SymCache.C34_lookup_partial",
    "Verif.SymCache.C34_abort",
    "Verif.SymCache.C34_max_offset",
    "Verif.SymCache.C34_zero_after",
    "Verif.SymCache.C34_frame"
   ],
   "note": "exact for every sequence of additions that does not abort; the aborting sequences are characterised; offset 2^64-1 excluded with a witness"
  },
  {
   "property": "C44",
   "status": "partial",
   "theorems": [
    "Verif.SymCache.C44_no_crash_partial",
    "Verif.SymCache.C44_crash",
    "Verif.SymCache.C44_crash_page",
    "Verif.SymCache.C44_abort"
   ],
   "note": "no wild access for any NUL-free file that ends in a newline and does not fill its last page; files outside these conditions crash the reader, and some abort it"
  },
  {
   "property": "C45",
   "status": "partial",
   "theorems": [
    "Verif.Define.C45_moves_partial",
    "Verif.Define.C45_moves_sound_partial",
    "Verif.Define.C45_shufpd",
    "Verif.Define.C45_pshufd",
    "Verif.Define.C45_movhps_load",
    "Verif.Define.C45_movhlps",
    "Verif.Define.C45_insertps_zero",
    "Verif.Define.C45_pextr_mask",
    "Verif.Define.C45_xadd"
   ],
   "note": "exact for mov/movzx, xchg, bswap, unpacks, shufps, byte shifts, extracts and inserts with an immediate in range, insertps without zeroing, movlhps, movhlps and movlps; witnesses for the forms that are wrong; VEX forms are not modelled"
  },
  {
   "property": "C46",
   "status": "partial",
   "theorems": [
    "Verif.Define.C46_shift_partial",
    "Verif.Define.C46_packed_partial",
    "Verif.Define.C46_shift_flags_partial",
    "Verif.Define.C46_shift_precise",
    "Verif.Define.C46_sar",
    "Verif.Define.C46_masked_count",
    "Verif.Define.C46_zero_count",
    "Verif.Define.C46_rotate"
   ],
   "note": "sound for shl/shr and packed logical shifts of all sizes, for sar except one byte; precise for all three; masked counts, shift by zero and rotates are wrong"
  },
  {
   "property": "C47",
   "status": "partial",
   "theorems": [
    "Verif.Define.C47_flags_default",
    "Verif.Define.C47_flags_source",
    "Verif.Define.C47_flags_one_byte"
   ],
   "note": "flags written are exact; flags read reach one byte only when written by the slow path"
  },
  {
   "property": "C48",
   "status": "partial",
   "theorems": [
    "Verif.Define.C48_bounds_partial",
    "Verif.Define.C48_overflow"
   ],
   "note": "no access outside for all operands up to 16 bytes and pinsr immediates in range; a pinsr immediate of 32 writes past the end"
  },
  {
   "property": "C49",
   "status": "partial",
   "theorems": [
    "Verif.Define.C49_and_exact_partial",
    "Verif.Define.C49_or_sound_partial",
    "Verif.Define.C49_flags",
    "Verif.Define.C49_bitmask",
    "Verif.Define.C49_bitmask_and",
    "Verif.Define.C49_or_ff",
    "Verif.Define.C49_or_relaxed",
    "Verif.Define.C49_and_64",
    "Verif.Define.C49_and_64_false",
    "Verif.Define.C49_garbage"
   ],
   "note": "and/test exact up to four bytes without heuristics, or sound with -strict_bitops, flags exact always; eight-byte operands and or with 0xff are wrong; code that decodes following instructions is not modelled"
  },
  {
   "property": "C50",
   "status": "partial",
   "theorems": [
    "Verif.MemRef.C50_reports_partial",
    "Verif.MemRef.C50_result_partial",
    "Verif.MemRef.C50_values",
    "Verif.MemRef.C50_elements",
    "Verif.MemRef.C50_read_shadow",
    "Verif.MemRef.C50_check_shadow",
    "Verif.MemRef.C50_write_shadow_partial",
    "Verif.MemRef.C50_addressability",
    "Verif.MemRef.C50_again",
    "Verif.MemRef.C50_push",
    "Verif.MemRef.C50_push_redzone",
    "Verif.MemRef.C50_pop",
    "Verif.MemRef.C50_pop_redzone",
    "Verif.MemRef.C50_push_pop",
    "Verif.MemRef.C50_copy_overlap",
    "Verif.MemRef.C50_copy_unaddr",
    "Verif.MemRef.C50_abort",
    "Verif.MemRef.C50_dword_partial",
    "Verif.MemRef.C50_dword_missed",
    "Verif.MemRef.C50_dword_split"
   ],
   "note": "exact maximal runs for every reference without abort and with one shadow value per byte; aborting references judged exactly, with a truthful prefix of the reports; with one shadow value per dword exact unless the reference ends in the first byte of a later dword, which is missed (witness); overlapping copies through a vector register get wrong shadow (witness)"
  },
  {
   "property": "C51",
   "status": "partial",
   "theorems": [
    "Verif.Stack.C51_addressable_partial",
    "Verif.Stack.C51_reports_partial",
    "Verif.Stack.C51_stale_partial",
    "Verif.Stack.C51_frame_partial",
    "Verif.Stack.C51_new",
    "Verif.Stack.C51_swap",
    "Verif.Stack.C51_unknown_stack",
    "Verif.Stack.C51_ret_imm",
    "Verif.Stack.C51_enter",
    "Verif.Stack.C51_top",
    "Verif.Stack.C51_redzone_lost"
   ],
   "note": "proved for every sequence without enter, without ret n where the return address has eight bytes, and without large moves to the very end of the stack; for these three the claim is false (witnesses), and definedness in the red zone is lost on a sub"
  },
  {
   "property": "C52",
   "status": "partial",
   "theorems": [
    "Verif.HeapShadow.C52_bytes_partial",
    "Verif.HeapShadow.C52_addressable_partial",
    "Verif.HeapShadow.C52_reports_partial",
    "Verif.HeapShadow.C52_use_after_free_partial",
    "Verif.HeapShadow.C52_copy_partial",
    "Verif.HeapShadow.C52_realloc_shadow",
    "Verif.HeapShadow.C52_mmap",
    "Verif.HeapShadow.C52_mremap_partial",
    "Verif.HeapShadow.C52_mremap_old",
    "Verif.HeapShadow.C52_mremap_zero",
    "Verif.HeapShadow.C52_dword_ref",
    "Verif.HeapShadow.C52_dword_partial"
   ],
   "note": "proved for every good run of the allocator model; with one shadow value per four bytes the blocks are rounded up; a moved mremap leaves the old range addressable and the growth of an anonymous mapping counts as uninitialised"
  },
  {
   "property": "C53",
   "status": "partial",
   "theorems": [
    "Verif.Options.C53_roundtrip_partial",
    "Verif.Options.C53_names",
    "Verif.Options.C53_unknown_partial",
    "Verif.Options.C53_quotes",
    "Verif.Options.C53_last",
    "Verif.Options.C53_multi",
    "Verif.Options.C53_number",
    "Verif.Options.C53_number_garbage",
    "Verif.Options.C53_no_number",
    "Verif.Options.C53_backtick",
    "Verif.Options.C53_old_spelling",
    "Verif.Options.C53_ends"
   ],
   "note": "round trip for arguments without a back quote; every spelling of every option found, anything else rejected except a dash with two double quotes, which is taken for -light; numbers followed by other characters are accepted; an argument with a back quote is taken apart; the old spelling of the default block list is overridden by the frontend"
  },
  {
   "property": "C54",
   "status": "partial",
   "theorems": [
    "Verif.OptDeps.C54_mode",
    "Verif.OptDeps.C54_full",
    "Verif.OptDeps.C54_only_partial",
    "Verif.OptDeps.C54_track",
    "Verif.OptDeps.C54_light",
    "Verif.OptDeps.C54_unaddr_partial",
    "Verif.OptDeps.C54_explicit",
    "Verif.OptDeps.C54_light_leaks",
    "Verif.OptDeps.C54_contradiction",
    "Verif.OptDeps.C54_quiet",
    "Verif.OptDeps.C54_pattern",
    "Verif.OptDeps.C54_redzone",
    "Verif.OptDeps.C54_native_partial",
    "Verif.OptDeps.C54_perturb_light",
    "Verif.OptDeps.C54_native_unaddr",
    "Verif.OptDeps.C54_leaks_pattern",
    "Verif.OptDeps.C54_unaddr_pattern",
    "Verif.OptDeps.C54_redzone_light"
   ],
   "note": "proved for all combinations, with the exceptions shown by witnesses: -perturb_only -light checks memory references, -native_parent -unaddr_only is rejected, -unaddr_only -pattern 0 checks uninitialised reads, -leaks_only -pattern is silently accepted"
  },
  {
   "property": "C55",
   "status": "partial",
   "theorems": [
    "Verif.Pattern.C55_intact",
    "Verif.Pattern.C55_detect",
    "Verif.Pattern.C55_detect_four_partial",
    "Verif.Pattern.C55_overflow",
    "Verif.Pattern.C55_underflow",
    "Verif.Pattern.C55_use_after_free",
    "Verif.Pattern.C55_sound",
    "Verif.Pattern.C55_app_quiet",
    "Verif.Pattern.C55_once",
    "Verif.Pattern.C55_transparent_partial",
    "Verif.Pattern.C55_last_byte_missed",
    "Verif.Pattern.C55_odd_missed",
    "Verif.Pattern.C55_tail_missed",
    "Verif.Pattern.C55_four_misses",
    "Verif.Pattern.C55_second_missed",
    "Verif.Pattern.C55_clobber"
   ],
   "note": "soundness, upkeep of the pattern and at most one report proved without exception; detection for accesses at even addresses or of one byte whose first two or four bytes are undamaged guard bytes; the other accesses are missed (witnesses), and a report for an access that starts in live data sets a live byte to 0"
  },
  {
   "property": "C56",
   "status": "partial",
   "theorems": [
    "Verif.SysArgs.C56_table",
    "Verif.SysArgs.C56_numbers",
    "Verif.SysArgs.C56_pre",
    "Verif.SysArgs.C56_post",
    "Verif.SysArgs.C56_within",
    "Verif.SysArgs.C56_failed",
    "Verif.SysArgs.C56_result",
    "Verif.SysArgs.C56_result_zero",
    "Verif.SysArgs.C56_read_exact_partial",
    "Verif.SysArgs.C56_read_eof",
    "Verif.SysArgs.C56_recvfrom_short",
    "Verif.SysArgs.C56_recvfrom_null",
    "Verif.SysArgs.C56_accept_len",
    "Verif.SysArgs.C56_readv",
    "Verif.SysArgs.C56_capget",
    "Verif.SysArgs.C56_all_ones",
    "Verif.SysArgs.C56_success",
    "Verif.SysArgs.C56_act"
   ],
   "note": "ranges before and after the call characterised for every plain parameter of every entry; exactness of what read() marks fails for a result of 0 (the whole buffer is marked); defects of single entries by witnesses"
  },
  {
   "property": "C57",
   "status": "partial",
   "theorems": [
    "Verif.SysArgs.C57_iov",
    "Verif.SysArgs.C57_vm_readv",
    "Verif.SysArgs.C57_vm_readv_pre",
    "Verif.SysArgs.C57_vm_writev",
    "Verif.SysArgs.C57_vm_writev_pre",
    "Verif.SysArgs.C57_recvmsg_ctl",
    "Verif.SysArgs.C57_recvmsg_post",
    "Verif.SysArgs.C57_recvmsg_sockLen",
    "Verif.SysArgs.C57_recvmsg_name_missed",
    "Verif.SysArgs.C57_sendmsg_data",
    "Verif.SysArgs.C57_sendmsg_missed",
    "Verif.SysArgs.C57_recvmsg_junk",
    "Verif.SysArgs.C57_string",
    "Verif.SysArgs.C57_string_unterminated",
    "Verif.SysArgs.C57_strings",
    "Verif.SysArgs.C57_select_partial",
    "Verif.SysArgs.C57_select_missed",
    "Verif.SysArgs.C57_poll",
    "Verif.SysArgs.C57_poll_failed",
    "Verif.SysArgs.C57_arch_prctl",
    "Verif.SysArgs.C57_sockaddr_within_partial",
    "Verif.SysArgs.C57_sockaddr_wrap",
    "Verif.SysArgs.C57_sockaddr_inet",
    "Verif.SysArgs.C57_sockaddr_out",
    "Verif.SysArgs.C57_msgbuf"
   ],
   "note": "exact ranges for vectors, strings, string arrays, message buffers, poll; select only for multiples of 8 descriptors; the data of sendmsg is not checked and the address of recvmsg not marked (witnesses)"
  },
  {
   "property": "C58",
   "status": "partial",
   "theorems": [
    "Verif.SysUnknown.C58_transparent_partial",
    "Verif.SysUnknown.C58_defined_partial",
    "Verif.SysUnknown.C58_no_sentinels",
    "Verif.SysUnknown.C58_dword_sentinel",
    "Verif.SysUnknown.C58_kernel_sentinel",
    "Verif.SysUnknown.C58_stale_size",
    "Verif.SysUnknown.C58_dword_extra",
    "Verif.SysUnknown.C58_inside_missed"
   ],
   "note": "memory restored and the exact set of bytes that become defined, if no parameter points inside the memory of an earlier one; with sentinels also one byte at a time; without these conditions the witnesses show bytes of the application overwritten for good"
  },
  {
   "property": "C59",
   "status": "partial",
   "theorems": [
    "Verif.Umbra32.C59_history_partial",
    "Verif.Umbra32.C59_inserted_x86",
    "Verif.Umbra32.C59_inserted_arm",
    "Verif.Umbra32.C59_translate",
    "Verif.Umbra32.C59_clear",
    "Verif.Umbra32.C59_new_shared",
    "Verif.Umbra32.C59_copy_partial",
    "Verif.Umbra32.C59_copy_overlap",
    "Verif.Umbra32.C59_search",
    "Verif.Umbra32.C59_search_wide",
    "Verif.Umbra32.C59_type",
    "Verif.Umbra32.C59_type_owner",
    "Verif.Umbra32.C59_type_other",
    "Verif.Umbra32.C59_type_low",
    "Verif.Umbra32.C59_iterate",
    "Verif.Umbra32.C59_shared_readonly",
    "Verif.Umbra32.C59_redzone",
    "Verif.Umbra32.C59_redzone_shared",
    "Verif.Umbra32.C59_get_shared",
    "Verif.Umbra32.C59_create_255",
    "Verif.Umbra32.C59_last_byte"
   ],
   "note": "every history of granule-aligned calls refines shadow memory without sharing, unless memory is exhausted; excluded with witnesses: ranges that end one byte into a block, copies whose destination begins inside the source, faulty redzones of shared blocks, low addresses of create-on-touch maps, values above 255; granule-misaligned ranges not treated"
  },
  {
   "property": "C60",
   "status": "partial",
   "theorems": [
    "Verif.EspFast.C60_return_partial",
    "Verif.EspFast.C60_slow_partial",
    "Verif.EspFast.C60_handled_iff_partial",
    "Verif.EspFast.C60_values",
    "Verif.EspFast.C60_threshold",
    "Verif.EspFast.C60_threshold_stale",
    "Verif.EspFast.C60_defined_slow",
    "Verif.EspFast.C60_and_wrong"
   ],
   "note": "whole generated routine executed symbolically, all kinds of change and any number of blocks; for `and` only with a mask as the application uses it and a swap threshold below 64 KB, beyond that memory that is not stack is marked (witness)"
  },
  {
   "property": "C61",
   "status": "partial",
   "theorems": [
    "Verif.FastX86.C61_result_partial",
    "Verif.FastX86.C61_ends_partial",
    "Verif.FastX86.C61_slow_unchanged",
    "Verif.FastX86.C61_guard",
    "Verif.FastX86.C61_taken",
    "Verif.FastX86.C61_shift",
    "Verif.FastX86.C61_high_byte_store",
    "Verif.FastX86.C61_checked_part",
    "Verif.FastX86.C61_null_operand",
    "Verif.FastX86.C61_shift_wrong"
   ],
   "note": "all code sequences for operands of at most 4 bytes with at most one memory operand; excluded with witnesses: a store of ah..dh to a multiple of 4, stores of less than a dword whose sources are checked, flag-writing instructions without operands, and shifts other than shl and shr of a dword by a multiple of 8 below 32; two destinations of less than a dword only in some forms"
  },
  {
   "property": "C62",
   "status": "partial",
   "theorems": [
    "Verif.BlockChecks.C62_elision_partial",
    "Verif.BlockChecks.C62_address_partial",
    "Verif.BlockChecks.C62_flags_partial",
    "Verif.BlockChecks.C62_no_false_report",
    "Verif.BlockChecks.C62_own_address",
    "Verif.BlockChecks.C62_cmov",
    "Verif.BlockChecks.C62_popa",
    "Verif.BlockChecks.C62_slow_flags",
    "Verif.BlockChecks.C62_witness_ok"
   ],
   "note": "equality with the fully checked run for every block in which no instruction loads an undefined value into a register of its own address, no conditional move from memory is skipped, no popa loads undefined registers and no instruction without inlined code writes undefined flags; each of the four conditions is shown necessary by a block in which a use of an undefined value is not reported"
  },
  {
   "property": "C63",
   "status": "partial",
   "theorems": [
    "Verif.Spill.C63_transparent_partial",
    "Verif.Spill.C63_order",
    "Verif.Spill.C63_address_lost"
   ],
   "note": "every block, any instrumentation that changes only the scratch registers and flags it asked for; excluded: instructions whose result is always the same and that use a scratch register, e.g. in an address, for which the code restores nothing (witness C63_address_lost); translation sharing and code expanded to loops not modelled"
  },
  {
   "property": "C64",
   "status": "partial",
   "theorems": [
    "Verif.Spill.C64_registers_partial",
    "Verif.Spill.C64_flags_partial",
    "Verif.Spill.C64_stale",
    "Verif.Spill.C64_overflow",
    "Verif.Spill.C64_flags_kept"
   ],
   "note": "registers: if each scratch register was asked for up to the faulting instruction or is not touched in the block; flags: if they are saved there exactly if they are at the end of the block, the overflow flag only ever set; each excluded case has a witness; registers and flags that are dead are excluded as the code documents"
  },
  {
   "property": "C65",
   "status": "partial",
   "theorems": [
    "Verif.SysFile.C65_read",
    "Verif.SysFile.C65_absent",
    "Verif.SysFile.C65_safe",
    "Verif.SysFile.C65_roundtrip",
    "Verif.SysFile.C65_lookup",
    "Verif.SysFile.C65_gaps_never",
    "Verif.SysFile.C65_crash",
    "Verif.SysFile.C65_own_refused",
    "Verif.SysFile.C65_gap_lost",
    "Verif.SysFile.C65_collision"
   ],
   "note": "all files and tables; the round trip needs names that begin with a capital letter (otherwise refused, C65_own_refused); freedom from crashes needs a final newline (C65_crash); mapped files whose size is a multiple of the page size, blanks and signs accepted by dr_sscanf, and the table of user calls are not modelled"
  },
  {
   "property": "C66",
   "status": "partial",
   "theorems": [
    "Verif.MemLayout.C66_dump_partial",
    "Verif.MemLayout.C66_cover",
    "Verif.MemLayout.C66_value",
    "Verif.MemLayout.C66_target",
    "Verif.MemLayout.C66_numbers",
    "Verif.MemLayout.C66_reader",
    "Verif.MemLayout.C66_two_threads",
    "Verif.MemLayout.C66_not_json",
    "Verif.MemLayout.C66_many_objects",
    "Verif.MemLayout.C66_sign",
    "Verif.MemLayout.C66_size",
    "Verif.MemLayout.C66_name"
   ],
   "note": "one thread, function names without quotes, backslashes and control characters, sizes below 2 GiB, no short piece with its highest bit set, and at most 128 objects where bool is a char: the file reads back as exactly the expected value; each excluded case is refuted (for all dumps with two threads or, with char, more than 128 heap objects; by witness otherwise). Which objects get into the trees is an input"
  },
  {
   "property": "C67",
   "status": "partial",
   "theorems": [
    "Verif.RegShadow.C67_read_partial",
    "Verif.RegShadow.C67_write",
    "Verif.RegShadow.C67_check_partial",
    "Verif.RegShadow.C67_layout",
    "Verif.RegShadow.C67_fast",
    "Verif.RegShadow.C67_flags",
    "Verif.RegShadow.C67_thread",
    "Verif.RegShadow.C67_store",
    "Verif.RegShadow.C67_exception",
    "Verif.RegShadow.C67_mmx_partial",
    "Verif.RegShadow.C67_high_byte",
    "Verif.RegShadow.C67_mmx",
    "Verif.RegShadow.C67_mmx_end",
    "Verif.RegShadow.C67_vex"
   ],
   "note": "writing proved for all registers; reading and checking for all but MMX and (checking) ah, ch, dh, bh, for which the claim is refuted in every state that has the undefined byte; the upper halves of ymm registers are not tracked correctly (C67_vex). The exceptions of check_undefined_reg_exceptions are an input"
  },
  {
   "property": "C68",
   "status": "partial",
   "theorems": [
    "Verif.HeapStat.C68_even_partial",
    "Verif.HeapStat.C68_totals_partial",
    "Verif.HeapStat.C68_history",
    "Verif.HeapStat.C68_peak",
    "Verif.HeapStat.C68_allocs",
    "Verif.HeapStat.C68_lines",
    "Verif.HeapStat.C68_bytes_lost",
    "Verif.HeapStat.C68_odd",
    "Verif.HeapStat.C68_period_overflow",
    "Verif.HeapStat.C68_usable_twice",
    "Verif.HeapStat.C68_peak_condition",
    "Verif.HeapStat.C68_gigabyte"
   ],
   "note": "even spacing proved for even numbers of snapshots until the period overflows; bytes requested, nodes per call stack, history and peak proved for all valid runs; the space allocated, the number of blocks after an in-place realloc, odd numbers of snapshots, the period, the second peak condition and -time_bytes are wrong in the code and the negations proved"
  },
  {
   "property": "C69",
   "status": "partial",
   "theorems": [
    "Verif.Stale.C69_records",
    "Verif.Stale.C69_no_overflow",
    "Verif.Stale.C69_last_use",
    "Verif.Stale.C69_block_partial",
    "Verif.Stale.C69_report_partial",
    "Verif.Stale.C69_small_blocks",
    "Verif.Stale.C69_reused",
    "Verif.Stale.C69_tail",
    "Verif.Stale.C69_shrunk",
    "Verif.Stale.C69_destroy"
   ],
   "note": "the records read back exactly and no snapshot overflows in any valid run without the destruction of a heap; the time is exact for a block that was used and swept, and for fresh memory; it is wrong for the last size mod 8 bytes, for blocks under 8 bytes, for unused blocks in reused memory, for blocks shrunk in place; destroying a Windows heap can overflow the array"
  },
  {
   "property": "C70",
   "status": "partial",
   "theorems": [
    "Verif.DrFuzz.C70_iterations",
    "Verif.DrFuzz.C70_get_arg",
    "Verif.DrFuzz.C70_memory",
    "Verif.DrFuzz.C70_user_data",
    "Verif.DrFuzz.C70_cache",
    "Verif.DrFuzz.C70_blocks",
    "Verif.DrFuzz.C70_safe_partial",
    "Verif.DrFuzz.C70_faults",
    "Verif.DrFuzz.C70_fault_delete",
    "Verif.DrFuzz.C70_frames_partial",
    "Verif.DrFuzz.C70_fault_twice",
    "Verif.DrFuzz.C70_fault_exit",
    "Verif.DrFuzz.C70_frames_wrong",
    "Verif.DrFuzz.C70_frames_bounds",
    "Verif.DrFuzz.C70_last_frames",
    "Verif.DrFuzz.C70_fault_data",
    "Verif.DrFuzz.C70_unfuzz_cached",
    "Verif.DrFuzz.C70_recursion",
    "Verif.DrFuzz.C70_wrap_context",
    "Verif.DrFuzz.C70_current_arg",
    "Verif.DrFuzz.C70_free_size"
   ],
   "note": "the iterations, the memory, the client data, the cache, the block counts and the recorded faults are right in every run without direct recursion; a handled fault leads to a double free two iterations later, from every state; the frames of a report hold the wrong arguments and may be read out of bounds; they are those of the last fault, not the first; a target can be unregistered while the cache points to it"
  },
  {
   "property": "C71",
   "status": "partial",
   "theorems": [
    "Verif.FuzzDriver.C71_pass",
    "Verif.FuzzDriver.C71_values",
    "Verif.FuzzDriver.C71_others",
    "Verif.FuzzDriver.C71_skip",
    "Verif.FuzzDriver.C71_safe",
    "Verif.FuzzDriver.C71_reproduce",
    "Verif.FuzzDriver.C71_corpus_partial",
    "Verif.FuzzDriver.C71_corpus_files",
    "Verif.FuzzDriver.C71_corpus_turns",
    "Verif.FuzzDriver.C71_corpus_dumps",
    "Verif.FuzzDriver.C71_corpus_mutators",
    "Verif.FuzzDriver.C71_outside_window",
    "Verif.FuzzDriver.C71_one_input_ignored",
    "Verif.FuzzDriver.C71_one_input_offset",
    "Verif.FuzzDriver.C71_short_file",
    "Verif.FuzzDriver.C71_dump_after",
    "Verif.FuzzDriver.C71_copy_overread",
    "Verif.FuzzDriver.C71_copy_uninit",
    "Verif.FuzzDriver.C71_copy_grown",
    "Verif.FuzzDriver.C71_corpus_short",
    "Verif.FuzzDriver.C71_corpus_once",
    "Verif.FuzzDriver.C71_corpus_exhausted",
    "Verif.FuzzDriver.C71_corpus_stuck"
   ],
   "note": "without a corpus the iterations, the end of the pass, the shadow, the memory and the reproduction of an input are proved for every run; with a corpus, when the whole buffer is mutated, no file is larger than the buffer and one can be read: with an offset or a fixed size the new mutators are started on bytes out of bounds or never written; bytes outside the mutated part are not put back; -fuzz_one_input is ignored or misplaced with some options; a corpus without an iteration limit is run once"
  },
  {
   "property": "C72",
   "status": "partial",
   "theorems": [
    "Verif.HandleCheck.C72_safe",
    "Verif.HandleCheck.C72_exit",
    "Verif.HandleCheck.C72_refs",
    "Verif.HandleCheck.C72_exact",
    "Verif.HandleCheck.C72_once",
    "Verif.HandleCheck.C72_reported",
    "Verif.HandleCheck.C72_level",
    "Verif.HandleCheck.C72_pairs",
    "Verif.HandleCheck.C72_similar",
    "Verif.HandleCheck.C72_unfiltered",
    "Verif.HandleCheck.C72_null",
    "Verif.HandleCheck.C72_list",
    "Verif.HandleCheck.C72_query_ok",
    "Verif.HandleCheck.C72_list_exact_lost",
    "Verif.HandleCheck.C72_list_other",
    "Verif.HandleCheck.C72_query_error",
    "Verif.HandleCheck.C72_count_close",
    "Verif.HandleCheck.C72_count_gone",
    "Verif.HandleCheck.C72_two_closes",
    "Verif.HandleCheck.C72_nudge_in_close"
   ],
   "note": "Memory safety of the reference counts is proved for all interleavings; what is reported is proved for the runs in which no two threads work on the same handle at once, and C72_two_closes shows that the restriction is needed. The count of similar handles is proved right if the call stack has closed nothing and no other process closed a handle; C72_count_close and C72_count_gone show it wrong otherwise. The choice of the process's entries in the system's list is proved as the code makes it; C72_list_exact_lost, C72_list_other and C72_query_error show where it is not the process's."
  },
  {
   "property": "C73",
   "status": "partial",
   "theorems": [
    "Verif.GdiCheck.C73_pairing",
    "Verif.GdiCheck.C73_exact",
    "Verif.GdiCheck.C73_once",
    "Verif.GdiCheck.C73_deleted_forgotten",
    "Verif.GdiCheck.C73_run",
    "Verif.GdiCheck.C73_region",
    "Verif.GdiCheck.C73_region_wraps",
    "Verif.GdiCheck.C73_own_dc",
    "Verif.GdiCheck.C73_own_dc_forgotten",
    "Verif.GdiCheck.C73_deleted_twice",
    "Verif.GdiCheck.C73_failed_delete",
    "Verif.GdiCheck.C73_handle_again",
    "Verif.GdiCheck.C73_stale_bitmap",
    "Verif.GdiCheck.C73_shared_pen",
    "Verif.GdiCheck.C73_nested_paint"
   ],
   "note": "The rules of pairing and threads are proved exact for every run in which device contexts are given up by calls that succeed and that are neither nested paints nor releases of a window's own device context; all rules are proved exact for the next call after a run that also selects no region, shares no object between device contexts and has left no object in a dead device context. The other theorems are runs that show each of these restrictions to be needed."
  },
  {
   "property": "C74",
   "status": "partial",
   "theorems": [
    "Verif.Wrap.C74_room",
    "Verif.Wrap.C74_apart",
    "Verif.Wrap.C74_alloc",
    "Verif.Wrap.C74_asks",
    "Verif.Wrap.C74_calloc_overflow",
    "Verif.Wrap.C74_free_arg",
    "Verif.Wrap.C74_keeps",
    "Verif.Wrap.C74_reports",
    "Verif.Wrap.C74_run",
    "Verif.Wrap.C74_quiet",
    "Verif.Wrap.C74_size",
    "Verif.Wrap.C74_memcpy",
    "Verif.Wrap.C74_memcpy_aligned",
    "Verif.Wrap.C74_chunk",
    "Verif.Wrap.C74_realloc",
    "Verif.Wrap.C74_realloc_else",
    "Verif.Wrap.C74_invalid_free_frees",
    "Verif.Wrap.C74_mismatch_lost",
    "Verif.Wrap.C74_size_null",
    "Verif.Wrap.C74_size_unknown",
    "Verif.Wrap.C74_size_unknown_wraps",
    "Verif.Wrap.C74_usable_redzone",
    "Verif.Wrap.C74_realloc_invalid",
    "Verif.Wrap.C74_realloc_null_warns",
    "Verif.Wrap.C74_realloc_new",
    "Verif.Wrap.C74_realloc_stale",
    "Verif.Wrap.C74_realloc_double_free",
    "Verif.Wrap.C74_realloc_zero_double_free",
    "Verif.Wrap.C74_realloc_preus"
   ],
   "note": "Proved for every run without a free of what is not owned, the last event of which may be one, and for redzones from 8 bytes to 256 MB. An invalid free is passed on to the allocator, after which nothing can be said (C74_invalid_free_frees). realloc is proved for the replacement, which is the default; for realloc as it is the claim is false (C74_realloc_stale). Blocks of memalign are not handled by the code. The counters that tell nested heap routines apart are not modelled."
  },
  {
   "property": "C75",
   "status": "partial",
   "theorems": [
    "Verif.FuzzTarget.C75_symbol",
    "Verif.FuzzTarget.C75_mangled",
    "Verif.FuzzTarget.C75_main",
    "Verif.FuzzTarget.C75_offset",
    "Verif.FuzzTarget.C75_no_separator",
    "Verif.FuzzTarget.C75_missing",
    "Verif.FuzzTarget.C75_not_a_number",
    "Verif.FuzzTarget.C75_convention",
    "Verif.FuzzTarget.C75_accepted",
    "Verif.FuzzTarget.C75_decimal",
    "Verif.FuzzTarget.C75_hexadecimal",
    "Verif.FuzzTarget.C75_stem",
    "Verif.FuzzTarget.C75_table",
    "Verif.FuzzTarget.C75_loaded_partial",
    "Verif.FuzzTarget.C75_options_later",
    "Verif.FuzzTarget.C75_later_lost",
    "Verif.FuzzTarget.C75_unloaded_lost",
    "Verif.FuzzTarget.C75_later_differs",
    "Verif.FuzzTarget.C75_plus_module",
    "Verif.FuzzTarget.C75_blank_module",
    "Verif.FuzzTarget.C75_index_unchecked",
    "Verif.FuzzTarget.C75_negative_args",
    "Verif.FuzzTarget.C75_junk",
    "Verif.FuzzTarget.C75_convention_wraps",
    "Verif.FuzzTarget.C75_option_convention"
   ],
   "note": "The reading is proved for every module name without '!', '+', bars and white space. That a target is fuzzed whenever its module is loaded is false for -fuzz_target: it is dropped if the module is not there at the start (C75_later_lost), so C75_loaded_partial assumes that it is; for the separate options it holds (C75_options_later). dr_get_token and dr_sscanf are of DynamoRIO, not in the repository, and are taken as described in FuzzTarget.lean, without quotes."
  },
  {
   "property": "C76",
   "status": "partial",
   "theorems": [
    "Verif.WrapNest.C76_counters",
    "Verif.WrapNest.C76_changed",
    "Verif.WrapNest.C76_untouched",
    "Verif.WrapNest.C76_taken_partial",
    "Verif.WrapNest.C76_kind_partial",
    "Verif.WrapNest.C76_inheap_partial",
    "Verif.WrapNest.C76_invalid_free_partial",
    "Verif.WrapNest.C76_nesting_partial",
    "Verif.WrapNest.C76_nesting_limit",
    "Verif.WrapNest.C76_twelve_deep",
    "Verif.WrapNest.C76_second_malloc",
    "Verif.WrapNest.C76_unwound_inheap",
    "Verif.WrapNest.C76_unwound_calloc",
    "Verif.WrapNest.C76_unwound_realloc",
    "Verif.WrapNest.C76_unwound_kind"
   ],
   "note": "The counters, the choice of the changed call and that no other result is touched are proved for all sequences, exceptions included. The full statement is false after an exception out of a heap routine (C76_unwound_*), for nests of twelve and more (C76_twelve_deep), and for the kind of the second block of one nest (C76_second_malloc); the partial theorems leave these out. One thread, Linux, without -conservative; drwrap is not in the repository."
  },
  {
   "property": "C77",
   "status": "partial",
   "theorems": [
    "Verif.SysReq.C77_request_partial",
    "Verif.SysReq.C77_other_request",
    "Verif.SysReq.C77_failed_partial",
    "Verif.SysReq.C77_get_name_failed",
    "Verif.SysReq.C77_set_name",
    "Verif.SysReq.C77_shm_set",
    "Verif.SysReq.C77_shm_info",
    "Verif.SysReq.C77_semctl",
    "Verif.SysReq.C77_semctl_missed",
    "Verif.SysReq.C77_semctl_all",
    "Verif.SysReq.C77_semctl_plain",
    "Verif.SysReq.C77_clone_parent",
    "Verif.SysReq.C77_clone_covered",
    "Verif.SysReq.C77_clone_values",
    "Verif.SysReq.C77_clone_unmarked",
    "Verif.SysReq.C77_values",
    "Verif.SysReq.C77_values_all",
    "Verif.SysReq.C77_values_prctl",
    "Verif.SysReq.C77_futex",
    "Verif.SysReq.C77_futex_requeue",
    "Verif.SysReq.C77_futex_private",
    "Verif.SysReq.C77_sigaction",
    "Verif.SysReq.C77_ifconf",
    "Verif.SysReq.C77_ipmi_send_partial",
    "Verif.SysReq.C77_ipmi_send_wrap",
    "Verif.SysReq.C77_ipmi_send_fault",
    "Verif.SysReq.C77_ipmi_receive",
    "Verif.SysReq.C77_sysctl",
    "Verif.SysReq.C77_sysctl_fault",
    "Verif.SysReq.C77_ioctl_null"
   ],
   "note": "Exact for msgctl, _sysctl, SIOCGIFCONF, most of shmctl and prctl, and for what rt_sigaction checks. The full statement is false for semctl on x86-64 (the parameter is taken for a pointer to the union; GETALL and SETALL overwrite the tool's stack), shmctl IPC_SET (direction reversed) and SHM_INFO (size), clone (parameters of 32-bit x86), PR_SET_NAME, PR_GET_NAME that failed, private futex operations, the structure of a received IPMI message, and the unused values of semctl, msgctl and shmctl; the theorems say what happens instead."
  },
  {
   "property": "C78",
   "status": "partial",
   "theorems": [
    "Verif.Ltrace.C78_split",
    "Verif.Ltrace.C78_fields",
    "Verif.Ltrace.C78_last_empty",
    "Verif.Ltrace.C78_type_partial",
    "Verif.Ltrace.C78_type_other",
    "Verif.Ltrace.C78_hmodule",
    "Verif.Ltrace.C78_tab",
    "Verif.Ltrace.C78_line",
    "Verif.Ltrace.C78_refused",
    "Verif.Ltrace.C78_file_partial",
    "Verif.Ltrace.C78_one_bad_line",
    "Verif.Ltrace.C78_overrun",
    "Verif.Ltrace.C78_name_blank",
    "Verif.Ltrace.C78_name_case",
    "Verif.Ltrace.C78_items",
    "Verif.Ltrace.C78_left_out",
    "Verif.Ltrace.C78_value",
    "Verif.Ltrace.C78_pointee",
    "Verif.Ltrace.C78_string",
    "Verif.Ltrace.C78_char_value",
    "Verif.Ltrace.C78_size_zero",
    "Verif.Ltrace.C78_source_partial",
    "Verif.Ltrace.C78_none",
    "Verif.Ltrace.C78_limit_unknown",
    "Verif.Ltrace.C78_table_partial",
    "Verif.Ltrace.C78_table_unset"
   ],
   "note": "Proved for every file of text whose size is not a whole number of pages and every type but HMODULE. The full statement is false: one line that is not understood (a function without arguments, a line of blanks, an indented comment) discards the whole file; blanks in names and tabs in types are kept; names are compared without regard to case on Linux too; a file of a whole number of pages is read beyond its end; a char passed by value is followed as a pointer; a size_t of zero prints as a null pointer on Linux; -num_max_args does not limit arguments printed without types; with -num_max_args 0 a table that was never set up is deleted at exit. The theorems say what happens instead."
  },
  {
   "property": "C79",
   "status": "partial",
   "theorems": [
    "Verif.Mapping.C79_history_partial",
    "Verif.Mapping.C79_mmap_partial",
    "Verif.Mapping.C79_tail",
    "Verif.Mapping.C79_mmap_heap",
    "Verif.Mapping.C79_failed",
    "Verif.Mapping.C79_succeeded",
    "Verif.Mapping.C79_munmap_partial",
    "Verif.Mapping.C79_unmap_tail",
    "Verif.Mapping.C79_fail_defines",
    "Verif.Mapping.C79_zero",
    "Verif.Mapping.C79_unmap_file",
    "Verif.Mapping.C79_unmap_free",
    "Verif.Mapping.C79_walk",
    "Verif.Mapping.C79_walk_remove_partial",
    "Verif.Mapping.C79_file_partial",
    "Verif.Mapping.C79_file_merged",
    "Verif.Mapping.C79_remap_kept",
    "Verif.Mapping.C79_remap_shrunk",
    "Verif.Mapping.C79_over_one",
    "Verif.Mapping.C79_fail_image",
    "Verif.Mapping.C79_moved",
    "Verif.Mapping.C79_grown",
    "Verif.Mapping.C79_grown_image",
    "Verif.Mapping.C79_remap_else",
    "Verif.Mapping.C79_remap_file",
    "Verif.Mapping.C79_stack_large",
    "Verif.Mapping.C79_stack_across",
    "Verif.Mapping.C79_stack_partial",
    "Verif.Mapping.C79_stack_none",
    "Verif.Mapping.C79_stack_next",
    "Verif.Mapping.C79_stack_query",
    "Verif.Mapping.C79_stack_malloc",
    "Verif.Mapping.C79_names",
    "Verif.Mapping.C79_names_longer",
    "Verif.Mapping.C79_names_empty",
    "Verif.Mapping.C79_names_long",
    "Verif.Mapping.C79_names_else"
   ],
   "note": "Proved for every history of anonymous mappings in whole pages, over free memory, unmapping mapped memory and remapping in place; for modules of any number of ranges; for stacks inside a tracked mapping. The full statement is false: sizes are not rounded to pages; a failed munmap marks its range defined and one of size zero makes the mapping unaddressable; unmapping part of a file marks the rest of it; unmapping free memory marks memory beyond it; a moved mapping leaves its old place addressable; grown bytes are undefined; a stack pointer at the end of a mapping finds the wrong range; a small stack from the allocator is not found; names match by prefix. The theorems say what happens instead."
  },
  {
   "property": "C80",
   "status": "partial",
   "theorems": [
    "Verif.Strace.C80_pointer",
    "Verif.Strace.C80_struct_else",
    "Verif.Strace.C80_struct_partial",
    "Verif.Strace.C80_padding",
    "Verif.Strace.C80_overlaid",
    "Verif.Strace.C80_union",
    "Verif.Strace.C80_array",
    "Verif.Strace.C80_no_fault_partial",
    "Verif.Strace.C80_no_abort_partial",
    "Verif.Strace.C80_too_big",
    "Verif.Strace.C80_known_fault",
    "Verif.Strace.C80_null_fault",
    "Verif.Strace.C80_string",
    "Verif.Strace.C80_known_values",
    "Verif.Strace.C80_little_endian",
    "Verif.Strace.C80_exact_partial",
    "Verif.Strace.C80_flags_partial",
    "Verif.Strace.C80_high",
    "Verif.Strace.C80_zero_named",
    "Verif.Strace.C80_value_shown",
    "Verif.Strace.C80_which",
    "Verif.Strace.C80_simple_partial",
    "Verif.Strace.C80_pointee_big",
    "Verif.Strace.C80_not_shown",
    "Verif.Strace.C80_struct_when",
    "Verif.Strace.C80_known_iff"
   ],
   "note": "Proved: which arguments are printed when; values and names for constants below 2^31 or with 32-bit pointers; structures of any nesting without padding; that types without the four known structures never make the tracer fault and types with fields of at most eight bytes never end the application. The full statement is false: padding is ignored and bit fields are all read at the start; the known structures are read without protection; values of more than eight bytes abort; inlined values of other types are not shown; on 64 bits constants with the top bit are never named; zero constants are named in every combination. The theorems say what happens instead."
  },
  {
   "property": "C81",
   "status": "partial",
   "theorems": [
    "Verif.Transfer.C81_deliver_partial",
    "Verif.Transfer.C81_big_frame",
    "Verif.Transfer.C81_deliver_keeps",
    "Verif.Transfer.C81_return_partial",
    "Verif.Transfer.C81_big_return",
    "Verif.Transfer.C81_round_partial",
    "Verif.Transfer.C81_redzone",
    "Verif.Transfer.C81_leftover",
    "Verif.Transfer.C81_off",
    "Verif.Transfer.C81_alt_return_partial",
    "Verif.Transfer.C81_nested",
    "Verif.Transfer.C81_alt_deliver",
    "Verif.Transfer.C81_alt_history_partial",
    "Verif.Transfer.C81_autodisarm",
    "Verif.Transfer.C81_alt_defined",
    "Verif.Transfer.C81_alt_unaddr",
    "Verif.Transfer.C81_alt_outside_partial",
    "Verif.Transfer.C81_ki_partial",
    "Verif.Transfer.C81_ki_base",
    "Verif.Transfer.C81_ki_long",
    "Verif.Transfer.C81_callback_partial",
    "Verif.Transfer.C81_adjust",
    "Verif.Transfer.C81_continue_partial",
    "Verif.Transfer.C81_continue_high",
    "Verif.Transfer.C81_continue_stack",
    "Verif.Transfer.C81_client_partial",
    "Verif.Transfer.C81_client_big",
    "Verif.Transfer.C81_client_dealloc",
    "Verif.Transfer.C81_client_round"
   ],
   "note": "Proved for frames of at most 1024 bytes (signals; the round trip without a red zone) and 32 KiB (Windows), with the round trip of callbacks and of the tool's allocator, and the alternate stack by induction over calls. The full statement is false: larger signal frames are marked in part and not given back; on return the red zone of the interrupted code becomes unaddressable and that of the handler stays addressable; a nested signal on the alternate stack takes away the stack of the outer handler; the alternate stack is marked the wrong way round and also by failed calls; SS_AUTODISARM is not considered; r8 to r15 are forgotten by NtContinue. The theorems say what happens instead."
  },
  {
   "property": "C82",
   "status": "partial",
   "theorems": [
    "Verif.Except.C82_probe",
    "Verif.Except.C82_string",
    "Verif.Except.C82_fault",
    "Verif.Except.C82_tls_slot",
    "Verif.Except.C82_tls_exp_partial",
    "Verif.Except.C82_tls_exp_high",
    "Verif.Except.C82_heap_routine",
    "Verif.Except.C82_windows",
    "Verif.Except.C82_linux",
    "Verif.Except.C82_windows_fault",
    "Verif.Except.C82_linux_fault",
    "Verif.Except.C82_effects",
    "Verif.Except.C82_probe_anywhere",
    "Verif.Except.C82_prefetch",
    "Verif.Except.C82_lock",
    "Verif.Except.C82_other_code",
    "Verif.Except.C82_aligned_load",
    "Verif.Except.C82_magic64",
    "Verif.Except.C82_word_report",
    "Verif.Except.C82_word_hole",
    "Verif.Except.C82_build",
    "Verif.Except.C82_region",
    "Verif.Except.C82_unknown",
    "Verif.Except.C82_known"
   ],
   "note": "The decision is characterised exactly for Windows and Linux, with its effects, the table of probes and the marking of unknown regions. The full statement is false: a probe is excused wherever it points and not only on the stack; expansion slots from 128 (64-bit) or 256 on are not recognised; a string routine's load with an unaddressable byte between good ones is excused, and a wholly bad word is reported for one byte only; in 64-bit builds the constants of the string routines are not recognised; and the tool reads four bytes of code without a guard. The theorems say what happens instead."
  },
  {
   "property": "C83",
   "status": "partial",
   "theorems": [
    "Verif.Uninit.C83_result_partial",
    "Verif.Uninit.C83_result_float",
    "Verif.Uninit.C83_result_only",
    "Verif.Uninit.C83_result_listed",
    "Verif.Uninit.C83_reg",
    "Verif.Uninit.C83_reg_syscall",
    "Verif.Uninit.C83_reg_low",
    "Verif.Uninit.C83_reg_strlen",
    "Verif.Uninit.C83_reg_other",
    "Verif.Uninit.C83_target",
    "Verif.Uninit.C83_mem",
    "Verif.Uninit.C83_mem_effect",
    "Verif.Uninit.C83_dest_partial",
    "Verif.Uninit.C83_dest_lea",
    "Verif.Uninit.C83_dest_slot",
    "Verif.Uninit.C83_store",
    "Verif.Uninit.C83_store_stale",
    "Verif.Uninit.C83_open",
    "Verif.Uninit.C83_store_other",
    "Verif.Uninit.C83_zero",
    "Verif.Uninit.C83_relocate",
    "Verif.Uninit.C83_far",
    "Verif.Uninit.C83_addr",
    "Verif.Uninit.C83_two_loads"
   ],
   "note": "The decisions are characterised exactly, with their effects. Results taken for defined do not depend on the operands and all such integer results are, except that subps and subpd of a register with itself do depend on it. A copy restores the marked byte and takes the definedness of the source. The full statement is false: the inlined strlen of mingw is excused with every byte undefined; the limit on the distance of load and store has no effect; a second load in between is mistaken for the first; the destination is wrong after a lea or a write to the stack slot, and as long as the store does not reach the slow path every undefined read of the thread is excused; and a byte's shadow is put back even if it changed meanwhile. The theorems say what happens instead."
  },
  {
   "property": "C84",
   "status": "partial",
   "theorems": [
    "Verif.Walk.C84_retaddr",
    "Verif.Walk.C84_retaddr_unreadable",
    "Verif.Walk.C84_call_partial",
    "Verif.Walk.C84_call_missed",
    "Verif.Walk.C84_call_loose",
    "Verif.Walk.C84_low",
    "Verif.Walk.C84_scan",
    "Verif.Walk.C84_other_stack",
    "Verif.Walk.C84_ends",
    "Verif.Walk.C84_unique",
    "Verif.Walk.C84_frames",
    "Verif.Walk.C84_max_partial",
    "Verif.Walk.C84_step",
    "Verif.Walk.C84_chain",
    "Verif.Walk.C84_chain_same",
    "Verif.Walk.C84_overflow",
    "Verif.Walk.C84_self",
    "Verif.Walk.C84_follow",
    "Verif.Walk.C84_scanned",
    "Verif.Walk.C84_stops",
    "Verif.Walk.C84_restart",
    "Verif.Walk.C84_skip",
    "Verif.Walk.C84_more",
    "Verif.Walk.C84_start",
    "Verif.Walk.C84_cache_hit",
    "Verif.Walk.C84_cache_miss",
    "Verif.Walk.C84_cache_store",
    "Verif.Walk.C84_word",
    "Verif.Walk.C84_scan_above",
    "Verif.Walk.C84_lowest",
    "Verif.Walk.C84_lowest_exact",
    "Verif.Walk.C84_lowest_grows",
    "Verif.Walk.C84_lowest_lost"
   ],
   "note": "The walk always ends, for every memory, table and history of the cache, and lists strictly increasing places of the stack; a chain of frames is listed exactly; every decision of the walk and of the scan is characterised. The full statement is false in three places, for which the theorems say what happens: calls with a SIB byte and a displacement (and a direct call to the next instruction) are not recognised, and some bytes that are no call are; if the caller's frame fills the array (-callstack_max_frames 1) one frame is written past its end; and above the lowest known frame of the thread, as on another stack at higher addresses, nothing is scanned except at the top."
  },
  {
   "property": "C85",
   "status": "partial",
   "theorems": [
    "Verif.Annot.C85_requests_partial",
    "Verif.Annot.C85_order",
    "Verif.Annot.C85_accepted",
    "Verif.Annot.C85_no_uninit",
    "Verif.Annot.C85_no_shadow",
    "Verif.Annot.C85_wraps"
   ],
   "note": "Proved by induction for all sequences of requests whose ranges end inside the address space, on top of the two-bit shadow memory of C09. The full statement is false: a range that reaches the end of the address space wraps and nothing is marked (C85_wraps). How DynamoRIO recognises a request, and the search for leaks itself (C28), are not part of it."
  },
  {
   "property": "C86",
   "status": "partial",
   "theorems": [
    "Verif.Target.C86_cross_partial",
    "Verif.Target.C86_same",
    "Verif.Target.C86_unknown",
    "Verif.Target.C86_off",
    "Verif.Target.C86_stub",
    "Verif.Target.C86_bnd",
    "Verif.Target.C86_target",
    "Verif.Target.C86_no_symbols",
    "Verif.Target.C86_pointer",
    "Verif.Target.C86_other",
    "Verif.Target.C86_stub_start",
    "Verif.Target.C86_misread",
    "Verif.Target.C86_unreadable",
    "Verif.Target.C86_only_cross",
    "Verif.Target.C86_scan",
    "Verif.Target.C86_cross_flag",
    "Verif.Target.C86_stub_pointer"
   ],
   "note": "The decision is characterised exactly for the flags Dr. Memory sets, for every memory, module table and symbol table, against a separate description of calls and stubs. The full statement is false in the code: stubs with a bnd prefix are not recognised (C86_bnd), a short indirect call after a byte e8 is taken for a direct one (C86_misread), without symbols every direct call is refused (C86_no_symbols), the pointer of a stub is read six bytes too low (C86_stub_start), and targets in other modules are not verified (C86_cross_partial). FP_VERIFY_CROSS_MODULE_TARGET, which Dr. Memory never sets, is covered by C86_only_cross and C86_unknown; across modules it does not verify calls through stubs (C86_cross_flag)."
  }
 ]
}