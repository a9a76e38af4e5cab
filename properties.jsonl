{"id": "C01", "title": "Wildcard matching decides exactly the glob language", "statement": "A text matches a wildcard pattern (as used by suppressions, -lib_blocklist, -check_uninit_blocklist, ...) iff the text can be obtained from the pattern by replacing each '*' by some string and each '?' by exactly one character (letters compared case-insensitively when ignore_case is requested). The matcher always terminates and never reads outside the two strings.", "quantifier": "for every text, every pattern, both values of ignore_case", "why_tests_cant": "Backtracking over several '*' has unboundedly many interleavings; a test samples a few patterns, while a single wrong restart position would silently drop or over-apply suppressions.", "anchors": ["common/utils.c:text_matches_pattern"]}
{"id": "C02", "title": "Pattern lists match iff some member matches", "statement": "Matching a text against a null-separated, double-null-terminated list of patterns is true iff the text matches at least one listed pattern, and the matched member reported is the first one that matches.", "quantifier": "for every text and every list (any length) of non-empty patterns", "why_tests_cant": "The list is an in-memory encoding with an early terminator; only a proof over all lists shows no element is skipped and the scan never runs past the terminator.", "anchors": ["common/utils.c:text_matches_any_pattern", "common/utils.c:text_contains_any_string"]}
{"id": "C03", "title": "Bounded and case-insensitive search find the first occurrence", "statement": "strcasestr(text, pat) returns the smallest offset at which pat occurs in text up to letter case, and NULL iff it occurs nowhere; strnchr(s,c,n) returns the smallest offset < n of c that is not beyond the terminator, and NULL iff there is none, reading at most n bytes.", "quantifier": "for every text, pattern, character and bound", "why_tests_cant": "Restart logic after a partial match is the classic bug of hand-written substring search; no finite test set covers all self-overlapping patterns.", "anchors": ["common/utils_shared.c:strcasestr", "common/utils_shared.c:strnchr"]}
{"id": "C04", "title": "Line iteration over a mapped file visits each line once and stays inside the file", "statement": "Walking a memory-mapped file with find_next_line until the returned position reaches end-of-file visits every non-empty line's text exactly once in order, trims only CR and (when asked) surrounding blanks, and never reads outside the mapping.", "quantifier": "for every file content and every start position at a line start", "why_tests_cant": "Depends on every placement of CR, LF, blanks and end-of-file; the failing cases sit at buffer boundaries where a test usually still reads mapped memory.", "anchors": ["common/utils_shared.c:find_next_line"]}
{"id": "C05", "title": "A suppression applies exactly to the callstacks it describes", "statement": "A suppression specification (frames, module wildcards, '...' ellipses) suppresses an error callstack iff the specification describes a prefix of it: every ordinary frame line matches one consecutive frame, each plain ellipsis absorbs zero or more frames, and a module ellipsis absorbs one or more frames, all in the named module.", "quantifier": "for every specification and every callstack", "why_tests_cant": "Backtracking matcher with several ellipses; incorrect suppression hides real bugs and can only be excluded by reasoning over all specifications and stacks.", "anchors": ["drmemory/report.c:stack_matches_suppression", "drmemory/report.c:top_frame_matches_suppression_frame"]}
{"id": "C06", "title": "A suppression generated for an error suppresses that same error", "statement": "The suppression text Dr. Memory writes for a reported error, when read back, matches the callstack of that error (both the mod!func and the mod+offs form).", "quantifier": "for every callstack of any length and content of frames", "why_tests_cant": "Round trip over writer, parser, and matcher; special characters, truncation limits and missing symbols are only covered by a proof over all stacks.", "anchors": ["drmemory/report.c:write_suppress_pattern", "drmemory/report.c:suppress_spec_add_frame", "drmemory/report.c:read_suppression_file", "drmemory/report.c:stack_matches_suppression"]}
{"id": "C07", "title": "Suppressions are only applied to errors of their own type", "statement": "An error is suppressed only if some loaded suppression of the same error type matches it (leak subtypes may also be suppressed by the general LEAK type); adding suppressions never un-suppresses an error, and the first matching one in list order gets the hit count.", "quantifier": "for every set of loaded suppressions and every error", "why_tests_cant": "Quantifies over arbitrary suppression lists and error types.", "anchors": ["drmemory/report.c:on_suppression_list", "drmemory/report.c:on_suppression_list_helper", "drmemory/report.c:get_suppress_type"]}
{"id": "C08", "title": "Byte-granular shadow state is an exact map from addresses to states", "statement": "After any sequence of single-byte shadow writes, reading the shadow state of any byte returns the last state written for that byte, regardless of writes to neighbouring bytes packed into the same shadow byte.", "quantifier": "for every sequence of writes and every address", "why_tests_cant": "Four application bytes share one shadow byte; an error in a shift or mask shows up only for particular neighbour values.", "anchors": ["drmemory/shadow.c:shadow_get_byte", "drmemory/shadow.c:shadow_set_byte", "drmemory/shadow.c:bitmapx2_get", "drmemory/shadow.c:bitmapx2_set"]}
{"id": "C09", "title": "Setting a shadow range changes exactly that range", "statement": "Marking [start,end) with a state makes every byte of [start,end) have that state and leaves the state of every other byte unchanged.", "quantifier": "for every start, end, value and prior shadow contents", "why_tests_cant": "The implementation switches between bit-wise, byte-wise, and block-wise writes depending on alignment; corner combinations are unbounded.", "anchors": ["drmemory/shadow.c:shadow_set_range"]}
{"id": "C10", "title": "Range check reports the first byte that differs", "statement": "Checking that [start,start+size) all has an expected state returns true iff every byte has it, and otherwise reports the first differing byte, its state, and the end of the bad run.", "quantifier": "for every start, size, expected state and shadow contents", "why_tests_cant": "A scan with a fast path can silently skip bytes; missed bytes are missed unaddressable/uninitialized errors.", "anchors": ["drmemory/shadow.c:shadow_check_range", "drmemory/shadow.c:shadow_check_range_backward"]}
{"id": "C11", "title": "Copying shadow for a moved block reproduces the source state", "statement": "After copying the shadow of [old,old+size) to [new,new+size), every destination byte's state equals the source byte's state before the copy and every byte outside the destination keeps its state.", "quantifier": "for every old, new, size (aligned or not, overlapping or not) and shadow contents", "why_tests_cant": "Aligned bulk copy plus unaligned head and tail; every relative alignment and overlap has to be right.", "anchors": ["drmemory/shadow.c:shadow_copy_range", "umbra/umbra_64.c:umbra_copy_range_arch"]}
{"id": "C12", "title": "Shadow lookup tables used by the fast path are correct for every shadow value", "statement": "For every shadow byte value the precomputed tables answer exactly: is every byte addressable, is any byte partially defined, which definedness does a sub-access have, and what is the combined value of two or four packed states.", "quantifier": "for all 256 (or fewer) table indices, each table", "why_tests_cant": "Tables are hand-written; a single wrong entry affects only one state combination out of 256.", "anchors": ["drmemory/shadow.c:shadow_dword_is_addressable", "drmemory/shadow.c:shadow_dword_is_addr_not_bit", "drmemory/shadow.c:shadow_2_to_dword", "drmemory/shadow.c:shadow_4_to_dword", "drmemory/shadow.c:shadow_byte_defined", "drmemory/shadow.c:shadow_word_defined", "drmemory/shadow.c:shadow_byte_addr_not_bit", "drmemory/shadow.c:shadow_word_addr_not_bit"]}
{"id": "C13", "title": "Application and shadow addresses translate without collision", "statement": "On 64-bit, translating application addresses to shadow addresses never maps two application addresses of supported regions that lie in different shadow units to the same shadow address, never lands in an application region, and the reverse address translation used for faults is its inverse.", "quantifier": "for every pair of application addresses in the supported address-space layout and every scale", "why_tests_cant": "2^47 addresses; collisions show up only between particular distant modules.", "anchors": ["umbra/umbra_64.c", "umbra/umbra_private.h", "umbra/umbra.h"]}
{"id": "C14", "title": "Umbra range reads and writes address exactly the requested bytes", "statement": "umbra_read_shadow_memory/umbra_write_shadow_memory for an application range of any size, crossing any number of shadow blocks, touch exactly the shadow of that range in order; umbra_shadow_set_range sets exactly the range.", "quantifier": "for every application address, size and block layout", "why_tests_cant": "Per-block loop with boundary arithmetic; only boundary-exact sizes fail.", "anchors": ["umbra/umbra_64.c", "umbra/umbra_private.h:APP_RANGE_LOOP"]}
{"id": "C15", "title": "The interval tree behaves like a finite map of disjoint intervals", "statement": "After any sequence of insertions and deletions of non-empty intervals, looking up an address returns exactly the stored interval that contains it (and its client data) and nothing if none does; inserting an overlapping interval is rejected and returns the existing one; iteration visits the intervals in increasing order, each once.", "quantifier": "for every sequence of insert/delete/lookup operations and every address", "why_tests_cant": "Rebalancing rotations depend on the whole history; unit tests cover small trees only.", "anchors": ["common/redblack.c:rb_insert", "common/redblack.c:rb_delete", "common/redblack.c:rb_find", "common/redblack.c:rb_in_node", "common/redblack.c:rb_overlaps_node", "common/redblack.c:rb_iterate"]}
{"id": "C16", "title": "The interval tree stays balanced", "statement": "After any history of operations a tree with n intervals has height at most 2*log2(n+1), so lookups on the allocation path stay logarithmic.", "quantifier": "for every operation sequence", "why_tests_cant": "A colour-invariant violation keeps lookups correct but degrades performance only after particular deletion patterns.", "anchors": ["common/redblack.c:rb_insert", "common/redblack.c:rb_delete", "common/redblack.c:rb_delete_fixup"]}
{"id": "C17", "title": "Nearest-interval queries return the nearest interval", "statement": "Asking for the next interval above (below) an address returns the stored interval with the smallest base greater than (largest base less than) the address and nothing iff there is none.", "quantifier": "for every tree and every address", "why_tests_cant": "Wrong answers need particular tree shapes.", "anchors": ["common/redblack.c:rb_next_higher_node", "common/redblack.c:rb_next_lower_node", "common/redblack.c:rb_max_node", "common/redblack.c:rb_min_node"]}
{"id": "C18", "title": "Heap region tracking equals the set of added minus removed bytes", "statement": "After any sequence of heap region additions and removals (as emitted by the allocator interception), an address is considered in a heap region iff it was added and not removed since, and its flags are those it was added with.", "quantifier": "for every operation sequence respecting the documented non-overlap contract, every address", "why_tests_cant": "Removal splits regions; correctness over all relative positions and histories is not testable.", "anchors": ["common/heap.c:heap_region_add", "common/heap.c:heap_region_remove", "common/heap.c:heap_region_bounds", "common/heap.c:is_in_heap_region"]}
{"id": "C19", "title": "Anonymous mapping tracking equals the union of mapped minus unmapped ranges", "statement": "After any sequence of anonymous mmap and munmap events an address is reported as inside an anonymous mapping iff it is in the union of mapped ranges not since unmapped.", "quantifier": "for every sequence of map/unmap events with arbitrary overlaps, every address", "why_tests_cant": "Merging of overlapping ranges depends on arbitrary prior layouts.", "anchors": ["drmemory/alloc_drmem.c:mmap_tree_add", "drmemory/alloc_drmem.c:mmap_tree_remove", "drmemory/alloc_drmem.c:mmap_anon_lookup"]}
{"id": "C20", "title": "The replacement allocator never hands out overlapping memory", "statement": "After any sequence of malloc, memalign, realloc and free calls, all live blocks are pairwise disjoint, separated by the header and redzones, lie inside the arena, are at least as large as requested, and aligned as requested.", "quantifier": "for every sequence of allocator calls with any sizes and alignments", "why_tests_cant": "Splitting, coalescing, delay-list eviction, and arena growth interact over unbounded histories.", "anchors": ["common/alloc_replace.c:replace_alloc_common", "common/alloc_replace.c:replace_free_common", "common/alloc_replace.c:find_free_list_entry", "common/alloc_replace.c:split_piece_for_free_list", "common/alloc_replace.c:coalesce_adjacent_frees"]}
{"id": "C21", "title": "Freed memory is quarantined in first-in-first-out order", "statement": "In the replacement allocator a freed block is not reused until at least as many later frees have happened as the delay-free limit demands (or the byte limit is exceeded), blocks leave the quarantine oldest first, and the counters equal the actual number and size of the quarantined blocks.", "quantifier": "for every sequence of allocator calls and every limit", "why_tests_cant": "Use-after-free detection relies on it for every history.", "anchors": ["common/alloc_replace.c:add_to_delay_list", "common/alloc_replace.c:shift_from_delay_list_to_free_list", "common/alloc_replace.c:replace_free_common"]}
{"id": "C22", "title": "Invalid and double frees are rejected and leave the heap unchanged", "statement": "Freeing a pointer that is not the start of a live block (never allocated, interior, already freed) is reported as an invalid heap argument and changes no allocator state; freeing a live block makes exactly that block non-live.", "quantifier": "for every reachable heap state and every pointer", "why_tests_cant": "Quantifies over all heap states and all pointer values.", "anchors": ["common/alloc_replace.c:is_live_alloc", "common/alloc_replace.c:replace_free_common", "common/alloc_replace.c:is_valid_chunk"]}
{"id": "C23", "title": "An allocation is at least as large as the request, or fails", "statement": "Whenever the replacement malloc/calloc/memalign returns non-NULL, the usable size of the block is at least the requested size; requests that cannot be represented fail.", "quantifier": "for every request size, alignment", "why_tests_cant": "The failing sizes are within a few bytes of the 32-bit limit.", "anchors": ["common/alloc_replace.c:replace_alloc_common", "common/alloc_replace.c:replace_calloc", "common/utils.h:unsigned_multiply_will_overflow"]}
{"id": "C24", "title": "Free-list buckets are size-ordered and searched without missing a fit", "statement": "A free block is kept in the bucket of the largest class not exceeding its size; an allocation request is served from the free lists whenever some free block in a class guaranteed to fit (or any block in the largest class that fits) exists, and a returned block is always large enough.", "quantifier": "for every free-list content and every request size", "why_tests_cant": "Quantifies over all list contents and all sizes; classes have special pivot start.", "anchors": ["common/alloc_replace.c:bucket_index", "common/alloc_replace.c:find_free_list_entry", "common/alloc_replace.c:search_free_list_bucket", "common/alloc_replace.c:add_to_free_list"]}
{"id": "C25", "title": "realloc preserves contents", "statement": "A successful realloc to size n returns a block whose first min(n, old size) bytes equal the old block's, keeps the old block untouched if it fails, and updates shadow state so that preserved bytes keep their state, grown bytes are undefined (defined when zeroed) and the abandoned bytes become unaddressable.", "quantifier": "for every heap state, pointer and size", "why_tests_cant": "In-place vs move decision and shadow copying over all sizes and overlaps.", "anchors": ["common/alloc_replace.c:replace_realloc_common", "drmemory/alloc_drmem.c:client_handle_realloc"]}
{"id": "C26", "title": "Heap iteration reports every live allocation exactly once", "statement": "Iterating the replacement heap visits each live block exactly once in address order with its base and requested size, and no freed block.", "quantifier": "for every reachable heap state", "why_tests_cant": "Walk relies on chunk-size chaining that every operation has to preserve.", "anchors": ["common/alloc_replace.c:alloc_iterate", "common/alloc_replace.c:alloc_iter_own_arena", "common/alloc_replace.c:replace_size_common"]}
{"id": "C27", "title": "Delayed frees in wrapping mode are neither lost nor released early", "statement": "In the wrapping allocator mode every freed block is passed to the application's free exactly once: either it is still in the delay queue or it has been released; the byte count equals the sum of the queued sizes and blocks leave oldest first.", "quantifier": "for every sequence of frees with any sizes and limits", "why_tests_cant": "The circular buffer with two limits has wrap-around states only reached by long histories.", "anchors": ["drmemory/alloc_drmem.c:client_handle_free", "drmemory/alloc_drmem.c:next_to_free", "drmemory/alloc_drmem.c:client_handle_heap_destroy"]}
{"id": "C28", "title": "Leak scan marks exactly the blocks reachable from roots", "statement": "At a leak scan a heap block is not reported as a leak iff there is a chain of head pointers (aligned, in defined memory) from a root (register, non-heap writable memory) through blocks to its start; blocks reachable only through mid-block pointers are reported as possible leaks.", "quantifier": "for every heap graph (any number of blocks, cycles, self-pointers, mid-block pointers)", "why_tests_cant": "Graph algorithm over arbitrary heaps; unit tests have a handful of graph shapes.", "anchors": ["drmemory/leak.c:leak_scan_for_leaks", "drmemory/leak.c:check_reachability_pointer", "drmemory/leak.c:check_reachability_helper"]}
{"id": "C29", "title": "Indirect leak bytes are attributed exactly once", "statement": "Each unreachable block is counted either as a direct leak or in the indirect bytes of exactly one direct leak, so that total direct+indirect bytes reported equal the total size of unreachable blocks, and cyclic structures still have exactly one direct leak.", "quantifier": "for every unreachable subgraph and every scan order", "why_tests_cant": "Cycle handling and re-parenting over arbitrary graphs and visit orders.", "anchors": ["drmemory/leak.c:mark_indirect", "drmemory/leak.c:malloc_iterate_cb"]}
{"id": "C30", "title": "Packed callstack frames decode to the same module and offset", "statement": "Storing a callstack in packed form and decoding it returns for each frame the same address, module name and offset that were recorded.", "quantifier": "for every module set, frame address and module offset", "why_tests_cant": "24-bit offset / 8-bit index packing with overflow escape; only particular offsets fail.", "anchors": ["common/callstack.c:packed_callstack_record", "common/callstack.c:packed_callstack_frame_modinfo", "common/callstack.c:address_to_frame"]}
{"id": "C31", "title": "Equal callstacks are stored once and compare consistently", "statement": "Two packed callstacks compare equal iff they have the same number of frames and the same frames; equal callstacks have equal hashes; interning returns an equal stored callstack and reference counts equal the number of holders, so storage is released exactly when the last holder releases it.", "quantifier": "for every pair of callstacks and every history of add/clone/free", "why_tests_cant": "Hash/equality consistency and refcounts over all histories.", "anchors": ["common/callstack.c:packed_callstack_cmp", "common/callstack.c:packed_callstack_hash", "common/callstack.c:packed_callstack_add_to_table", "common/callstack.c:packed_callstack_free"]}
{"id": "C32", "title": "Module lookup caches never return stale modules", "statement": "After any history of module loads, unloads and lookups, looking up an address gives the module currently loaded at the address, if any, irrespective of the caches.", "quantifier": "for every history of load/unload/lookup events", "why_tests_cant": "Cache invalidation bugs need particular interleavings.", "anchors": ["common/callstack.c:module_lookup", "common/callstack.c:callstack_module_load", "common/callstack.c:callstack_module_unload", "common/callstack.c:is_in_module"]}
{"id": "C33", "title": "The symbol cache file round-trips", "statement": "Saving the symbol cache of a module and loading it back yields, for every symbol, the same list of offsets in the same order (including negative entries).", "quantifier": "for every set of symbols and offsets", "why_tests_cant": "Text format with separators; particular symbol characters and lengths break it.", "anchors": ["drsymcache/drsymcache.c:symcache_write_symfile", "drsymcache/drsymcache.c:symcache_read_symfile", "drsymcache/drsymcache.c:symcache_symbol_add"]}
{"id": "C34", "title": "The symbol cache returns the offsets that were added", "statement": "After any sequence of additions for a symbol, a lookup returns exactly the distinct offsets added, in order of first addition, with the negative entry (offset 0) replaced by the first positive result.", "quantifier": "for every sequence of additions", "why_tests_cant": "Array growth and duplicate elimination over unbounded sequences.", "anchors": ["drsymcache/drsymcache.c:symcache_symbol_add", "drsymcache/drsymcache.c:drsymcache_lookup"]}
{"id": "C35", "title": "Ordered bit-flip fuzzing enumerates every input exactly once", "statement": "With the ordered bit-flip algorithm, seed-centric flags and sparsity 1, successive mutations produce every buffer different from the seed exactly once, by increasing number of flipped bits, and then report exhaustion.", "quantifier": "for every buffer size and every seed", "why_tests_cant": "2^n outputs; only an inductive proof shows completeness and absence of repeats.", "anchors": ["drfuzz/drfuzz_mutator.c:bitflip_increment", "drfuzz/drfuzz_mutator.c:distributed_flip_bit", "drfuzz/drfuzz_mutator.c:drfuzz_mutator_has_next"]}
{"id": "C36", "title": "Random bit-flip fuzzing flips exactly the requested number of distinct in-bounds bits", "statement": "Each random mutation flips exactly k distinct bits, all inside the buffer, for every outcome of the random generator.", "quantifier": "for every buffer size, k, and random sequence", "why_tests_cant": "Random outcomes cannot be exhausted by tests; the failing case needs a large buffer and particular draws.", "anchors": ["drfuzz/drfuzz_mutator.c"]}
{"id": "C37", "title": "Sparse enumeration visits every s-th mutation", "statement": "With sparsity s the ordered mutator produces exactly the mutations number s, 2s, 3s, ... of the sparsity-1 enumeration and terminates.", "quantifier": "for every buffer size and sparsity value", "why_tests_cant": "The skip arithmetic jumps over whole rows; off-by-one errors shift the enumeration only for particular s and n.", "anchors": ["drfuzz/drfuzz_mutator.c:bitflip_increment"]}
{"id": "C38", "title": "Incremental MD5 equals one-shot MD5 and depends only on content", "statement": "Feeding data to the MD5 computation in any number of pieces of any sizes produces the same digest as feeding it at once, and it equals the RFC 1321 definition (padding, little-endian length).", "quantifier": "for every byte string and every way of cutting it", "why_tests_cant": "Buffering logic at block boundaries for every split.", "anchors": ["common/crypto.c:MD5Update", "common/crypto.c:MD5Final", "common/crypto.c:MD5Transform"]}
{"id": "C39", "title": "CRC-32 table computation equals polynomial division", "statement": "The table-driven checksum of a buffer equals the bit-by-bit CRC-32 remainder, and the half checksum returned with it is the checksum of the documented prefix.", "quantifier": "for every buffer", "why_tests_cant": "256-entry table plus loop; equality over all buffers needs induction.", "anchors": ["common/crypto.c:crc32", "common/crypto.c:crc32_whole_and_half"]}
{"id": "C40", "title": "Replaced libc memory routines meet the C standard", "statement": "The replaced memcpy/memmove/memset/memcmp/memchr (and wide variants) have exactly the standard effect: memmove is correct for all overlaps, comparisons have the sign of the first difference, and no byte outside the arguments is read or written.", "quantifier": "for every memory contents, addresses and lengths", "why_tests_cant": "Word-at-a-time copying with alignment prologue/epilogue for all relative alignments and overlaps.", "anchors": ["drmemory/replace.c:replace_memcpy", "drmemory/replace.c:replace_memmove", "drmemory/replace.c:replace_memset", "drmemory/replace.c:replace_memcmp", "drmemory/replace.c:replace_memchr"]}
{"id": "C41", "title": "Replaced libc string routines meet the C standard", "statement": "The replaced strlen/strchr/strrchr/strcpy/strncpy/strcat/strcmp/strncmp/strcasecmp/strstr/strspn/strcspn return exactly the standard result for every pair of strings and never access beyond the terminators.", "quantifier": "for every string contents", "why_tests_cant": "All string values; restart logic in strstr and table indexing in strspn depend on specific byte values.", "anchors": ["drmemory/replace.c:replace_strcmp", "drmemory/replace.c:replace_strstr", "drmemory/replace.c:replace_strspn", "drmemory/replace.c:replace_strcspn", "drmemory/replace.c:replace_strncpy"]}
{"id": "C42", "title": "Duplicate errors are counted, not re-reported", "statement": "For any sequence of detected errors each distinct error (type and callstack) is reported at most once, its count equals the number of occurrences, and the unique/total counters equal the number of distinct/all non-suppressed occurrences.", "quantifier": "for every sequence of errors", "why_tests_cant": "Global counters over unbounded histories.", "anchors": ["drmemory/report.c:record_error", "drmemory/report.c:report_error"]}
{"id": "C43", "title": "Leak statistics after a nudge are those of the last scan", "statement": "However many errors, nudges and fuzzing iterations with their own leak scans came before, the leak counts, bytes, unique leaks, suppressed leaks and per-leak occurrence counts shown at the end are those of the last scan alone; a forked child starts from zero.", "quantifier": "for every sequence of errors and scans and every set of leaks found by each", "why_tests_cant": "The checkpoint and revert of a dozen counters interacts with the table of known leaks over arbitrarily long histories.", "anchors": ["drmemory/report.c:report_leak", "drmemory/report.c:report_leak_stats_checkpoint", "drmemory/report.c:report_leak_stats_revert", "drmemory/report.c:report_fork_init"]}
{"id": "C44", "title": "Any symbol cache file can be loaded without harm", "statement": "Whatever bytes a symbol cache file contains (truncated by a crash, edited, or from another version), loading it neither accesses memory outside the file's mapping or through NULL nor aborts the application.", "quantifier": "for every file content and every module identity", "why_tests_cant": "The reader is a chain of unbounded string searches over a mapped file; the failing contents are specific truncation points and sizes.", "anchors": ["drsymcache/drsymcache.c:symcache_read_symfile", "drsymcache/drsymcache.c:symcache_symbol_add"]}
{"id": "C45", "title": "Moved bytes keep their definedness", "statement": "For every instruction that only moves bytes (moves, exchanges, byte swaps, unpacks, shuffles, inserts, extracts, whole-register byte shifts), each destination byte is considered uninitialised exactly if the byte the processor copies there was; bytes set to zero are initialised and bytes left alone keep their state. Hence a byte considered initialised never depends on uninitialised data.", "quantifier": "for every operand size and immediate, every shadow state of the operands and every value", "why_tests_cant": "The mapping of bytes depends on the opcode, the immediate and the operand kind, with 2^16 shadow states per register; a test shows one combination.", "anchors": ["drmemory/slowpath_x86.c:map_src_to_dst", "drmemory/slowpath.c:shadow_combine_init", "drmemory/slowpath.c:integrate_register_shadow", "drmemory/slowpath.c:assign_register_shadow"]}
{"id": "C46", "title": "Shifts track definedness exactly", "statement": "After a shift of a general register or of the elements of a vector register, a byte of the result is considered uninitialised exactly if it depends on an uninitialised byte of the operand, and the flags are considered initialised only if neither the result nor the carry depends on uninitialised data.", "quantifier": "for every shift amount, operand size, shadow state and value", "why_tests_cant": "Whether a byte depends on another needs all pairs of values, and the shift amounts at byte borders and beyond the operand size are easily missed.", "anchors": ["drmemory/slowpath_x86.c:map_src_to_dst_shift"]}
{"id": "C47", "title": "Flags carry definedness", "statement": "The arithmetic flags are considered uninitialised exactly if some source byte of the instruction that wrote them was, and an instruction that reads the flags then makes all bytes of its destination that depend on them uninitialised.", "quantifier": "for every sequence of flag-writing and flag-reading instructions and every shadow state", "why_tests_cant": "The stored state is packed in a word whose fields are read one by one; which fields are set depends on the path that wrote them.", "anchors": ["drmemory/slowpath.c:integrate_register_shadow", "drmemory/slowpath.c:slow_path_with_mc", "drmemory/shadow.c:set_shadow_eflags"]}
{"id": "C48", "title": "Propagation stays inside its array", "statement": "Whatever instruction the application executes, propagating the shadow of its operands never writes outside the fixed array used for it.", "quantifier": "for every opcode, immediate and operand size", "why_tests_cant": "The index is computed from the immediate of the application's instruction; a legal but unusual immediate corrupts the stack of the tool silently.", "anchors": ["drmemory/slowpath_x86.c:map_src_to_dst", "drmemory/slowpath_arch.h:shadow_combine_t"]}
{"id": "C49", "title": "and, test and or consider operand values", "statement": "The result of and, test and or is considered uninitialised exactly in the bytes that depend on uninitialised data given the values of the initialised bytes (zero bytes of an and, all-ones bytes of an or decide the result), and the flags are uninitialised exactly if a byte of the result is.", "quantifier": "for every operand size, pair of values and shadow states", "why_tests_cant": "The decision depends on values and shadow of both operands together.", "anchors": ["drmemory/slowpath_x86.c:check_andor_sources", "drmemory/slowpath_x86.c:check_andor_vals", "drmemory/slowpath_x86.c:check_andor_bitmask_immed"]}
{"id": "C50", "title": "A memory reference is judged byte by byte", "statement": "When the application or a system call references memory, the reported errors are exactly the maximal runs of unaddressable bytes and, for reads whose definedness is checked, of uninitialised bytes, in order and inside the reference; the check fails exactly if some byte is bad; afterwards exactly the written bytes have the shadow of the stored value and no byte changes between addressable and unaddressable unless by a push or pop.", "quantifier": "for every address, size, kind of reference and shadow state", "why_tests_cant": "Ranges are merged, split, cut at excepted bytes and aborted by one loop with seven state variables; a missed or doubled range needs a particular pattern of shadow bytes.", "anchors": ["drmemory/slowpath.c:handle_mem_ref_internal", "drmemory/slowpath.c:check_mem_opnd"]}
{"id": "C51", "title": "The shadow of the stack follows the stack pointer", "statement": "After any sequence of pushes, pops, calls, returns, relative or absolute changes and alignments of the stack pointer, frames entered and left, and other references, a byte of the stack is addressable exactly if it is not below the red zone of the current stack pointer; data left by a function that returned is never taken as initialised by a later one; and the frames of callers keep their definedness.", "quantifier": "for every instruction sequence on a stack, every swap threshold, both red zone sizes", "why_tests_cant": "The shadow is updated incrementally with offsets that differ by instruction kind; an offset that is wrong by one slot shows only in particular sequences and only as a missed or false report.", "anchors": ["drmemory/stack.c:handle_esp_adjust", "drmemory/stack.c:check_stack_swap", "drmemory/stack.c:handle_push_addressable", "drmemory/slowpath.c:handle_mem_ref_internal"]}
{"id": "C52", "title": "The shadow of the heap follows the allocator", "statement": "After any sequence of calls of the replacement allocator, stores and reads, a byte of heap memory is addressable exactly if it lies inside the requested size of a block in use, and initialised exactly if it was zeroed by the allocator, written with initialised data, or moved by realloc from an initialised byte; so every reference outside of the blocks (overflow, underflow, use after free while the block is delayed) and every checked read of uninitialised bytes is reported in maximal ranges, and nothing else is. Mapping, unmapping and remapping memory make exactly the range concerned addressable or not.", "quantifier": "for every sequence of allocator calls, sizes, alignments and stores that respect the heap metadata, every placement decision of the operating system", "why_tests_cant": "The shadow updates of a realloc depend on how old and new block lie to each other, and errors show only after particular sequences of calls and only as a missed or false report.", "anchors": ["drmemory/alloc_drmem.c:client_handle_malloc", "drmemory/alloc_drmem.c:client_handle_realloc", "drmemory/alloc_drmem.c:client_handle_free", "drmemory/alloc_drmem.c:client_handle_mremap", "common/alloc_replace.c:replace_realloc_common"]}
{"id": "C53", "title": "Options arrive as they were given", "statement": "The options written on the command line of the frontend have the effect they stand for: each argument reaches the tool unchanged whatever spaces and quotes it contains, every documented spelling of an option sets that option, anything else is rejected, the last of several values for an option wins, all strings of a repeatable option are kept in order, and a number is read as that number or rejected.", "quantifier": "for every list of arguments whose quoted text fits the buffer, every option of the table", "why_tests_cant": "The arguments pass through a quoting and an unquoting step with three quote characters and a table of 200 options with two spellings each; tests cover single options.", "anchors": ["drmemory/frontend.c:_tmain", "drmemory/options.c:get_option_word", "drmemory/options.c:options_init", "drmemory/options.c:option_read_multi_opstring_t", "drmemory/optionsx.h"]}
{"id": "C54", "title": "Modes of the tool are consistent", "statement": "Whatever combination of options is accepted, the tool runs in exactly one mode (shadow memory, patterns, or no checks of memory references); an option that restricts the tool (-light, -unaddr_only, -leaks_only, -perturb_only, -handle_leaks_only, -quiet) has the documented effect whatever else is given; an option given explicitly is not overridden by a mode that changes defaults; -native_parent can be added to any accepted options.", "quantifier": "for every combination of option values and given/default states, both platforms and word sizes", "why_tests_cant": "Twenty options change each other in a fixed order; tests run a few single modes, contradictions appear only for particular pairs.", "anchors": ["drmemory/options.c:options_init", "drmemory/options.c:option_disable_memory_checks", "drmemory/options.h:INSTRUMENT_MEMREFS"]}
{"id": "C55", "title": "Pattern mode reports bad heap accesses and only those", "statement": "In pattern mode, after any sequence of allocator events, stores and checked accesses, every redzone, padding and freed byte that the application has not overwritten holds the pattern; an access starting in such memory is reported, once; an access is reported only if it touches heap memory that is not the application's; and the tool does not change the data of live blocks.", "quantifier": "for every 16-bit pattern, redzone size, arena layout, sequence of events and memory contents, every access address and size", "why_tests_cant": "The outcome depends on the parity of the address, on the distance to the end of the redzone, on earlier damage to the pattern and on whether application data looks like it.", "anchors": ["drmemory/pattern.c:pattern_write_pattern", "drmemory/pattern.c:pattern_create_check_opnds", "drmemory/pattern.c:pattern_handle_mem_ref", "drmemory/pattern.c:pattern_addr_pre_check", "drmemory/alloc_drmem.c:region_in_redzone", "common/alloc_replace.c:alloc_replace_overlaps_region"]}
{"id": "C56", "title": "System call buffers are checked and marked as the table says", "statement": "For every Linux system call and every parameter that the table describes as a plain buffer, before the call exactly one range is checked, which starts at the parameter and has the described length; after a successful call the marked range starts there too, has the length that the call delivered and never exceeds the range before the call; after a failed call nothing is marked. In particular read() marks exactly the bytes that the kernel wrote.", "quantifier": "for every entry of the table, all argument values, memory contents and results", "why_tests_cant": "395 entries with sizes that refer to each other, to memory and to the result, walked by two loops that handle pairs of entries; a wrong entry or a wrong pairing shows only for one system call and one kind of result.", "anchors": ["drsyscall/drsyscall.c:process_pre_syscall_reads_and_writes", "drsyscall/drsyscall.c:process_post_syscall_reads_and_writes", "drsyscall/drsyscall.c:sysarg_get_size", "drsyscall/table_linux.c:syscall_info"]}
{"id": "C57", "title": "Structured system call arguments are followed to their data", "statement": "For arguments that refer to further memory (strings, arrays of strings, socket addresses, message headers, scatter-gather vectors, descriptor sets, poll arrays, message buffers) the ranges checked before the call are exactly the bytes that the kernel reads or may write, and the ranges marked after it exactly those that it wrote.", "quantifier": "for all memory contents, lengths and results", "why_tests_cant": "The ranges depend on several words in application memory and on lengths stored between the two halves of the call.", "anchors": ["drsyscall/drsyscall_linux.c:check_iov", "drsyscall/drsyscall_linux.c:check_msghdr", "drsyscall/drsyscall_linux.c:check_strarray", "drsyscall/drsyscall_linux.c:handle_pre_select", "drsyscall/drsyscall_linux.c:handle_pre_poll", "drsyscall/drsyscall_os.h:handle_cstring", "drsyscall/drsyscall_os.h:handle_sockaddr"]}
{"id": "C58", "title": "Unknown system calls are analysed without touching memory", "statement": "For a system call that is not in the table, the bytes that become defined are exactly those in the memory that a parameter points to and that the call is seen to have written, and after the call memory is what the kernel made of the application's memory: whatever the tool stored to detect writes is gone.", "quantifier": "for all parameters, memory and shadow contents, everything the kernel may write, and any history of earlier calls", "why_tests_cant": "The outcome depends on how the parameters overlap, on values that happen to equal the sentinel, on sizes left over from earlier calls and on which bytes of a dword are written.", "anchors": ["drsyscall/drsyscall.c:handle_pre_unknown_syscall", "drsyscall/drsyscall.c:handle_post_unknown_syscall"]}
{"id": "C59", "title": "The 32-bit shadow table behaves like private shadow memory", "statement": "On 32-bit systems, for every sequence of creating, deleting, setting, reading, writing, replacing and clearing shadow memory, every call returns what it would return if each application byte had shadow of its own; sharing of blocks is invisible, no read-only block is ever written, redundant blocks can be dropped at any time, and the inserted code finds the same shadow address as the library. Searching, copying, classifying and iterating agree with that view.", "quantifier": "for all scales, redzones, allocators that return unused memory, histories, ranges over any number of blocks and values", "why_tests_cant": "Blocks are shared copy-on-write through displacements that wrap around, ranges are cut at block boundaries, and whether a store hits a shared block depends on the whole history.", "anchors": ["umbra/umbra_32.c:shadow_table_replace_block", "umbra/umbra_32.c:umbra_create_shadow_memory_arch", "umbra/umbra_32.c:umbra_shadow_set_range_arch", "umbra/umbra_32.c:umbra_shadow_copy_range_arch", "umbra/umbra_32.c:umbra_clear_redundant_blocks", "umbra/umbra_private.h:APP_RANGE_LOOP"]}
{"id": "C60", "title": "The fast path for stack pointer changes marks exactly the stack memory", "statement": "The generated routine for an explicit change of the stack pointer returns with exactly the memory between the old and the new stack pointer marked (unaddressable above, undefined or defined below) if the change is dword-aligned, not a possible stack swap and lies in memory with private shadow; in every other case it continues in the slow path with the original argument and return address, having marked nothing outside that memory. In either case eax, esp and live flags are those of the application.", "quantifier": "for all kinds of change, stack pointers, amounts over any number of shadow blocks, shadow contents and register values", "why_tests_cant": "The routine is generated machine code with inner loops for unaligned, aligned and remaining bytes, run for addresses that wrap around, and it recomputes its position for every shadow block; tests see a few amounts.", "anchors": ["drmemory/stack_x86.c:generate_shared_esp_fastpath_helper", "drmemory/stack_x86.c:esp_fastpath_update_swap_threshold", "drmemory/stack_x86.c:instrument_esp_adjust_fastpath", "umbra/umbra_32.c:shadow_table_insert_app_to_shadow_arch", "drmemory/spill.c:insert_save_aflags"]}
{"id": "C61", "title": "The inlined fast path computes the shadow that the instruction's operands call for", "statement": "For an ordinary instruction, the code inserted before it either jumps to the slow path with all shadow state unchanged, or marks every byte of every destination as defined or undefined according to the corresponding bytes of all sources, marks the flags accordingly and changes the state of no other byte; and it never passes over an access to unaddressable memory, an undefined address register or an undefined operand that has to be reported.", "quantifier": "for all instructions of the modelled forms, shadow contents of registers, flags and memory, addresses and shadow table contents", "why_tests_cant": "The generator chooses among dozens of code sequences by operand sizes, high-byte registers, source order and alignment, and works on bit fields of shadow bytes; tests run few combinations of operand forms with few mixtures of defined and undefined bytes.", "anchors": ["drmemory/fastpath_x86.c:instrument_fastpath", "drmemory/fastpath_x86.c:adjust_opnds_for_fastpath", "drmemory/fastpath_x86.c:add_dst_shadow_write", "drmemory/fastpath_x86.c:insert_shadow_op", "drmemory/fastpath_x86.c:add_shadow_table_lookup", "drmemory/shadow.c:shadow_dword_is_addr_not_bit"]}
{"id": "C62", "title": "Checks left out within a basic block are not missed", "statement": "Within a basic block the tool leaves out checks of address registers and of the flags that it has made before. The reports and the shadow state are nevertheless those of a run with every check made: each access through an undefined register is reported by the accessing instruction, each conditional jump on undefined flags is reported, and nothing is reported without cause.", "quantifier": "for all blocks of any length, instructions, initial shadow states and outcomes of the instructions", "why_tests_cant": "Whether a check may be left out depends on the instructions in between, their destinations, whether conditional moves happen at run time and which of them have inlined code; tests run few sequences with undefined values in between.", "anchors": ["drmemory/instru.c:instru_event_bb_insert", "drmemory/fastpath_x86.c:add_addressing_register_checks", "drmemory/fastpath_x86.c:instrument_fastpath", "drmemory/slowpath.c:check_mem_opnd", "drmemory/slowpath.c:slow_path_with_mc"]}
{"id": "C63", "title": "Scratch registers and flags taken by the tool within a block are given back", "statement": "The tool takes two registers and the arithmetic flags of the application for its own code within a basic block, saves them at their first use and gives them back only where it thinks the application needs them. Every basic block nevertheless computes the registers, the flags and the memory that it computes without the tool, whichever registers were chosen and whatever the inserted code leaves in them, and no instruction sees a wrong value.", "quantifier": "for all blocks of any length, instructions with any operands, choices of scratch registers, uses of them by the inserted code and initial states", "why_tests_cant": "What is saved and restored where depends on a look ahead over the rest of the block, on partial and conditional writes, on which of the registers is eax and on which are in use when the flags are moved; a mistake in a rare combination silently corrupts the application.", "anchors": ["drmemory/spill.c:fastpath_pre_app_instr", "drmemory/spill.c:fastpath_bottom_of_bb", "drmemory/spill.c:mark_scratch_reg_used", "drmemory/spill.c:mark_eflags_used", "drmemory/spill.c:save_aflags_if_live", "drmemory/spill.c:restore_aflags_if_live", "drmemory/fastpath_x86.c:get_aflags_and_reg_liveness"]}
{"id": "C64", "title": "A fault handler of the application sees the application's registers and flags", "statement": "When an application instruction faults, the state passed to the application's handler holds for every register and flag that the application may still use the value it would have without the tool, although the tool may be using the register or the flags at that point.", "quantifier": "for all blocks, faulting instructions in them, choices of scratch registers, uses by the inserted code, initial states and left-over contents of the spill slots", "why_tests_cant": "The state is reconstructed from a summary of the block; whether that is right depends on where in the block the fault happens relative to the first use of each scratch register and to the saves and restores of the flags. Tests provoke few faults.", "anchors": ["drmemory/spill.c:event_restore_state", "drmemory/spill.c:fastpath_bottom_of_bb"]}
{"id": "C65", "title": "System call numbers survive the number file and are looked up under the right name", "statement": "Reading a system call number file in the documented format, with LF or CRLF line ends and with or without a final newline, records exactly the entries of the first list whose START number matches the running kernel, and nothing if no list matches; reading back what the generator wrote gives every system call it found; a file that ends with a newline never crashes the reader whatever it contains; and after recording, a name is resolved to the number of the first entry with that name, case-insensitively and with or without the NtUser/NtGdi prefix.", "quantifier": "all files, all tables of names and numbers, all kernels (key number)", "why_tests_cant": "The reader runs only on Windows kernels that are not in the built-in tables; the space of files (line ends, truncation, several lists, duplicate names) cannot be enumerated.", "anchors": ["drsyscall/drsyscall_fileparse.c:read_sysnum_file", "drsyscall/pdb2sysfile.cpp:write_file", "drsyscall/drsyscall_windows.c:name2num_record"]}
{"id": "C66", "title": "The memory layout dump is valid JSON that describes every object completely", "statement": "The file written by drmemory_dump_memory_layout is valid JSON; it lists each recorded heap object and thread stack with its address and size, its contents are split into pieces that cover each byte of the object exactly once, each piece is shown with the value of its bytes, and each word that points into a recorded heap object or stack is shown with that object and the offset in it.", "quantifier": "all memory contents, sets of objects and stacks, call stacks and numbers of threads", "why_tests_cant": "The one test has a single thread and few small objects and only runs a JSON checker; number of threads, number of objects, sizes that are not multiples of a word, and values in the tail are unbounded.", "anchors": ["drmemory/memlayout.c:memlayout_dump_layout", "drmemory/memlayout.c:memory_layout_walk_chunk", "drmemory/memlayout.c:memory_layout_rb_iter"]}
{"id": "C67", "title": "The definedness of a register is what the program last did to it", "statement": "Each byte of each general purpose, SSE and MMX register has its own definedness in each thread: a write to a register or part of one changes the definedness of exactly the bytes written (and in 64-bit code of the upper half of a register written as a 32-bit one), a check of a source register reports exactly when a byte that is read is undefined, and a report marks exactly those bytes defined so that the error is not repeated.", "quantifier": "all states of the register file, all registers and sub-registers, all operand sizes and values, 32-bit and 64-bit", "why_tests_cant": "Tests touch a few registers, rarely ah/ch/dh/bh, MMX or VEX instructions, and see only whether some report appears, not which byte's state changed.", "anchors": ["drmemory/shadow.c:get_shadow_register_common", "drmemory/shadow.c:register_shadow_set_byte", "drmemory/slowpath.c:check_register_defined", "drmemory/slowpath.c:register_shadow_mark_defined", "drmemory/slowpath_x86.c:assign_register_shadow_arch"]}
{"id": "C68", "title": "Dr. Heapstat's snapshots are evenly spaced, hold what was live then, and include the peak", "statement": "However long the program runs, the snapshots written are spaced evenly over the run: for each multiple of the current period up to now there is exactly one; each of them states, in total and per allocation site, the number of live blocks, the space requested, the space allocated and the space used at its time; the snapshot of the peak holds what was live at some moment and at no moment was more in use by more than -peak_threshold percent; the time written is the true time; and taking snapshots never fails.", "quantifier": "all sequences of allocations, frees, in-place reallocs, snapshot points and nudges, all numbers of snapshots, all sizes", "why_tests_cant": "The tests of Dr. Heapstat run tiny programs whose snapshot array fills only a few times; nobody recomputes the totals or runs long enough for the counters or the period to wrap.", "anchors": ["drheapstat/drheapstat.c:take_snapshot", "drheapstat/drheapstat.c:account_for_bytes_pre", "drheapstat/drheapstat.c:account_for_bytes_post", "drheapstat/drheapstat.c:check_for_peak", "drheapstat/drheapstat.c:client_handle_realloc"]}
{"id": "C69", "title": "Dr. Heapstat's staleness data gives for every live block the time of its last use", "statement": "With -staleness, every snapshot has exactly one record per live block, which reads back as the block's allocation site, its size and the time of the first sweep after the block was last read or written (the time of its allocation if it never was); no snapshot is written outside its arrays, and freeing it gives all its memory back.", "quantifier": "all sequences of allocations, frees, in-place reallocs, references, sweeps and snapshots, all block sizes, all times", "why_tests_cant": "The staleness test has a handful of blocks and checks that output appears; the compressed records, the growth of the extension array, and the interplay of marks, sweeps and reused memory depend on the whole history.", "anchors": ["drheapstat/staleness.c:handle_mem_ref", "drheapstat/staleness.c:alloc_itercb_sweep", "drheapstat/staleness.c:alloc_itercb_snapshot", "drheapstat/staleness.c:staleness_take_snapshot", "drheapstat/staleness.c:staleness_free_snapshot", "common/alloc_replace.c:destroy_arena_family"]}
{"id": "C70", "title": "Dr. Fuzz runs every iteration of a target on what the application passed, with exactly the client's changes", "statement": "Each time a registered target is entered or repeated, the client's callback finds the arguments the application passed in that call, whatever earlier iterations did to them; the target runs with exactly the client's changes, with the stack pointer of the call, and returns where the call returns. The live targets are the calls that have not returned. What is kept for a call, and the client's data for it, is released exactly once, and data is found again when the next iteration makes the same nested calls. The recorded faults are the first and last of the iteration, each handed to the delete callback once, and a crash report has one frame per live call with its arguments.", "quantifier": "all sequences of registrations, calls, repetitions, returns, faults and data, all nestings, all argument values, all clients", "why_tests_cant": "The drfuzz tests repeat one or two fixed functions with no handled fault; the cache of nested targets, the chain of faults and their release depend on the whole history of the thread.", "anchors": ["drfuzz/drfuzz.c:pre_fuzz_handler", "drfuzz/drfuzz.c:post_fuzz_handler", "drfuzz/drfuzz.c:activate_cached_target", "drfuzz/drfuzz.c:create_target_iterator", "drfuzz/drfuzz.c:drfuzz_target_iterator_stop", "drfuzz/drfuzz.c:fault_handler", "drfuzz/drfuzz.c:drfuzz_unfuzz_target", "drfuzz/drfuzz.c:drfuzz_get_arg"]}
{"id": "C71", "title": "The fuzzing mode runs a call on its input and then on the mutator's values in turn, and an input file reproduces a run", "statement": "The first thread to reach the fuzz target is the only one fuzzed, after the calls to be skipped. A fuzzed call runs as iterations: each on the buffer as found with the next value of the mutator written over the chosen part and nothing else, on the shadow state of the call, as long as the iteration count and the mutator allow; other threads' calls run as they are. Nothing is written past the buffer, no null mutator or buffer is used, and buffers and mutators are released when the pass ends. A file with the bytes of an iteration reproduces it. With a corpus, every readable file is run once in order, then the mutators started on them take turns; exactly the inputs that reached new blocks are added to the corpus and get a mutator.", "quantifier": "all mutator libraries, all options, all inputs and files, whatever the target leaves in its buffer, all interleavings of threads", "why_tests_cant": "The fuzzer tests run one target with fixed buffers that the target does not modify, and a corpus of one or two files; the turns of the mutators, the growth of the corpus and the interplay of the options depend on the whole history.", "anchors": ["drmemory/fuzzer.c:pre_fuzz", "drmemory/fuzzer.c:post_fuzz", "drmemory/fuzzer.c:pre_fuzz_corpus", "drmemory/fuzzer.c:post_fuzz_corpus", "drmemory/fuzzer.c:load_fuzz_input", "drmemory/fuzzer.c:fuzzer_mutator_init", "drmemory/fuzzer.c:fuzzer_mutator_copy", "drmemory/fuzzer.c:shadow_state_restore"]}
{"id": "C72", "title": "The handle leak check reports the handles that are open, with the call stack that opened them", "statement": "With -check_handle_leaks, at exit and on a nudge every handle that the program has opened and that is still open is reported once, with the call stack of the system call that opened it; a handle that has been closed is not reported, unless another process closed it and the system's list is not used. With -filter_handle_leaks a report shows a closing call stack exactly if the kernel closed there a handle opened by the same call stack, and it is a definite or a potential error as the number of similar handles and the threshold say; without it all reports are definite. A successful call given no place for its handle is reported. No call stack is used after being freed, whatever the threads do, and at exit all are freed. The system's list is cut to the entries of the process.", "quantifier": "all sequences of opening, closing and duplicating system calls, successful or failing, by all interleavings of threads; all lists the system gives", "why_tests_cant": "The handle tests open and close a few handles in a fixed order from one thread; whether a call stack's references always balance, and whether a table follows the kernel through failing closes and reused handle values, is a matter of all orders of events.", "anchors": ["drmemory/handlecheck.c:handlecheck_create_handle", "drmemory/handlecheck.c:handlecheck_delete_handle", "drmemory/handlecheck.c:handlecheck_delete_handle_post_syscall", "drmemory/handlecheck.c:handlecheck_check_open_handle", "drmemory/handlecheck.c:syscall_handle_list_get", "drmemory/handlecheck.c:open_close_pair_add", "drmemory/syscall_windows.c:post_syscall_iter_arg_cb"]}
{"id": "C73", "title": "The GDI usage checks report the calls that break a rule of GDI, and only those", "statement": "With -check_gdi, a device context given up by the wrong one of ReleaseDC and DeleteDC is reported; one obtained by GetDC and given up by a thread that did not obtain it is reported; a device context given up with an object selected that is no stock object is reported; a pen or brush deleted while it is selected is reported; a bitmap selected into a second device context is reported; a device context created for NULL and used after its thread has exited is reported; and, if asked for, a device context used by two threads. Each call is reported for exactly the rules it breaks, each once, and a program that breaks none is not reported.", "quantifier": "all sequences of calls that obtain, use and give up device contexts and that select and delete objects, by all interleavings of threads; all handle values", "why_tests_cant": "The GDI test makes one call for each rule in one order; whether the counts and tables still tell what is selected after handles have been reused, calls have failed or objects have been shared is a matter of all sequences.", "anchors": ["drmemory/gdicheck.c:gdicheck_dc_alloc", "drmemory/gdicheck.c:gdicheck_dc_free", "drmemory/gdicheck.c:gdicheck_obj_free", "drmemory/gdicheck.c:gdicheck_dc_select_obj", "drmemory/gdicheck.c:gdicheck_check_bitmap_selected", "drmemory/gdicheck.c:gdicheck_check_dc_use", "drmemory/syscall_wingdi.c:wingdi_shared_process_syscall"]}
{"id": "C74", "title": "In wrapping mode the application's heap works as before, with redzones around every block, and its misuses are reported", "statement": "With -no_replace_malloc: what malloc and calloc return is new memory of the size asked for, with a whole redzone before and after it inside one block of the application's allocator, and apart from everything else the application owns; calloc of a product that does not fit returns NULL; the allocator is only ever told to free blocks it has given out, once, that the application has freed; realloc keeps the contents up to the smaller size and on failure changes nothing; a size query says at least the size asked for. A free of what is not owned, a free by the wrong routine and an allocation that fails are reported, each exactly then; a correct program is not reported.", "quantifier": "all interleavings of calls by all threads; all sizes and counts; all answers of the allocator; all choices of the client to keep or let go of freed blocks; all sizes of the redzone from 8 bytes", "why_tests_cant": "The tests run a few programs on one allocator; that no sequence of calls, answers and delayed frees makes the table differ from what the application owns, or hands the allocator a pointer that is not its own, is a matter of all of them.", "anchors": ["common/alloc.c:handle_malloc_pre", "common/alloc.c:handle_malloc_post", "common/alloc.c:handle_calloc_pre", "common/alloc.c:handle_free_pre", "common/alloc.c:handle_free_check_mismatch", "common/alloc.c:handle_size_pre", "common/alloc.c:handle_size_post", "common/alloc.c:handle_realloc_pre", "common/alloc.c:handle_realloc_post", "common/alloc_unopt.c:replace_realloc_template", "common/alloc_unopt.c:memcpy_no_movs"]}
{"id": "C75", "title": "A fuzz target descriptor means the function and the numbers it says, a wrong one is refused, and the target is fuzzed whenever its module is loaded", "statement": "With -fuzz_target: <module>!<symbol> and <module>+0x<offset>, followed by the count of arguments, the indices of buffer and size, the repeat count and perhaps a calling convention, each after a bar, select exactly that function with exactly these numbers; the symbol keeps its blanks, is looked up under the module without its extension, and a mangled one gets its at signs back; <main> is the main module; a descriptor without a separator, with a number missing or not a number, or with an unknown convention ends the run with an error. The target is fuzzed from when its module is loaded until it is unloaded.", "quantifier": "all module and symbol names, all numbers, all descriptors for what is accepted; all sequences of loading and unloading modules", "why_tests_cant": "The tests give a handful of descriptors, all of the main module; what every other text is read as, and what happens to a target in a library that comes later, is not seen by them.", "anchors": ["drmemory/fuzzer.c:user_input_parse_target", "drmemory/fuzzer.c:tokenizer_copy_to", "drmemory/fuzzer.c:tokenizer_find_next", "drmemory/fuzzer.c:tokenizer_next_int", "drmemory/fuzzer.c:map_callconv_args", "drmemory/fuzzer.c:fuzzer_fuzz_target", "drmemory/fuzzer.c:fuzzer_fuzz_target_init", "drmemory/fuzzer.c:module_loaded", "drmemory/fuzzer.c:module_unloaded", "drmemory/fuzzer.c:free_fuzz_target"]}
{"id": "C76", "title": "Whatever heap routines call each other, exactly the outermost one that matters is adjusted, and everything is back in order when it returns", "statement": "In wrapping mode (-no_replace_malloc), whatever sequence of heap routines calls each other and returns: of the active calls at most one has its arguments changed, the outermost of malloc, calloc, free, the size query and realloc; its result, and no other, is taken in hand when it returns, with the pointer and the size the application gave; a block counts as zeroed iff it is calloc's, and it is of the kind of the outermost call (new, new[] or malloc); an invalid free is reported; and when no heap routine is active the thread is in its first state, so that accesses by the application are checked again.", "quantifier": "all sequences of calls, returns and exceptions of a thread, nested arbitrarily deep", "why_tests_cant": "Tests run the nests that the allocator at hand makes, two or three deep and without exceptions; other allocators, deeper nests and exceptions out of a heap routine leave counters and flags that only show in a later call.", "anchors": ["common/alloc.c:enter_heap_routine", "common/alloc.c:check_recursive_same_sequence", "common/alloc.c:set_handling_heap_layer", "common/alloc.c:record_allocator", "common/alloc.c:handle_alloc_pre_ex", "common/alloc.c:handle_alloc_post_func", "common/alloc.c:handle_alloc_post", "drmemory/fastpath.c:client_entering_heap_routine"]}
{"id": "C77", "title": "For a system call with a request code, what is checked and what is marked is what the kernel reads and writes for that request", "statement": "On x86-64 Linux, for clone, ioctl (SIOCGIFCONF and the IPMI messages), semctl, msgctl, shmctl, prctl, rt_sigaction, futex, _sysctl, mremap, open and fcntl: before the call exactly the bytes that the kernel reads for that request and flags are checked for being defined, and the ones that it writes for being addressable; the value of exactly the parameters that it uses has to be defined; after a call that succeeded exactly the bytes that the kernel has written count as written, after one that failed none; and whatever the application passes, the tool itself does not fault.", "quantifier": "all requests, all parameter values, all memory contents and all results", "why_tests_cant": "Each request has its own structure, size and direction, and a test program makes a handful of them with valid pointers; a wrong direction or size shows only if the application has an undefined byte there, and a wrong parameter number not at all as long as the bytes happen to be addressable.", "anchors": ["drsyscall/drsyscall_linux.c:handle_clone", "drsyscall/drsyscall_linux.c:handle_pre_ioctl", "drsyscall/drsyscall_linux.c:handle_post_ioctl", "drsyscall/drsyscall_linux.c:ipc_sem_len", "drsyscall/drsyscall_linux.c:handle_semctl", "drsyscall/drsyscall_linux.c:handle_msgctl", "drsyscall/drsyscall_linux.c:handle_shmctl", "drsyscall/drsyscall_linux.c:handle_pre_prctl", "drsyscall/drsyscall_linux.c:handle_post_prctl", "drsyscall/drsyscall_linux.c:os_handle_pre_syscall", "drsyscall/drsyscall_linux.c:os_handle_post_syscall", "drsyscall/drsyscall.c:report_memarg_ex", "drsyscall/drsyscall.c:drsys_iterate_args"]}
{"id": "C78", "title": "The library tracer prints each argument of a call as the prototype file says", "statement": "For every prototype file given to drltrace: a line of a return type, a name and arguments separated by '|' gives that name, and only that name, a prototype whose arguments have the types written, whatever blanks and letter case are used, and are inputs, outputs or both as marked; comments and empty lines say nothing; a line that is not understood does not spoil the others; the file is never read beyond its end. A traced call prints, in order, those arguments below -num_max_args that are not plain outputs, each with the value passed; memory is read only through arguments that are pointers, and only as much as the type says. Without a prototype the one of the system call library is used, and else at most -num_max_args arguments are printed as numbers.", "quantifier": "all prototype files, all names, all argument values, all memory contents and all settings of the options", "why_tests_cant": "A test traces a few calls with the shipped file; which spellings are accepted, what one wrong line does to all others, and a file whose size is a whole number of pages only come up with the users' own files.", "anchors": ["drltrace/drltrace_libcalls.cpp:split", "drltrace/drltrace_libcalls.cpp:erase_token", "drltrace/drltrace_libcalls.cpp:config_parse_type", "drltrace/drltrace_libcalls.cpp:parse_line", "drltrace/drltrace_libcalls.cpp:parse_config", "drltrace/drltrace_libcalls.cpp:libcalls_search", "drltrace/drltrace.cpp:print_arg", "drltrace/drltrace.cpp:print_simple_value", "drltrace/drltrace.cpp:print_symbolic_args", "drltrace/drltrace.cpp:event_exit"]}
{"id": "C79", "title": "On Linux the shadow memory follows the application's mappings and thread stacks", "statement": "After every sequence of mmap, munmap and mremap calls outside the allocator, successful or failed, of any sizes: a byte is marked addressable exactly if the kernel has it mapped; new bytes, which the kernel fills with zeroes or from a file, are defined; bytes that stay mapped keep their state, also when the mapping moves; no byte of another mapping changes. A new thread's stack is unaddressable below its stack pointer but for the ABI's red zone, which is undefined, and nothing else changes. With -prctl_allowlist checking is switched off exactly when a process takes a name that is not on the list.", "quantifier": "all histories of calls, all addresses and sizes, all layouts and protections of modules, all tables of mappings, all stack pointers, all lists and names", "why_tests_cant": "A test maps and unmaps a few whole pages; sizes that are not whole pages, failed calls, moves, neighbours merged by the kernel and stack pointers at the end of a mapping depend on the address space layout.", "anchors": ["drmemory/alloc_drmem.c:client_handle_mmap", "drmemory/alloc_drmem.c:client_handle_munmap", "drmemory/alloc_drmem.c:client_handle_munmap_fail", "drmemory/alloc_drmem.c:client_handle_mremap", "drmemory/drmemory.c:mmap_walk", "drmemory/syscall_linux.c:handle_clone", "drmemory/syscall_linux.c:check_prctl_allowlist", "drmemory/shadow.c:shadow_prev_dword", "common/alloc.c:handle_post_alloc_syscall"]}
{"id": "C80", "title": "The system call tracer prints each argument's value, its names and its structure, and never disturbs the application", "statement": "For every argument drstrace prints before the call (all but the result) and after it (outputs and the result): the value is shown; what a pointer leads to is shown if it is an input before the call or an output after it; a value that has names in its group of constants is printed with all of them, any other with the names of all constants whose bits it contains; the fields of a structure are printed with the values they have in C's layout. Memory that cannot be read is reported as such and neither makes the tracer fault nor ends the application.", "quantifier": "all arguments, values, modes and types, all groups of constants, all (nested) types from debug information, all states of the application's memory, pointers of 32 and 64 bits", "why_tests_cant": "A test prints a few calls with valid pointers and known constants; padding, bit fields, unreadable pointers, constants with the top bit set and large fields need particular types and values.", "anchors": ["drstrace/drstrace.c:print_simple_value", "drstrace/drstrace.c:drstrace_print_enum_const_name", "drstrace/drstrace.c:print_structure", "drstrace/drstrace.c:print_known_compound_type", "drstrace/drstrace.c:type_has_unknown_components", "drstrace/drstrace.c:print_arg", "drstrace/drstrace.c:drsys_iter_arg_cb", "drsyscall/drsyscall.c:drsys_iterate_args_common"]}
{"id": "C81", "title": "A signal, callback or exception marks exactly what the kernel put on the stack, and leaves no trace when it is over", "statement": "When the kernel delivers a signal, callback, exception or asynchronous call, its frame becomes defined, the red zone of the ABI below it undefined, and no other byte changes; when the handler returns, the shadow is what it was before, including the red zone of the interrupted code. On an alternate signal stack the same holds; the tool's idea of the alternate stack is always the kernel's, also after failed calls, and setting one changes no state but that of its memory. NtContinue gives every register and the stack the state the context gives them. The tool's own use of the application's stack leaves no trace.", "quantifier": "all shadow states, stack pointers, frame sizes and red zones, all histories of sigaltstack calls, nested and alternate-stack signals, all contexts", "why_tests_cant": "A test raises a few signals at fixed depths; frame sizes depend on the processor, and whether the interrupted code has data in its red zone or runs on the alternate stack depends on timing.", "anchors": ["drmemory/alloc_drmem.c:handle_signal_delivery", "drmemory/alloc_drmem.c:handle_signal_return", "drmemory/alloc_drmem.c:client_pre_syscall", "drmemory/alloc_drmem.c:client_post_syscall", "drmemory/alloc_drmem.c:handle_Ki", "drmemory/alloc_drmem.c:handle_cbret", "drmemory/alloc_drmem.c:adjust_stack_to_context", "drmemory/alloc_drmem.c:client_stack_alloc", "drmemory/alloc_drmem.c:client_stack_dealloc"]}
{"id": "C82", "title": "An access to unaddressable memory is excused only for the listed reasons, and excusing it hides nothing else", "statement": "An access to unaddressable memory goes unreported exactly if a heap routine makes it to heap memory, it is to a slot of thread-local storage that is in use, the loader looks at the tool's libraries, the code is one of the listed stack probes on the stack, one of the listed string routines reading past the end of its string within a word, a prefetch or the release of a heap's lock in an exception handler, or the region was allocated by someone else, in which case its committed memory becomes defined. Otherwise the decision changes no shadow state. An instruction is remembered as a probe only as long as its code is one. The decision itself does no harm.", "quantifier": "all instructions and instruction sequences, all addresses, shadow states, bitmaps, module names and settings; all layouts of an unknown allocation", "why_tests_cant": "A test runs the string routines and probes of the compiler it was built with; that no other code, address or combination is excused, and that all slots and layouts are, cannot be enumerated.", "anchors": ["drmemory/alloc_drmem.c:check_unaddressable_exceptions", "drmemory/alloc_drmem.c:is_ok_unaddressable_pattern", "drmemory/alloc_drmem.c:is_alloca_pattern", "drmemory/alloc_drmem.c:is_strlen_pattern", "drmemory/alloc_drmem.c:is_strcpy_pattern", "drmemory/alloc_drmem.c:is_rawmemchr_pattern", "drmemory/alloc_drmem.c:is_heap_seh", "drmemory/alloc_drmem.c:is_loader_exception", "drmemory/fastpath_x86.c:instrument_fastpath", "drmemory/drmemory.c:mmap_walk"]}
{"id": "C83", "title": "The use of an undefined value is excused only where it cannot matter, and a copy through a floating-point register keeps its definedness", "statement": "A result is taken for defined although the operands are not exactly if it does not depend on them. The use of an undefined register or of undefined flags is excused exactly in the listed string routines, at the instruction where the bytes beyond the end of the string are used, and only if the string does not begin with an undefined byte; only the register in question then counts as defined. An undefined value may be read from memory unreported exactly if it is loaded into a floating-point register that is stored nearby, and then the destination gets the definedness of the source, no other byte's definedness changes, and other uses of undefined values are reported as before.", "quantifier": "all instructions and operand values of any width; all code bytes, registers and shadow states; all instruction sequences between a load and a store, all effects of these instructions within the registers they write, and all sequences of checks while a copy is under way", "why_tests_cant": "A test executes a few copies and the string routines of its own C library; that no other code is excused, that the destination is the right one for every sequence of instructions, and that nothing stays hidden afterwards are statements about all code sequences.", "anchors": ["drmemory/slowpath_x86.c:result_is_always_defined", "drmemory/slowpath_x86.c:check_undefined_reg_exceptions", "drmemory/slowpath_x86.c:is_rawmemchr_uninit", "drmemory/slowpath_x86.c:is_strrchr_uninit", "drmemory/slowpath_x86.c:is_strlen_uninit", "drmemory/slowpath_x86.c:check_mem_copy_via_nongpr", "drmemory/slowpath_x86.c:check_undefined_exceptions", "drmemory/slowpath.c:slow_path_with_mc", "drmemory/spill.c:event_restore_state"]}
{"id": "C84", "title": "A callstack lists the return addresses of the frames in order, and walking the stack ends whatever it holds", "statement": "An address counts as a return address exactly if it is in a module and a call the application made ends there. If the frame pointer leads to a chain of frames, the callstack is the current frame followed by the return addresses of the chain in order, up to the maximum number of frames. Where the chain is broken or not trusted, the walk goes on at the first word further up, within the scan limit, that is a defined return address. Whatever the stack holds, the walk ends, lists only addresses in modules that lie on the stack, innermost first and none twice, and writes no more frames than the array has room for.", "quantifier": "all memory contents and readable pages; all module, return address and definedness tables; all stack and frame pointers, maximums and flags; all earlier walks of the thread", "why_tests_cant": "A test walks well-formed stacks of a few programs; that a corrupt, stale or cyclic stack never makes the walk hang, repeat or write past its array, and that no frame is skipped, concerns every content of the stack.", "anchors": ["common/callstack.c:is_retaddr", "common/callstack.c:find_next_fp", "common/callstack.c:fpcache_update", "common/callstack.c:print_callstack", "common/callstack.c:address_to_frame", "common/callstack.c:packed_callstack_record", "drmemory/report.c:report_init"]}
{"id": "C85", "title": "Requests the application makes of the tool mark the bytes they name and nothing else, in whatever order they are made", "statement": "After any sequence of the requests VALGRIND_MAKE_MEM_DEFINED_IF_ADDRESSABLE and drmemory_make_unaddressable, a byte is unaddressable exactly if it was before or a request named it to be so; every other byte named by a request to be defined is defined, and all other bytes are as before. So neither the order nor the repetition of requests matters, and a buffer without unaddressable bytes for which the request was made is not reported as uninitialized. With the checks switched off the requests do nothing. Every request is answered, and each VALGRIND_DO_LEAK_CHECK makes one search for leaks.", "quantifier": "all sequences of requests, all ranges, all earlier shadow contents, all options", "why_tests_cant": "A test makes a few requests on aligned buffers; what happens to neighbouring bytes, to overlapping and repeated requests and at the borders of shadow blocks concerns every range and every earlier state.", "anchors": ["drmemory/annotations.c:handle_make_mem_defined_if_addressable", "drmemory/annotations.c:handle_make_unaddressable", "drmemory/annotations.c:handle_do_leak_check", "drmemory/annotations.c:annotate_init", "drmemory/shadow.c:shadow_set_non_matching_range", "drmemory/shadow.c:shadow_set_range"]}
{"id": "C86", "title": "A return address found on the stack is taken for the caller of a frame only if the call there can have led to it, and is refused only if it cannot", "statement": "By default a return address is refused as the caller of a frame exactly if it lies in another module and the call that ends there is a direct call that leads to no stub, or if frame pointers are followed out of a module whose frame pointers are not trusted; within a module and where the modules are not known nothing is refused. With -callstack_conservative a direct call, or a call through a pointer, is accepted exactly if it leads to the start of the function of the frame; calls whose target cannot be told are accepted. Frames of replaced routines may have any caller, and with the checks off everything is accepted.", "quantifier": "all memory contents and readable pages; all frames and return addresses; all module tables, symbols and flags", "why_tests_cant": "A test shows some callstacks of programs built by one linker; that no genuine caller is dropped and no impossible one is kept depends on every encoding of calls and stubs and on what may lie before and after them.", "anchors": ["common/callstack.c:check_retaddr_targets_frame", "drmemory/report.c:report_init", "common/callstack.h:FP_VERIFY_CALL_TARGET", "common/callstack.h:FP_DO_NOT_VERIFY_CROSS_MOD_IND"]}
