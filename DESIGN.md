# Formal model of Dr. Memory (pinned commit in /repo)

## Trusted base

* The Lean 4.33.0 kernel. No axioms of our own. No `sorry`, no `native_decide`, no `bv_decide`.
  Each property theorem depends at most on `propext`, `Classical.choice`, `Quot.sound`
  (checked with `#print axioms` for every theorem listed in MANIFEST.json).
* The hand translation from C to Lean. Every definition cites the file and lines it models; each model
  file begins with a list of its simplifications.
* Not modelled anywhere: code generated by DynamoRIO (inline instrumentation), the operating system
  (its answers are arguments), signal delivery, data races (operations are atomic, which is what the
  locks provide), locale-dependent `tolower` (ASCII only), Windows-only code, DynamoRIO's own
  hashtables (represented by lists or functions).

## How memory and undefined behaviour are represented

* Strings are lists without a terminator, or indices into a buffer with checked reads where leaving the
  buffer matters. An out-of-bounds access, a read through a missing header or a signed overflow that
  matters is a distinct outcome (`none`, `fault`), so "returns `some v`" includes memory safety.
* Loops are run with fuel; `Runs`/`Term` state total correctness (the loop stops), so termination is part
  of every theorem about a loop.
* Machine arithmetic is modelled with explicit `% 2^w` where it can overflow.

## Per property

Modules live in `lean/Verif`. `<Area>.lean` is the model (definitions with citations), the other files of
an area hold invariants and the property theorems. `_partial` marks a theorem that needs a premise the
property does not have; the witness theorems beside it show that the premise is needed.

| id | modules | what is modelled | how it is proved |
|----|---------|------------------|------------------|
| C01 | Glob, GlobProps | text_matches_pattern loop, state = position in text, in pattern, last asterisk | equality with a declarative glob relation; loop invariant; termination measure |
| C02 | Glob, GlobProps | walk over the double-NUL list | induction over the encoded list |
| C03 | TextUtils, TextProps | strcasestr, strnchr loops | first-occurrence specification |
| C04 | TextUtils, TextProps | find_next_line over a buffer with checked reads | witnesses of reads outside the file; exact under boundary conditions |
| C05 | Suppress, SuppressProps | stack_matches_suppression loop | over-suppression with ellipses (witness); exact where each ellipsis is followed by one ordinary line; completeness for plain ellipses |
| C06 | Suppress, SuppressFile | writer, line reader, parser, matcher | round trip for writable frames; witnesses otherwise |
| C07 | Suppress, SuppressProps | on_suppression_list | induction over the list |
| C08 | Shadow, ShadowProps | 2-bit packed shadow blocks with special blocks | read-over-write, induction over histories |
| C09 | Shadow, ShadowProps | shadow_set_range | loop invariant against "set every byte" |
| C10 | Shadow, ShadowProps | shadow_check_range, forward and backward | exact for aligned starts; witness of a missed undefined byte |
| C11 | Shadow, ShadowProps | shadow_copy_range | exact without overlap; two witnesses |
| C12 | ShadowTables | the literal lookup tables | kernel evaluation over the whole index set against bitwise definitions |
| C13 | Umbra64, Umbra64Props | umbra_64 translation arithmetic, map creation | arithmetic over all addresses |
| C14 | UmbraRange, UmbraRangeProps | range loops of umbra_64 | exact under conditions; witnesses (last byte dropped, overlap, fault handler) |
| C15 | RedBlack, RedBlackProps, RedBlackBal, RedBlackThms | redblack.c insert/delete/find/iterate | refinement to sorted disjoint interval lists over all histories |
| C16 | same | same | red-black invariants, height bound |
| C17 | same | rb_next_higher/lower, rb_max/min | witnesses; soundness, min and max exact |
| C18 | Regions, RegionsProps | heap_region_* over the tree | refinement to a byte set over all histories |
| C19 | Regions, RegionsProps | mmap_tree_* | witnesses; unmapping exact, adding exact over untracked addresses |
| C20 | Alloc, AllocInv..AllocThms | replace_alloc_common, free, realloc, free lists, delay list, coalescing, arena growth and release, large mappings | one heap invariant (chunk lists per arena, intermediate chunk states) kept by every function; run-level theorems against the application's own ledger |
| C21 | same | delay list with both limits | quarantine = longest suffix of the frees below the limits, over all runs |
| C22 | same | is_live_alloc, free, realloc of invalid pointers | ledger equivalence; forged-header witness |
| C23 | same | size rounding with 32-bit truncation, calloc overflow check | ledger equivalence; wrap witnesses; arithmetic of the overflow check |
| C24 | same | bucket_index, find_free_list_entry | invariant on the free lists; search exact |
| C25 | same | realloc contents (the shadow update is not modelled) | memory equation per call |
| C26 | same | alloc_iterate | walk equals the chunk lists, regions sorted |
| C27 | DelayFree, DelayFreeProps, DelayFreeRun, DelayFreeThms | client_handle_free, next_to_free, heap_destroy, overlaps_delayed_free in wrapping mode (one routine set, one thread) | refinement of the circular array to a list oldest first; permutation ledger, tree/ledger agreement over all runs; five witnesses |
| C28 | Leak, LeakProps, LeakForest, LeakSecond, LeakThms, LeakRange, LeakRangeProps | leak.c: interval tree of chunks, check_reachability_pointer, mark_indirect, both queues, both scans, reports; check_reachability_helper with memory query, definedness, stack and heap callbacks under stated requirements | reachability flag equals inductive reachability: loop invariants of the primary scan with queue measure; possible and definite leaks characterised; witnesses |
| C29 | same | same | forest invariant of the parent links (owner, depth, byte sums, chains inside a group) kept by every claim; sums over groups; witnesses |
| C30 | Callstack, CallstackProps (Modules) | 24/8-bit packing of module offsets | exact for all histories except listed offsets; witnesses |
| C31 | Callstack*, CallstackTable* | comparison, hash, clone, interning, reference counts | invariant over histories of the table |
| C32 | Modules, ModulesProps | module tree and its caches | invariant over load/unload histories |
| C33 | SymCache, SymCacheProps, SymCacheText, SymCacheRead, SymCacheRun, SymCacheReload, SymCacheReject | drsymcache.c on Linux: writer with its 4096-byte buffer, reader as sscanf/strchr over the mapped page, module table with load, unload, lookup, add, exit; dr_snprintf/dr_sscanf follow C without signs; hashtable as a finite map with arbitrary iteration order; one thread | text-format lemmas per field, file equation of the buffered writer, then invariants over all runs; witnesses |
| C34 | SymCache, SymCacheProps, SymCacheRun | symcache_symbol_add, drsymcache_lookup | refinement of the offset list and its hashtable to the list of additions |
| C35 | Mutator, MutatorEnum, MutatorProps | ordered bit-flip state machine | successor = enumeration of subsets |
| C36 | Mutator, MutatorProps | Fisher-Yates with 16-bit offsets | exact up to 4096 bytes; overflow witness |
| C37 | Mutator, MutatorProps | sparse enumeration | exact list of produced values; witnesses against the documented spacing |
| C38 | Md5, Md5Props | MD5 buffering and transform | equality with an RFC 1321 specification; induction over splits |
| C39 | Crc, CrcProps | CRC table and loop | equality with the polynomial remainder over GF(2) |
| C40 | LibcMem, LibcMemProps | memory routines of replace.c over faulting memory | loop invariants against list specifications |
| C41 | LibcStr, LibcStrProps | string routines of replace.c | same |
| C42 | Errors, ErrorsProps | error table, counts, throttling | induction over the error sequence |
| C43 | Errors, ErrorsLeak | leak statistics, nudge checkpoint, fork | induction over histories; witnesses |
| C44 | SymCache, SymCacheSafe | symcache_read_symfile on arbitrary bytes | no-crash postcondition through every scanning step; witnesses |
| C45 | Define, DefineProps, DefineSpec, DefineMoves | map_src_to_dst (non-VEX), shadow_combine_init, source loop, assign_register_shadow | byte origins from the Intel manual as specification; every destination byte characterised by the source bytes that flow to it; non-interference as corollary |
| C46 | Define, DefineProps, DefineShift, DefineThms | map_src_to_dst_shift | non-interference and precision against bit vector shifts, all sizes and counts; witnesses |
| C47 | Define, DefineShift, DefineThms | flags accumulation, eflags source and store | induction over the sources; witness |
| C48 | Define, DefineProps, DefineThms | array index of every accum_shadow call | out-of-bounds as recorded outcome; witness |
| C49 | DefineAndOr, DefineAndOrProps | check_andor_sources, check_andor_vals, check_andor_bitmask_immed, flags redo | loop invariant; exactness against dependence on undefined data; witnesses |
| C50 | MemRef, MemRefProps, MemRefThms, MemRefStack, MemRefAbort, MemRefDword | handle_mem_ref_internal with all its flags: the loop over the bytes with its state variables, the exceptions as arbitrary predicates on addresses, the red zone below the stack, MAP_4B_TO_1B; addresses are natural numbers (no wrap at 2^64); statistics, logging and the special shadow blocks are left out | independent description of the maximal runs (Runs) shown unique, then a loop invariant that the runs so far plus the pending run describe the prefix; a second invariant for aborting references; a third for one shadow value per dword; witnesses |
| C51 | Stack, StackProps, StackThms | handle_esp_adjust, check_stack_swap, handle_push_addressable, and per instruction the order of references and adjustment (instru.c); push and pop are the model of C50; the lookup of region bounds is arbitrary but knows the stack; no wrap of addresses; the zeroing action, the fast path and the tuning of the threshold (theorems hold for every threshold) are left out | invariant relating shadow and stack pointer of the machine, by induction over instruction sequences; ghost set of stale bytes; witnesses |
| C52 | HeapShadow, HeapShadowProps, HeapShadowThms, HeapShadowDword | client_handle_malloc/free/realloc/mmap/munmap/mremap on a byte or dword shadow, driven by the allocator model of C19-C21 and the references of C50; only the option -shadowing, no pattern mode; addresses do not wrap | refinement to a list of blocks with one initialised bit per byte, by induction over runs; independent case analysis of realloc for all overlaps; second invariant for the dword shadow; witnesses for mremap |
| C53 | Options, OptionsProps, OptionsThms, OptionsMulti, OptionsNum | the frontend's quoting of arguments, get_option_word, the option loop of options_init, the readers of all option types, the option table generated from optionsx.h (202 options with both spellings and ranges), the walk over repeatable options; not: the buffer limit of the frontend (assumed respected), dr_sscanf beyond digits/sign/0x (unspecified cases are a separate outcome), the special frontend options and the dependent options (C54) | the option string of any argument list parses to the assignments of that list (spec `asgs` on words); the table is checked once for all 338 spellings being different (finite table); the buffer of a repeatable option is the packing of its strings by induction; numbers against Nat.toDigits |
| C54 | OptDeps, OptDepsEqs, OptDepsThms | the second half of options_init (dependent options) on the 32 options it reads and writes, usage errors as a flag; not: -fuzz*, -brief, -visual_studio, which set none of these | every stage option by option, then case analysis over all values; witnesses for contradictory pairs by evaluation |
| C55 | Pattern, PatternProps, PatternInv, PatternThms | pattern_write_pattern, the handlers of allocator events, pattern_create_check_opnds, the fault handler with pattern_addr_pre_check, region_in_redzone and the walk over one arena, with allocator events as a transition system over chunks; not: elision of checks, the malloc tree of the wrapping allocator, benign exceptions, several memory operands | invariant over all runs (undamaged guard bytes hold the pattern), counting in the pre-check as an equivalence, soundness from the chunk lookup; witnesses for what is missed |
| C56 | SysArgs, SysTable, SysArgsProps, SysArgsThms, SysTableThms | process_pre/post_syscall_reads_and_writes, sysarg_get_size, drsys_param_type-independent part of the loops, report_memarg flags and the client's reaction (drmemory/syscall.c), the whole of table_linux.c (395 entries, 64-bit sizes, generated); not: the secondary tables of ioctl and prctl, 32-bit sizes of structures, Windows tables | the table satisfies a well-formedness predicate (finite table, kernel evaluation); for any well-formed table the loops deliver for a plain parameter what a specification on the filtered entries says (induction over the table split at the parameter) |
| C57 | SysArgs, SysLinuxThms | os_handle_pre/post_syscall_arg_access, handle_cstring, handle_sockaddr, check_iov, check_strarray, check_msghdr, check_msgbuf, handle_pre_select, poll, process_vm_readv/writev, arch_prctl for 64 bits; not: ioctl, ipc, socketcall, semctl, msgctl, shmctl, prctl, clone, rt_sigaction, futex | set or list of addresses covered by the reported ranges against the layout in memory (predicates IovAt, StrAt, StrsAt, MsgAt), by induction over vectors and strings |
| C58 | SysUnknown, SysUnknownThms | handle_pre_unknown_syscall and handle_post_unknown_syscall (both passes) for 64-bit Linux, the kernel as an arbitrary set of written bytes with arbitrary values, the client's marking of reported bytes; not: other threads, changes of page permissions during the call, wrap-around of addresses | invariant over the parameters (each byte is original or a sentinel saved by the first parameter that tracks it), the first pass marks a set closed under 'same report', the last pass byte by byte |
| C59 | Umbra32, Umbra32Inv, Umbra32Put, Umbra32Loop, Umbra32Ops, Umbra32Copy, Umbra32Thms, Umbra32Use | umbra_32.c: shadow table with wrapping displacements, creation of normal, special and default blocks with redzones and page permissions, replacement on write, all range functions with APP_RANGE_LOOP, search, copy, type, iteration, clearing, inserted translation code for x86 and ARM; a store to a page that is not writable is an error of its own (`fault`), so refinement implies that it never happens; not: locking, umbra_get_shadow_memory_arch, the caller umbra.c, map destruction | invariant (blocks in use do not meet, shared blocks hold their value, private blocks are writable and owned by one entry) preserved by every call; view as a function from index to optional byte; refinement by induction over histories to a specification without blocks |
| C60 | EspFast, EspFastRun, EspFastLoop, EspFastBlocks, EspFastOuter, EspFastEnds, EspFastThms, EspFastAnd, EspFastPatch | stack_x86.c: every instruction of the routine that generate_shared_esp_fastpath_helper emits (32-bit, -shared_slowpath, no statistics), for the six kinds of change, both actions and both states of the flags; registers, spill slots, flags, conditional jumps that depend on flags not set by a comparison are stuck; shadow memory is the table of C59, a store to a read-only block goes to the slow path (handle_special_shadow_fault); esp_fastpath_update_swap_threshold as a change of the instruction list; not: the code around the call (spills), the slow path itself (see the stack property), insert_zeroing_loop, 64-bit | symbolic execution with one lemma per label, induction on the bytes of each inner loop, strong induction on the remaining dwords over the blocks |
| C61 | FastX86, FastX86Run, FastX86Pre, FastX86Checks, FastX86Stage, FastX86Clear, FastX86Dst, FastX86Dst2, FastX86Dst3, FastX86Ext, FastX86Prop, FastX86Shape, FastX86Reg, FastX86Load, FastX86Store, FastX86Store2, FastX86Zero, FastX86Slow, FastX86Thms, FastX86Wrong, FastX86Shift | fastpath_x86.c: the generator for one instruction (adjusting of operands, address and table lookup, checks of definedness and addressability, loading, merging and shifting of shadow values, all forms of add_dst_shadow_write) and a machine for the emitted code with registers split into byte parts, encodability of every instruction, and the static shadow tables of ShadowTables; 32-bit, default options, operands of 1, 2 and 4 bytes, at most one memory operand | every emitted sequence executed symbolically; the code before the propagation is a chain of stages each of which passes exactly under a condition on the shadow; the result of the propagation compared digit by digit with a specification that only mentions the operands. C61_guard and C61_slow_unchanged hold for all modelled instructions without exception; C61_result_partial leaves out the forms shown wrong by witnesses and some forms with two sub-dword destinations |
| C62 | BlockChecks, BlockChecksThms | instru.c:1196-1283 (forgetting of written registers, jumps left alone, choice of fast or slow path), fastpath_x86.c:1867-1919, 3347-3402, 3815-3823 (which checks are emitted and what is remembered) and what the instrumented block does at run time, with the slow path reporting and marking (slowpath.c). A shadow register is one bit; what instructions write and all other checks are arbitrary functions of the state; -leave_uninit off; rep string instructions expanded to loops not treated. | Invariant (what is remembered is true) and lock-step comparison with the instrumentation that leaves out nothing, by induction over the block. |
| C63 | Spill, SpillThms | spill.c:885-1157, 1395-1688, 1770-1781 and the liveness of fastpath_x86.c:140-205: the generator of all spills and restores of scratch registers and flags (lahf/seto/add/sahf, exchange with a free scratch register or slot 5 for eax) and a machine that runs the code. Instructions and the code inserted besides spills are arbitrary functions that keep to their decoded operands and to what they asked for; the search for the place of a spill is replaced by its result; -share_xl8 (off by default), fault handling and code expanded to loops left out. | Simulation invariant (each register and flag is either right in the register or slot the generator thinks, or written before it is read) by induction over the block. |
| C64 | SpillFault | spill.c:381-472 (event_restore_state) and 1706-1724 (the record of a block), on top of the model of C63; pattern mode, faults in the inserted code itself and repeated string instructions left out. | The simulation invariant of C63 at the faulting instruction, monotonicity of what is in use, and concrete blocks for the negative parts. |
| C65 | SysFile, SysFileThms | drsyscall_fileparse.c:27-170 (reader), pdb2sysfile.cpp:864-932 (writer), drsyscall_windows.c:417-480 and 587-598 (table of names). Text is a list of characters, pointers are suffixes; a null pointer passed to strncmp is an outcome of its own. Not modelled: symbol search and decoding of wrappers, dr_sscanf beyond plain digits, reading past a mapping without zero padding, the table of user calls. | The documented format is stated on its own (Listing.text, fileText); induction over the entries and the lists; round trip through C65_read; safety by the invariant that every suffix ends with a newline; lookup by induction over the recorded entries. |
| C66 | MemLayout, MemLayoutThms, MemLayoutGrammar | memlayout.c:103-309, all text that is printed, character by character. Inputs: the nodes of the two trees in order (the tree itself is C15), memory, frames with names. bool is either _Bool or char, which DynamoRIO's headers decide. | The specification is a JSON reader (a stack machine that goes through the text once) and the expected value (layoutJ), whose pieces are given by division rather than by the loop. The reader is run over the text piece by piece. It is proved complete for the JSON grammar stated as inductive relations, so that refusal means not JSON. |
| C67 | RegShadow, RegShadowThms, RegShadowMore | the shadow of the registers as bytes at offsets, shadow.c:1482-1981; check and marking of a source register, slowpath.c:420-435 and 1829-1859; the writes of assign_register_shadow, slowpath.c:407-417, with the VEX and 32-bit cases of slowpath_x86.c:2019-2040; start of a thread on Linux; offsets used by the fast path. | The specification gives each byte of each machine register its own two bits (bits) and each register name a range of bytes (part). set_2bits is checked over its whole table; the rest is arithmetic on offsets and induction over the bytes of a write. |
| C68 | HeapStat, HeapStatSpread, HeapStatAcct, HeapStatRun, HeapStatHist, HeapStatThms | reset_intervals, difference_exceeds_percent, check_for_peak, take_snapshot with its search loop, account_for_bytes_pre/post, client_add/remove_malloc, client_handle_realloc, snapshot_dump_all and the filter of dump_snapshot (drheapstat.c:177-211, 394-716, 733-950); not -dump, -staleness, the reset after a fork, locks, wrapping of the 64-bit counters | invariant of the slots (each multiple of the period in exactly one slot; a full array is counted by pigeonhole) by induction over the run; exactness of totals and nodes against the multiset of live blocks, carried through each copy; 'every earlier heap is covered by the peak or not larger than now' for the peak; witnesses for the findings, the division by zero by following the run to the end of the period |
| C69 | Stale, StaleSnap, StaleStep, StaleThms, StaleRun | the shadow byte per 8 bytes with shadow_set_range and shadow_val_in_range, handle_mem_ref and the store of the fast path, the sweep, the compressed snapshot with its extension array, its accessors and its release (staleness.c:43-196, 263-281, 380-607), and where snapshots fall around allocation, free, in-place realloc and heap destruction (drheapstat.c:528-600, 815-856, 926-945; alloc_replace.c:771-784, 2037-2053, 2148-2163, 2246-2281); not the choice of fast or slow path, -stale_ignore_sp, races with the sweeping thread, Umbra below the level of granules | round trip of the records by an invariant over the walk; an invariant of runs (blocks apart, count right, times not in the future); agreement of one block with a byte-level specification by induction over the run, corollaries for last use, fresh memory, small blocks; concrete witnesses for the disagreements |
| C70 | DrFuzz, DrFuzzThms, DrFuzzMem, DrFuzzMore, DrFuzzFault | drfuzz.c for one thread: the table of targets, the live stack and the cache, the handlers before and after an iteration, argument access, per-thread user data, block counts, the fault handler, the target iterator and the exit of the thread. drwrap and the client are events with arbitrary effects; the wrap context is an address. Not modelled: user data of a target as such, registration of callbacks (all are registered), other threads, loading of mutator libraries. | Refinement to a machine that only has a call stack (C70_iterations, C70_get_arg, C70_blocks, C70_faults); invariants by induction over runs for the memory and the client data, counted with multiplicity (C70_memory, C70_user_data, C70_fault_delete); C70_cache is an induction over the nesting; C70_safe_partial shows that a run without faults and removals never fails; C70_fault_twice and C70_fault_exit show the double free from every state; the other negations are concrete runs |
| C71 | FuzzDriver, FuzzDriverThms, FuzzDriverPass, FuzzDriverProps, FuzzDriverCorpus, FuzzDriverCorpusRun, FuzzDriverCorpusThms, FuzzDriverCorpusSeq, FuzzDriverWrong, FuzzDriverMore | the callbacks of fuzzer.c before and after an iteration: which calls are fuzzed, loading the input, starting, copying and stopping mutators, the corpus phases, repetition, the shadow kept for a pass. The mutator library is a parameter that gives values of the size of its seed; the target may leave anything in its buffer and shadow. A file is its bytes or cannot be opened. Not modelled: parsing the target descriptor and the options, finding the target in a module, redzones of the replacement buffer, leak scans and statistics after an iteration, the error report, recursion (C70_recursion). | Invariant by induction over all runs and threads (C71_safe); refinement of a pass to the sequence of values of the mutator (C71_pass, C71_values) and, with a corpus, to a machine with files, mutators and a turn (C71_corpus_partial), for which closed forms are proved by induction (C71_corpus_files, C71_corpus_turns, C71_corpus_dumps, C71_corpus_mutators); the disagreements are concrete runs |
| C72 | HandleCheck, HandleCheckThms, HandleCheckSafe, HandleCheckExact, HandleCheckProps, HandleCheckList | the tables of handlecheck.c for kernel, GDI and user handles, the reference counts of the call stacks, the pairs of opening and closing call stacks, the calls of syscall_windows.c:333-625 before and after a system call that opens or closes a handle, the report at exit and on a nudge, and the search for the process's entries in the list of the system. The kernel is a world: which handles are open and who opened them, closes by other processes, and threads in the middle of a system call. The text of call stacks and of names, the decoding of the arguments of each call, and the locks are not modelled: an event of the tables is one step | a reference-count invariant over all runs (every step succeeds; the counts are the table, the entries, the closes under way and the pairs), an agreement of the tables with the kernel over calm runs, and reports derived from both; the search refines a specification by runs of entries; concrete runs for the shortfalls |
| C73 | GdiCheck, GdiCheckThms, GdiCheckProps, GdiCheckWrong | gdicheck.c: the table of device contexts with its thread, origin and 32-bit count of selected objects, the table of selected objects, the paint device context of each thread, and the calls made by syscall_wingdi.c:181-263 before and after a system call. GDI is a world: the live device contexts with the object in each of their four slots, the threads that have exited, and the nested paints. Call stacks, the text of reports and the locks are not modelled; thread ids are taken not to be reused | an agreement of the tables with GDI kept by every plain call, another one of the counts and selected objects kept by every tidy call, and from each an equivalence of the reports of the next call with the rules; runs computed by the kernel for the shortfalls |
| C74 | Wrap, WrapThms, WrapProps, WrapRealloc, WrapWrong | common/alloc.c with -no_replace_malloc on Linux: the sizes asked of the allocator (5602-5671, 6149-6193), the entry made after the call (5754-5812, 5880-5918), the free with its check of the routine and of the neighbours 4 bytes away (5213-5488), size queries (5520-5596), realloc as it is (5952-6119) and its replacement with the copy (alloc_unopt.c:34-88). The allocator is a world that fails or gives out room where nothing is; the threads interleave between the step before a call, the allocator and the step after it. Nested calls of heap routines, the trees of large blocks and Windows are not modelled | an invariant with a role for each block of the allocator (owned, in a call's hands, kept, about to be freed), kept by every step; the properties follow from it; the copy by induction on its loops; runs computed by the kernel for the shortfalls |
| C75 | FuzzTarget, FuzzTargetThms, FuzzTargetProps, FuzzTargetWrong | drmemory/fuzzer.c: the tokenizer (1790-1938), the descriptor parser (1946-2078), the table of calling conventions (907-994), the start of a target by descriptor (554-596) and by options (379-433), and the events of modules (1706-1723, 1776-1788). dr_get_token and dr_sscanf are not in the repository: white space separates, digits are read as far as they go, 32 bits are stored; quotes are left out. Whether register_fuzz_target succeeds is a choice of the event | each field of a well-formed descriptor is read as it is, from which the whole; for any accepted descriptor the white space used up is counted; induction over the events; runs computed by the kernel for the shortfalls |
| C76 | WrapNest, WrapNestThms, WrapNestProps, WrapNestWrong | common/alloc.c: the data of a thread between the hooks (169-230), enter_heap_routine, check_recursive_same_sequence and set_handling_heap_layer (4998-5122), record_allocator (5180-5207), the pre and post handlers as far as they read or set that data (5290-6237), handle_alloc_pre_ex, handle_alloc_post_func and handle_alloc_post (6607-6896). Linux, one thread, without -conservative. The stack of active calls is drwrap's, which is not in the repository: a call that an exception has left gets its post hook with no context | the active calls are kept beside the model, and an invariant ties the counters, the recorded routines and the kept arguments to them, by induction over all sequences of calls, returns and exceptions; a second invariant, without exceptions, ties the flags; runs computed by the kernel for the shortfalls |
| C77 | SysReq, SysReqThms, SysReqProps | drsyscall/drsyscall_linux.c on x86-64: handle_clone, the ioctl handlers, ipc_sem_len, handle_semctl, handle_msgctl, handle_shmctl, the prctl handlers (261-455, 946-1215, 1507-1597) and the cases of rt_sigaction, futex, mremap, open, fcntl and _sysctl in os_handle_pre_syscall and os_handle_post_syscall; report_memarg_ex and the iteration over values in drsyscall.c. Request numbers and structure sizes are those of the Linux headers. Reading unreadable memory without safe_read, and the kernel writing beyond a local variable, are outcomes of their own. The kernel's side (man pages) is a table in the statement; 32-bit socketcall and ipc are not modelled | by cases on the table of requests, for every parameter, memory and result; what is covered is stated byte by byte |
| C78 | Ltrace, LtraceThms, LtraceProps | drltrace/drltrace_libcalls.cpp (36-367): cutting the prototype file into lines and fields, the types and marks, the table; drltrace/drltrace.cpp: print_simple_value, print_string, print_arg, drlib_iter_arg_cb, print_libcall_args, print_symbolic_args (78-231), start-up and exit of the table (421-428, 495-527). 64-bit release build, both systems. Printed text is represented by the values in it; the hash table is a list with the same lookup; the prototypes of the system call library are a parameter. Which exports are wrapped, the return address and the log file are not modelled | round trip for fields and types over all spellings; induction over the lines for the table; cases for printing |
| C79 | Mapping, MappingThms, MappingProps | drmemory/alloc_drmem.c: mmap_tree_add/remove/lookup (273-341), client_handle_mmap/munmap/munmap_fail/mremap, Linux parts (1087-1204); common/alloc.c: the calls themselves (4440-4452, 4780-4875); drmemory/drmemory.c: mmap_walk, Linux part (801-848); drmemory/syscall_linux.c: handle_clone, check_prctl_allowlist, handle_pre_prctl (78-244); drmemory/shadow.c: shadow_prev_dword (894-934); drmemory/stack.c: check_stack_size_vs_threshold (72-97). The shadow is a state per byte (C09, C11 are about its representation), the table of mappings a list (C15, C19 are about the tree); heap regions are C18; dr_query_memory and dr_lookup_module are parameters. brk, mprotect and clone3 (which the tool does not look at) are not modelled | invariant by induction over histories against the kernel's set of mapped bytes; induction over the walk; cases for the rest |
| C80 | Strace, StraceProps | drstrace/drstrace.c: from print_unicode_string to drsys_iter_arg_cb (98-509), drsyscall/drsyscall.c: the value of an inlined parameter (1773-1788). Text is a list of tokens (fixed text, numbers, marks); number formats, commas and the trailing type names are left out. Debug information (drsym) and the table of named constants are parameters; structures are those of 64-bit Windows | mutual induction over types against C's layout (offsets by alignment); induction over memory reads and texts; cases for the rest |
| C81 | Transfer, TransferProps | drmemory/alloc_drmem.c: handle_Ki, handle_cbret, client_stack_alloc, client_stack_dealloc (1206-1338), adjust_stack_to_context, NtContinue and sigaltstack in client_pre_syscall and client_post_syscall (1378-1537), handle_signal_delivery, handle_signal_return, event_kernel_xfer (1552-1657). The shadow is a state per byte (C09); the core's events and contexts are parameters; what a handler does to the shadow is a hypothesis (C51 is about the stack pointer). The bookkeeping of heap critical sections and nested callback contexts is not modelled | induction over the walks; induction over histories of sigaltstack calls; round trips pointwise against a small specification of a stack |
| C82 | Except, ExceptProps | drmemory/alloc_drmem.c:1663-2501 (check_unaddressable_exceptions and the patterns, x86), fastpath_x86.c:3223-3241 (the table of probes), drmemory.c:749-800 (mmap_walk on Windows). Instructions are decoded ones; decoding, safe reads, heap regions, modules and the thread's state are parameters. ARM and macOS are not modelled; that the fast path ignores what the table says is not either | decision logic against listings of code given as inductive predicates; induction over the pieces of an allocation; composition with C50 |
| C83 | Uninit, UninitProps | drmemory/slowpath_x86.c:418-922 (x86), drmemory/slowpath.c:848-862, drmemory/spill.c:539-546. An instruction is what the code asks DynamoRIO about it; code bytes, decoding and safe reads are parameters; segment registers are left out. What the instructions compute (integers of any width, packed subtraction, a float minus itself) is a separate specification. The copying of the definedness itself is that of C50 | decision logic against listings given as inductive predicates; independence of results proved for all widths; induction over the instructions between load and store, with any effect of these on the machine; induction over the events while a copy is under way |
| C84 | Walk, WalkProps, WalkLow | common/callstack.c:1047-1164 (64-bit x86 on Linux), 1365-1618, 1713-2004, without FP_SEARCH_REQUIRE_FP (never set by Dr. Memory), for a packed callstack without callback and without libunwind. check_retaddr_targets_frame, the tables and ignore_xbp are arbitrary functions; memory is fixed during a walk and readable by page; the page buffer is left out. How stack_lowest_frame is set at the end of a walk (399-419, 2010-2019) is modelled in WalkLow; the theorems of WalkProps hold for any value of it | termination and order by induction over the rounds with an invariant on the cache of scans that every history of walks keeps; refinement of a chain of frames by induction over the chain; exact characterisation of each decision; encodings of near calls as a separate specification |
| C85 | Annot, AnnotProps | drmemory/annotations.c:48-92 and the registrations of 103-134 as the kinds of request, 64-bit Linux, on the model of shadow.c:603-655, 732-752. DynamoRIO's recognition of requests is not modelled; the search for leaks is only counted; handle_dump_memory_layout is not included. | The specification says for each byte what a set of requests makes of it; an induction over the sequence shows that the shadow memory follows it. Independence of order and the acceptance by shadow_check_range (C10) are consequences. |
| C86 | Target, TargetProps | common/callstack.c:1201-1363 for 64-bit x86; module_lookup, the ranges of the tools and funcoffs (lookup_func_and_line) are arbitrary functions; memory is readable by page. This is the function that the walk of C84 takes as a parameter. | calls, stubs and pointers as predicates on the bytes in memory, with signed displacements as integers; the code's reads and tests are shown equivalent to them, then each decision is characterised; concrete witnesses for the failures |

## Where code and property disagree

Each line is proved as a witness theorem (named in brackets) unless marked "read".

* C04: find_next_line reads before and after the mapping and leaves the last line untrimmed
  [C04_reads_before_mapping, C04_reads_after_mapping, C04_last_line_untrimmed].
* C05: over-suppression and missed suppression with ellipses [C05_over_suppression, C05_missed_suppression,
  C05_module_ellipsis_matches_zero].
* C06: module names with '+', frames without module, type prefixes [C06_plus_in_module_name, C06_unnamed_module,
  C06_type_prefix].
* C08: shadow_get_qword over an unallocated block [C08_qword_unallocated].
* C10: an undefined byte is missed for unaligned starts [C10_missed_undefined].
* C11: short unaligned copies, forward overlap [C11_short_unaligned, C11_forward_overlap].
* C13: the inline translation differs outside the application segments [C13_inline_disagrees].
* C14: the last byte of a range may be dropped, overlapping copies, the fault handler clobbers the next block
  [C14_last_byte_dropped, C14_copy_overlap, C14_fault_clobbers_next_block].
* C15: release builds accept overlapping insertions [C15_release_overlap].
* C17: rb_next_higher/lower do not return the nearest node [C17_next_higher_misses, C17_next_higher_not_nearest,
  C17_next_lower_not_nearest].
* C19: adding over several mappings loses memory; release builds miss one [C19_merge_loses, C19_release_misses].
* C20: when the system refuses memory after a second arena exists, the allocator gives up delayed frees
  searching only the last arena and follows a null pointer [C20_total_needs_memory].
* C21: the quarantine holds at most limit - 1 blocks; a limit of 1 disables it [C21_limit_one].
* C22: the check on freed pointers is a heuristic; bytes that look like a header are accepted [C22_forged].
* C23: 64-bit requests just below 4 GB get a 16-byte chunk; large alignments are rounded to less than the
  request; the 64-bit overflow check of calloc compares the middle product without its factor 2^32, so
  `calloc(2^32 + 65536, 2^32 - 65535)` returns 64 KB [C23_wraps, C23_memalign_wraps, C23_calloc64_misses].
* C30: offsets that are multiples of 2^24-1, beyond 129*(2^24-1), modules reloaded with a larger size
  [C30_multiple, C30_huge, C30_reload].
* C31: comparison confuses stacks with those offsets; cloning an empty stack [C31_cmp_confuses, C31_clone_empty].
* C27: a full queue over the byte limit overwrites its oldest block when a later one is given up, so that block is
  never freed and stays in the tree; destroyed heaps stay in the byte count; a block given up while the queue is not
  full is freed with the handle of the calling heap; the search does not wrap [C27_lost, C27_lost_stale,
  C27_bytes_after_destroy, C27_wrong_heap, C27_no_wrap].
* C28: a zero-size block is always reported as leak; a block reached through a mid-block pointer and more
  pointers may be reported as definite leak [C28_zero_size, C28_maybe_child, C28_maybe_cycle].
* C29: one strongly connected structure with two direct leaks; ignored blocks count as indirect bytes
  and hide nothing behind them [C29_two_leaks, C29_ignored].
* C32: is_in_module for modules with unaligned ends and for page 0 [C32_is_in_module_unaligned, C32_is_in_module_page0].
* C33, C34, C44: names with commas, newlines or of 256 characters and offsets from 2^32 on do not survive the file; a
  shared preferred name overwrites a file; adding "not found" after exactly one offset aborts; 2^64-1 is duplicated;
  truncated files crash the reader [C33_comma, C33_long, C33_large, C33_large_abort, C33_same_name, C34_zero_after,
  C34_max_offset, C44_crash, C44_crash_page, C44_abort]. Read: the NULL check of `strchr(line, ',') + 1`
  (drsymcache.c:496-501) cannot fail; `appended` is never reset, so every save rewrites the file.
* C36, C37: 16-bit differences overflow beyond 4096 bytes; sparse enumeration restarts per number of bits and its
  index can overflow [C36_large, C37_not_every_sth, C37_wrap].
* C39: the half checksum covers len/2+1 bytes and is unset for length 0 [C39_half_prefix_off_by_one, C39_half_unset].
* C40, C41: wmemcmp subtracts with overflow; strspn/strcspn write past a 255-entry table [C40_wmemcmp_overflow,
  C41_strspn_255]. Read: wcscmp/wcsncmp compare as unsigned although wchar_t is signed on Linux.
* C42, C43: counts wrap at 2^32; unique leaks found again are counted in the wrong set; a hidden possible leak makes
  the total wrap; a forked child keeps the bytes of reachable leaks [C42_count_wraps, C43_unique_wrong,
  C43_total_underflow, C43_fork_reachable].
* C45: shufpd with immediate other than 0 and all of pshufd/pshufb/blends lose undefinedness; movhps from memory marks
  the wrong half; movhlps as 8-byte operand takes the wrong half; insertps leaves a byte of each zeroed element;
  pextr does not mask its immediate; xadd follows one operand [C45_shufpd, C45_pshufd, C45_movhps_load, C45_movhlps,
  C45_insertps_zero, C45_pextr_mask, C45_xadd].
* C46: sar by a count that is not a multiple of 8 misses one byte; counts are not masked to 5 or 6 bits; a shift by 0
  defines the flags; rotates stay in place [C46_sar, C46_masked_count, C46_zero_count, C46_rotate].
* C47: undefined flags reach byte 0 of the destination only [C47_flags_one_byte].
* C48: pinsr with an immediate from 32 bytes on writes outside the array [C48_overflow].
* C49: or with 0xff is not recognised; or with any defined value and bitfield masks are taken as defined (documented
  heuristics); DWORD2BYTE is wrong for bytes 3 to 6 of eight-byte operands; memory operands are read into an
  uninitialised variable [C49_or_ff, C49_or_relaxed, C49_and_64, C49_and_64_false, C49_garbage].
* C50: a copy through a vector register whose source overlaps the destination from below smears the definedness of the
  first byte; a copy from partly unaddressable memory makes the destination unaddressable; with one shadow value per
  dword the loop looks at the second byte of every later dword, misses a last byte that is the first of a dword, and
  reports an aligned qword twice [C50_copy_overlap, C50_copy_unaddr, C50_dword_missed, C50_dword_split].
* C51: `ret n` counts four bytes of return address in 64-bit processes; `enter` adjusts from the stack pointer before
  its push; a large move to the upper end of the stack counts as a swap; a sub forgets the definedness of the part of
  the red zone that stays in the red zone [C51_ret_imm, C51_enter, C51_top, C51_redzone_lost].
- `client_handle_mremap` never makes the old range unaddressable when the mapping moves, and marks the
  pages added to an anonymous mapping uninitialised although the kernel zeroes them
  [C52_mremap_old, C52_mremap_zero].
- `client_handle_munmap_fail` marks the whole range defined after a failed munmap, whatever it was (read;
  FIXME in the code).
* Read, not proved: the loop counter of handle_mem_ref_internal is a uint and the size a size_t, so a reference of 2^32
  bytes never ends; check_mem_opnd_arch (slowpath_x86.c:2436) leaves the scan of a repeated scas when the read
  *succeeds*; check_register_defined shifts by 32 for a 16-byte operand.
* Read, not proved: drmem_strndup (common/utils_shared.c) reads `src[max]` before its bound check; `num_reported_errors
  > 0` (drmemory/report.c:1850) compares an array pointer; posix_memalign returns 0 on failure
  (common/alloc_replace.c); annotations.c:90 calls check_reachability without the checkpoint, so leaks are counted
  twice; handle_callstack_info_free (handlecheck.c) leaves table entries with count 1 until exit.
- Options: an argument with a back quote is taken apart by the tool, and a part of a path can become an option
  [C53_backtick].
- Options: an option without an old spelling is also matched by a dash and two double quotes, because the empty old
  spelling is compared as the text of its literal; the first such option is -light [C53_quotes].
- Options: characters after a number are ignored, `-callstack_max_frames 1O` is 1 [C53_number_garbage].
- Options: the frontend looks for the new spelling of -lib_blocklist_default only, so the value a user gives with the
  old spelling is overridden [C53_old_spelling].
- Options: -fuzz_mutator_ops is declared repeatable, but only its first string is used (read, fuzzer.c:466-473).
- Options: `-perturb_only -light` checks memory references without tracking allocations [C54_perturb_light];
  `-native_parent -unaddr_only` is rejected although -light and -pattern are taken back for that case
  [C54_native_unaddr]; `-leaks_only -pattern` is accepted and the pattern ignored, the error message for it cannot be
  reached [C54_leaks_pattern]; `-unaddr_only -pattern 0` checks uninitialised reads [C54_unaddr_pattern];
  `-light -redzone_size 8` is accepted on 64 bits, where the allocator asserts a multiple of 16 [C54_redzone_light].
- Pattern mode: for a one-byte access with four-byte compares (`-pattern_max_2byte_faults 0`, and by default after
  4096 faults) pattern.c:355 moves the displacement of `refs[1]` instead of `refs[2]`; the access at the last even
  address of a redzone is missed [C55_four_misses].
- Pattern mode: missed are the last byte of a redzone [C55_last_byte_missed], accesses of two or more bytes at odd
  addresses [C55_odd_missed], overflows that start inside the block and equal fewer than four bytes of pattern
  [C55_tail_missed], and a second error near the first [C55_second_missed]. Memory arguments of system calls are not
  checked at all: drsys_iter_memarg_cb (drmemory/syscall.c:349-391) returns early without shadow memory.
- Pattern mode: an access that starts in live data equal to the pattern and runs over the end of the block sets its
  first byte to 0 before the application reads it, even if a benign exception suppresses the report [C55_clobber].
- System calls: a read() that returns 0 (end of file) marks the whole buffer as defined [C56_read_eof]; the same holds
  for the other calls whose second entry takes its size from the result [C56_result_zero].
- recvfrom/recv mark the whole buffer whatever was received [C56_recvfrom_short]; with a null address the four bytes of
  the length are marked though the kernel does not touch them [C56_recvfrom_null].
- accept, getsockname, getpeername have SYSARG_WRITE only on the length that the kernel reads [C56_accept_len].
- readv, writev (and preadv, pwritev) have no entries: nothing is checked or marked [C56_readv].
- capget/capset use the sizes of pointer types [C56_capget]; a count of all ones is mistaken for a marker
  [C56_all_ones].
- sendmsg: check_iov is called with limit 0, so that no byte of the data is checked [C57_sendmsg_data,
  C57_sendmsg_missed]; recvmsg: the length of the address is not recorded before the call, so that the address is cut
  to whatever an earlier call recorded [C57_recvmsg_sockLen, C57_recvmsg_name_missed], and the range checked before
  the call has four uninitialised bytes of a local variable in its length [C57_recvmsg_junk].
- select rounds the number of descriptors down to bytes: below 8 nothing is checked [C57_select_missed]; poll marks
  the returned events also after a failure [C57_poll_failed].
- arch_prctl(ARCH_SET_FS) marks the memory at the new base as written, arch_prctl(ARCH_GET_GS) marks nothing
  [C57_arch_prctl]; a string without nul is marked one byte too far [C57_string_unterminated]; a Unix socket address
  with a length below 2 wraps around [C57_sockaddr_wrap]; execve never checks the arrays of pointers [C57_strings].
- Read, not modelled: futex compares its operation without masking FUTEX_PRIVATE_FLAG, so that the timeout of private
  futexes is not checked; the test in auxlib_check_sysparam is inverted; check_iov reports the vector itself with the
  flags of the data.
- Unknown system calls with `-syscall_sentinels` (off by default): together with the default
  `-syscall_dword_granularity` the sentinel stays in bytes that share a dword with a written byte
  [C58_dword_sentinel]; `sysarg_sz` is not reset for a parameter that points inside the memory of an earlier one, and
  with the size of an earlier call application memory is overwritten and not restored [C58_stale_size]; a byte 0xab
  written by the kernel is replaced by the old value [C58_kernel_sentinel].
- Unknown system calls: a parameter that points inside the memory tracked for an earlier one is not tracked
  [C58_inside_missed]; by default bytes next to a written byte count as written [C58_dword_extra].
- 32-bit Umbra: copying to a destination inside the source writes the saved tail too far, because `app_dst` was
  advanced by the loop [C59_copy_overlap]; ranges that end one byte into a block lose that byte [C59_last_byte];
  redzones of shared blocks are readable even if faulty redzones were asked for [C59_redzone_shared];
  `umbra_get_shared_shadow_block` reports success without a block [C59_get_shared]; a create-on-touch map without
  redzones reports the lowest addresses as shadow [C59_type_low]; values above 255 are searched by their low byte
  [C59_search_wide]; shadow cannot be created with value 255 [C59_create_255]. Read, not modelled: with faulty redzones
  `umbra_map_arch_init` sets `map->options.redzone_size` but validates `ops->redzone_size`.
- Fast path for stack changes: after the first shadow block the routine for `and` adds the new stack pointer to the old
  one (stack_x86.c:1004-1019 handle only the two other absolute kinds), so with a swap threshold of 64 KB or more
  memory that is not stack becomes undefined [C60_and_wrong]; a routine for defined memory continues in the slow path
  that makes memory undefined [C60_defined_slow]; when the swap threshold is changed the routines for `leave` and
  `and` keep the old one [C60_threshold_stale]. Read, not modelled: without -shared_slowpath the clean call passes the
  negated amount for `sub`, which the callee negates again.
- **Fast path for ordinary instructions** (fastpath_x86.c). Storing ah, bh, ch or dh to an address that is a multiple of
  4 propagates the state of the low byte of the register, so an undefined byte can become defined and conversely
  [C61_high_byte_store]. When the sources of a store of 1 or 2 bytes are checked for definedness (e.g. `orb $1,(mem)`),
  the propagation uses an effective size of 4 (4131-4148), so all four bytes of the aligned dword become
  defined, among them unaddressable ones [C61_checked_part]. For an instruction without operands that writes flags (clc,
  stc) the size is set to 1 (806-817) and code with null operands is built [C61_null_operand]. For
  shifts by a multiple of 8: sar keeps the bytes shifted out, 1- and 2-byte shifts take in neighbouring bytes of the
  register, a count of 32 clears the shadow though the value is unchanged, and a shift of 1 or 2 bytes in memory
  runs into the assertion at 2923 and leaves the shadow as it was [C61_shift_wrong]. rol and ror by a multiple of 8 do not
  move the shadow (read, not modelled).

* **C62**: `mov (%eax),%eax` forgets that eax is checked when the destinations are looked at (instru.c:1219) and then
  remembers it again when the address check is emitted (fastpath_x86.c:1895), so the next access through the newly
  loaded, possibly undefined eax is not checked [C62_own_address]; following a linked list is such a block. A conditional
  move from memory that does not move jumps over the check, which still counts as made [C62_cmov]. The exemption `i > 0`
  for pops is meant for the stack pointer of `pop`; for `popa` (and `leave`, harmless) it exempts the loaded registers
  [C62_popa] (that the stack pointer is the first destination of popa is taken from the decoder, which is not in /repo;
  for leave it is checked at fastpath_x86.c:494). An instruction that has no inlined code never resets `eflags_defined`,
  so a jump after `cmp; shrb $1,mem` is not checked [C62_slow_flags].
* **C63**: before an instruction whose result is always the same (`and $0`, `test $0`, `or $~0`, `xor` with itself) the
  scratch registers are not restored (spill.c:1561-1567), although its memory operand may use one as base or index; then
  `and $0x0,(%ecx)` in a block with scratch register ecx writes to a wrong address [C63_address_lost].
* **C64**: the record for faults is made from what is in use at the end of the block (spill.c:1714-1723); at a fault before
  the first use of a scratch register or before the first save of the flags, live values are replaced by what an earlier
  block left in the slots [C64_stale]; flags given back before the end of the block are not restored at earlier faults
  [C64_flags_kept]; the overflow flag is set from the slot but never cleared [C64_overflow].
- System call number file (C65): the test for a missing final newline uses the pointer exactly if it is null, so a file
  cut off right behind a number crashes [C65_crash]; one symbol that does not begin with a capital letter makes the
  reader refuse the generated file [C65_own_refused]; the gap filling for user calls treats numbers of unrelated kernel
  system calls as taken, so that it practically never fills a gap [C65_gaps_never, C65_gap_lost]; entries sorted by name
  put NtUserX before X for X behind N, so that X gets the number of NtUserX if both exist [C65_collision].
- Memory layout dump (C66): there is no comma between the entries of "threads", so the file is not JSON for any process
  with two threads or more [C66_two_threads, C66_not_json]; the counter that decides about commas between objects has type
  bool and wraps where that is a char [C66_many_objects]; trailing 1- and 2-byte values are sign-extended [C66_sign]; sizes
  are printed as int [C66_size]; names are not escaped [C66_name].
- Register shadow (C67): after a report for ah, ch, dh or bh the code marks the *low* byte defined, so an error in al is
  missed and the one in ah repeated (slowpath.c:432-433) [C67_high_byte]; 32 bits are read for an MMX register whose shadow
  has 16, so the next register's state is reported for it, again at each check, and for mm7 two bytes past the block are
  read (shadow.c:1816-1817) [C67_mmx, C67_mmx_end]; for a VEX-encoded write the code marks the upper half of the next ymm
  register defined instead of its own, and mm0 and mm1 for the last one (slowpath_x86.c:2029-2031) [C67_vex].
- Dr. Heapstat (C68): `pad_size` already includes the size requested (alloc.h:133, alloc.c:2952, 6070, 6218), but
  drheapstat.c:812 passes it as the part *beyond* it, so "space allocated" and "space used" count the request twice
  [C68_usable_twice], and one block of 1 GiB overflows the int at drheapstat.c:629 [C68_gigabyte]; the two extras of a call
  stack are ushort and wrap, a line can vanish [C68_lines and its example]; an in-place realloc counts as an allocation or
  a free in tot_mallocs (drheapstat.c:647, 657) [C68_totals_partial]; with an odd -snapshots the spacing is lost
  [C68_odd]; dump_freq doubles to 0 and is then divided by (drheapstat.c:604-610) [C68_period_overflow]; check_for_peak
  passes the size of the peak as a percentage (drheapstat.c:544-545) [C68_peak_condition]; -time_bytes drops what is left
  of a block at the end of a period (drheapstat.c:696-702) [C68_bytes_lost].
- Staleness (C69): sizes are scaled to shadow bytes by rounding down (umbra.c:52-59), so the sweep neither looks at nor
  clears the last `size % 8` bytes of a block [C69_tail], and a block of fewer than 8 bytes shows the time of its
  allocation for ever [C69_small_blocks]; marks are not cleared at allocation, so an unused block in reused memory (or
  memory never passed to client_heap_add, whose shadow is 1 by default) shows as used at the next sweep [C69_reused]; a
  block shrunk in place before the sweep loses its mark [C69_shrunk]; destroy_arena_family tells the client of each block
  without marking it freed (alloc_replace.c:2257-2265), so a snapshot taken in client_remove_malloc_post walks more blocks
  than it has room for, over freed per-block data [C69_destroy].

* C70 (`C70_fault_twice`, `C70_fault_exit`): `pre_fuzz_handler` stops the iterator kept for the last critical fault (drfuzz.c:677-678) and leaves `thread_state->targets` pointing to it. The next iteration, or the exit of the thread, stops it again: a double free after every fault the application handles. `free_thread_state` (1019) and a fault outside a target have the same pointer.
* C70 (`C70_frames_wrong`, `C70_frames_bounds`): `create_target_iterator` fills `arg_values[j]` from `current_args[i]`, `i` being the frame (drfuzz.c:849): a crash report shows the same value for all arguments, and reads out of bounds for a frame with no more arguments than its depth.
* C70 (`C70_free_size`): `drfuzz_target_iterator_stop` frees the values of a frame with the size of one value (drfuzz.c:879).
* C70 (`C70_last_frames`): every fault of a chain replaces the iterator (drfuzz.c:925), so the frames are those of the last fault; drfuzz.h:158-159 promises the first, and the iterators in between are leaked.
* C70 (`C70_fault_data`): `capture_fault` does not reset `user_data`, so a new fault carries the pointer the client deleted with the fault that had the slot before.
* C70 (`C70_unfuzz_cached`): `drfuzz_unfuzz_target` looks at the live targets only; a target in the cache of the current pass is freed while pointed to.
* C70 (`C70_recursion`, `C70_wrap_context`, `C70_current_arg`): a target that calls itself runs the inner call with the outer call's arguments (documented as unsupported); the wrap context is kept from the creation of the pass target and never renewed; `drfuzz_get_arg` for the current value gives, in the callback before an iteration, the value of the iteration before.

* C71 (`C71_copy_overread`, `C71_copy_uninit`, `C71_copy_grown`): `fuzzer_mutator_copy` (fuzzer.c:1351-1374) writes the current value to the start of a block of `input_size` bytes and starts the new mutator on `MUTATION_START(block)` with `input_size` bytes. With `-fuzz_buffer_offset` it reads past the block; with `-fuzz_buffer_fixed_size`, or a buffer that a later corpus file made larger, it reads bytes never written.
* C71 (`C71_outside_window`): only the mutated part is renewed; what the target did to the rest of its buffer in one iteration is the input of the next, though the shadow is put back.
* C71 (`C71_one_input_ignored`, `C71_one_input_offset`): `-fuzz_one_input` is applied by `fuzzer_mutator_next`, which is not called for the first iteration with `-fuzz_num_iters 0` or coverage guidance; and it overwrites the whole buffer whatever the offset.
* C71 (`C71_corpus_once`): `post_fuzz_corpus` treats every count that is not positive as "no repeat"; with a corpus an unlimited run is a single iteration, after which the target is disabled. The options disagree about 0: the text of `-fuzz_target` says it repeats until the mutator is exhausted, that of `-fuzz_num_iters` that it does not repeat.
* C71 (`C71_corpus_exhausted`, `C71_corpus_stuck`): with a corpus nobody asks the mutator whether it has a value, and the status of `drfuzz_mutator_get_next_value` is not looked at; a corpus without readable files never mutates the call's input when that reaches no block.
* C71 (`C71_corpus_short`, `C71_short_file`): a file shorter than the buffer is run with the bytes that were there and the old size.
* C71 (`C71_dump_after`): the input added to the corpus is the buffer after the target returned.
* C71, read but not modelled: `load_fuzz_input` never closes its file; the owning thread is not released when it exits; the test of the statistics frequency (fuzzer.c:1631) is inverted; `fuzzer_error_report` shows the buffer of the thread that reports.

* C72 (`C72_two_closes`): a failing close puts its handle back (handlecheck.c:795-805) without asking whether another thread has closed it meanwhile; a closed handle is reported as leaked.
* C72 (`C72_count_close`, `C72_count_gone`): the number of similar handles is the reference count of the call stack (handlecheck.c:524), which counts as well the closes recorded with that call stack and the handles that another process has closed; one open handle can be a definite error with "2 similar".
* C72 (`C72_list_exact_lost`, `C72_list_other`): with more than one run of entries for the low 16 bits of the process id, the run with the right count is found and then discarded unless it is the first (handlecheck.c:230-241); the first is taken if it has the right count, whoever owns it.
* C72 (`C72_query_error`): `!NT_SUCCESS(res) && list == NULL` (handlecheck.c:149) lets a failed query through, and the unwritten buffer is searched.
* C72 (`C72_nudge_in_close`): a nudge during a close omits the handle, which the close may then fail to close.

* C73 (`C73_region`, `C73_region_wraps`): SelectObject of a region returns a number and keeps no region, but gdicheck.c:353-367 counts it as an object in, and the number as an object out; the count goes wrong in both directions and wraps.
* C73 (`C73_own_dc`, `C73_own_dc_forgotten`): ReleaseDC leaves the device context of a window with CS_OWNDC alive, with its objects; it is reported, and then forgotten.
* C73 (`C73_deleted_twice`, `C73_failed_delete`): the deletion of an object lowers the count before the call (syscall_wingdi.c:236-238), whether it succeeds or not, and replacing the deleted object lowers it once more; an object left in a dead device context is then not reported.
* C73 (`C73_handle_again`, `C73_stale_bitmap`): a dead device context leaves its objects in the table of selected objects (gdicheck.c:254-256); they are later charged to another device context of the same handle, and a bitmap is reported as selected twice.
* C73 (`C73_shared_pen`, `C73_nested_paint`): the table holds one device context for each object and one paint device context for each thread; a pen in two, and a paint within a paint, are lost.

* C74 (`C74_invalid_free_frees`): an invalid free is reported but passed on as it is (alloc.c:5376-5405); free(p - redzone) really frees the block that the application still owns.
* C74 (`C74_mismatch_lost`): a free 4 bytes beside a block marks the block as checked (alloc.c:3974-3985, 5239-5249), so that a later mismatched free of the block itself is not reported.
* C74 (`C74_realloc_stale`, `C74_realloc_double_free`, `C74_realloc_zero_double_free`): with -no_replace_realloc the entry of a block that realloc has moved or freed stays in the table as invalid, and handle_free_pre only asks whether there is an entry (alloc.c:5343-5376); a later free of the old pointer is not reported.
* C74 (`C74_realloc_preus`): the block that realloc makes of one from before the tool has redzones but is recorded without (alloc.c:6084-6098).
* C74 (`C74_size_null`, `C74_size_unknown`, `C74_size_unknown_wraps`): malloc_usable_size(NULL) is reported as an error; for a block that is not known, as one of memalign, the result is made less by two redzones that are not there, below zero if it is small.
* C74 (`C74_usable_redzone`): malloc_usable_size says more than what counts as the block, so that using what it says is reported.
* C74 (`C74_realloc_invalid`, `C74_realloc_null_warns`, `C74_realloc_new`): the replacement of realloc says nothing of a pointer that is not one, frees NULL for realloc(NULL, n), which is warned of with -warn_null_ptr, and does not notice memory from new.

* C75 (`C75_later_lost`, `C75_later_differs`): with -fuzz_target, a target whose module is not loaded when the fuzzer starts is said to be skipped "for now" (fuzzer.c:582) but freed a few lines on (591-592), so that module_loaded never finds it; given by -fuzz_module and -fuzz_function the same target is fuzzed when the library comes.
* C75 (`C75_unloaded_lost`): a target is forgotten when its module is unloaded (1721-1722), also if the module is loaded again.
* C75 (`C75_plus_module`, `C75_blank_module`): the first of '!' and '+' is the separator, so that libstdc++.so.6!f is refused as a bad offset; the blanks of a module name stay replaced by character 1 (2050 puts them back in the symbol only), so that the name is that of no module.
* C75 (`C75_index_unchecked`, `C75_negative_args`, `C75_junk`, `C75_convention_wraps`): indices beyond the count of arguments, negative counts, letters after the digits, further fields, and codes of conventions that are right modulo 256 are accepted.
* C75 (`C75_option_convention`): an unknown -fuzz_call_convention is not replaced by the default as the warning says (430-431); the result of fuzzer_fuzz_target_callconv_arg_init is ignored (433), and the NULL table is read when the shadow state is made (1009, 1073-1076).

* C76 (`C76_unwound_inheap`): a heap call that an exception leaves, such as an operator new that throws, is counted out without client_exiting_heap_routine (alloc.c:6807-6810 returns before 6832-6833), so the fast path goes on ignoring accesses to unaddressable memory (fastpath_x86.c:4341-4348) until another heap call of the thread returns.
* C76 (`C76_unwound_calloc`, `C76_unwound_realloc`, `C76_unwound_kind`): the same return leaves in_calloc, in_realloc and allocator set. After an exception out of calloc the next block of malloc counts as zeroed, and the next calloc gets a redzone asked for whose result is not adjusted or recorded; after one out of realloc (with -no_replace_realloc) invalid frees are not reported; after one out of operator new before it has called malloc the next block of malloc counts as new's.
* C76 (`C76_twelve_deep`, `C76_nesting_limit`): enter_heap_routine does not record a call twelve deep (alloc.c:5006-5016, "just don't record"), but handle_alloc_post reads last_alloc_routine and last_alloc_info at that depth (6879-6882), past the end of both.
* C76 (`C76_second_malloc`): the post hook of malloc forgets the outer layer (alloc.c:6863-6864), and record_allocator does not set it inside another call (5192), so a malloc that operator new repeats after its new handler makes a block of unknown kind, and a mismatch of it is missed.

* C77 (`C77_semctl`, `C77_semctl_missed`): on x86-64 the fourth parameter of semctl is the pointer itself, but handle_semctl takes it for a pointer to the union (drsyscall_linux.c:982, 999-1050). IPC_STAT into a cleared buffer leaves the whole buffer undefined, with other contents the range marked is wherever the old first eight bytes of the buffer point to, and a bad pointer, for which the kernel answers EFAULT, makes the tool fault.
* C77 (`C77_semctl_all`): ipc_sem_len passes the address of its 8-byte union where the kernel wants the address of the 104-byte semid_ds (drsyscall_linux.c:955), so GETALL and SETALL on an existing set make the kernel overwrite 96 bytes of the tool's stack.
* C77 (`C77_shm_set`): shmctl IPC_SET is reported as a write before the call and as a read after it (drsyscall_linux.c:1202), the wrong way round: undefined bytes passed to the kernel are never reported.
* C77 (`C77_shm_info`): SHM_INFO writes a struct shm_info, 48 bytes, but a struct shminfo, 72 bytes, is checked and marked (drsyscall_linux.c:1170-1178): a false unaddressable access beyond a buffer of the right size.
* C77 (`C77_clone_covered`, `C77_clone_values`): handle_clone uses the parameters of 32-bit x86 (thread pointer fourth, child's thread id fifth); on x86-64 they are the other way round. The child's thread id is never checked, four bytes at the thread pointer are, and the fifth register has to be defined although the kernel ignores it without CLONE_SETTLS. `C77_clone_unmarked`: the thread ids stored by the kernel are never marked as written.
* C77 (`C77_futex_private`): the operation is compared without taking off FUTEX_PRIVATE_FLAG (drsyscall_linux.c:1739-1761), so that for the calls the thread library makes neither the timeout nor its value is checked. `C77_futex_requeue`: the number of waiters to move is not checked.
* C77 (`C77_set_name`, `C77_get_name_failed`): PR_SET_NAME checks all sixteen bytes although the kernel stops at the terminating one, a false report for a short name; PR_GET_NAME marks the sixteen bytes even if the call failed (drsyscall_linux.c:1590-1594).
* C77 (`C77_ipmi_receive`, `C77_ipmi_send_wrap`, `C77_ipmi_send_fault`): after receiving, the structure itself is not marked (recv_type, msgid and the command stay undefined); an address length of zero wraps around to a check of the whole address space; the type of the address is read without safe_read (drsyscall_linux.c:325).
* C77 (`C77_values_all`): semctl, msgctl and shmctl have four and three parameters in the table, so all of them have to be defined whatever the command; what the handlers choose to check is without effect, and semctl(id, 0, IPC_RMID) gives a false report if the fourth register is undefined.

* C77 (`C77_sysctl_fault`): the arguments of _sysctl are read without safe_read (drsyscall_linux.c, _sysctl case): a pointer for which the kernel answers EFAULT makes the tool fault.
* C78 (`C78_one_bad_line`, `C78_refused`, `C78_last_empty`): one line that is not understood discards all prototypes (drltrace_libcalls.cpp:358-364); such lines are a function without arguments (`int|rand` and also `int|rand|`), a line of blanks, and a comment that does not start in the first column.
* C78 (`C78_overrun`): the mapped file is read as a C string (drltrace_libcalls.cpp:243, 340), so a file whose size is a whole number of pages is read beyond its mapping.
* C78 (`C78_name_blank`, `C78_tab`): the shipped file says that the syntax is not space sensitive, but blanks in names and tabs in types are kept (drltrace_libcalls.cpp:131-136, 285).
* C78 (`C78_name_case`): the table ignores case on Linux too (drltrace_libcalls.cpp:59), so of two functions whose names differ in case the second gets the prototype of the first.
* C78 (`C78_char_value`): a `char` passed by value is a DRSYS_TYPE_CSTRING (drltrace_libcalls.cpp:220-222) and is followed as a pointer. `C78_size_zero`: DRSYS_TYPE_SIZE_T has its case in print_arg only on Windows (drltrace.cpp:123-128), so on Linux a size of 0 prints as `<null>`. `C78_hmodule`: HMODULE has the size of HFILE (drltrace_libcalls.cpp:180).
* C78 (`C78_limit_unknown`): -num_max_args does not limit the arguments printed without types (drltrace.cpp:173). `C78_table_unset`: with -num_max_args 0 the table is never set up but deleted at exit (drltrace.cpp:427-428), and with a negative one it is searched as well (drltrace.cpp:206-211).

* C79 (`C79_tail`, `C79_unmap_tail`): sizes are used as passed (common/alloc.c:4795, 4442) though the kernel works on whole pages: the rest of the last page stays unaddressable after mmap and addressable after munmap.
* C79 (`C79_fail_defines`): a failed munmap marks its whole range defined and enters it in the table (alloc_drmem.c:1173-1175; the code has a FIXME), also bytes that were undefined or never mapped.
* C79 (`C79_zero`): munmap(p, 0) fails in the kernel, but the tool takes size 0 for "the whole region" (drmemory.c:743, 819) before the call and restores an empty range after it, so the mapping from p on stays unaddressable.
* C79 (`C79_unmap_file`, `C79_file_merged`): for a file that is not a module one query decides and its whole range from the address on is marked (drmemory.c:843), so unmapping a part of a file makes the part that stays mapped unaddressable.
* C79 (`C79_unmap_free`): for memory that may not be accessed, or is free, the range marked is `pc .. pc+info.size` (drmemory.c:838) although the walk goes on at `info.base_pc+info.size`: starting in the middle it marks memory beyond.
* C79 (`C79_moved`, `C79_grown`): after a moving mremap the old place stays addressable; the bytes by which a mapping grows are undefined though the kernel fills them (alloc_drmem.c:1189-1196).
* C79 (`C79_stack_next`, `C79_stack_query`): handle_clone looks up the stack pointer itself (syscall_linux.c:137), which for an empty stack is one past its mapping: either the next mapping is taken for the stack and nothing is marked, or the core is asked and mappings merged with the stack are marked, which is what the table was to avoid. The change is made before the call and not undone if clone fails. clone3 is not handled at all.
* C79 (`C79_stack_malloc`): malloc_chunk_size(pc+1) with pc a multiple of 4 (syscall_linux.c:119-121) never finds an allocation.
* C79 (`C79_names_longer`, `C79_names_empty`, `C79_names_long`): the name is compared with the length of the entry (syscall_linux.c:200), so entries match as prefixes, an empty entry matches everything, and an entry of more than 16 characters nothing.

* C80 (`C80_padding`, `C80_overlaid`): print_structure adds up the sizes of the fields (drstrace.c:304) and so reads every field after padding at the wrong place; if the sum exceeds the size, as for bit fields, every field is read at the start (:299-300).
* C80 (`C80_known_fault`, `C80_null_fault`): print_known_compound_type (drstrace.c:206-244) and print_unicode_string (:98-108) dereference the application's pointers directly, so a bad pointer passed to a system call makes the tracer fault where the call would have failed; a pointer field that cannot be read is followed as address 0 (:199, 319-321).
* C80 (`C80_too_big`, `C80_pointee_big`): a field or pointee of more than eight bytes ends the application through ASSERT (drstrace.c:81-86, 118, 196), in release builds too.
* C80 (`C80_high`): named constants are `int` (drstrace_named_consts.h:29-32) and are extended with their sign when compared with a 64-bit value whose upper half is cleared (drsyscall.c:1773-1788): GENERIC_READ or SEC_LARGE_PAGES are never named on 64 bits.
* C80 (`C80_zero_named`): a constant 0 is in every combination (drstrace.c:170); bits that no constant has are not mentioned by name.
* C80 (`C80_not_shown`): inlined values of types that are not in the switch, such as SIZE_T, print as `<null>` or `<NYI>` (drstrace.c:478-487).
* C80 (`C80_known_iff`): type_has_unknown_components does not look behind pointers to structures (drstrace.c:370-374).

* C81 (`C81_big_frame`, `C81_big_return`): MAX_SIGNAL_FRAME_SIZE is 1024 (alloc_drmem.c:46-47, whose comment counts no extended register state); frames with AVX state are larger, so the handler's reads of the upper part are reported, and after the return the frame stays addressable.
* C81 (`C81_redzone`, `C81_leftover`): handle_signal_return marks everything up to the interrupted stack pointer unaddressable (alloc_drmem.c:1625), including the 128-byte red zone in which 64-bit leaf functions keep data: after any signal their accesses are reported. The handler's own red zone stays addressable.
* C81 (`C81_nested`): on the alternate stack a nested signal with a frame of 1024 bytes or more falls into the branch for leaving the alternate stack (alloc_drmem.c:1615-1618) and makes the outer handler's stack unaddressable.
* C81 (`C81_alt_defined`, `C81_alt_unaddr`): the states are swapped at alloc_drmem.c:1505-1507 (the LOG above says unaddressable): with -check_stack_bounds the new alternate stack is defined, without it, where signals are not followed, it is unaddressable and each access of a handler is an error. Marking is done before the call and not undone if it fails.
* C81 (`C81_autodisarm`): ss_flags is compared with SS_DISABLE for equality (alloc_drmem.c:1487); the kernel masks SS_AUTODISARM.
* C81 (`C81_ki_long`): more than 32 KiB of kernel data are marked in part and the stack pointer before the callback is recorded wrongly (alloc_drmem.c:1236-1239, an ASSERT in debug builds).
* C81 (`C81_continue_high`): NtContinue sets no shadow for r8 to r15 (alloc_drmem.c:1431-1448).
* C81 (`C81_client_big`): client_stack_alloc undoes part of its own marking for frames larger than the red zone (alloc_drmem.c:1318-1319); the present callers ask for one pointer.

* C82 (`C82_probe_anywhere`): the address plays no part in is_alloca_pattern (alloc_drmem.c:1764-1972): `test [reg],eax` before any jump, `or [ecx],0` and `mov eax,[eax]` after a byte 0x94 (which may be the end of any instruction) are excused also on freed heap memory, and the instruction is then ignored by the fast path.
* C82 (`C82_tls_exp_high`): the expansion slots are counted in bytes (TLS_EXPANSION_BITMAP_SLOTS*sizeof(byte), alloc_drmem.c:2433, also drmemory.c:1115): only the first 1024 bytes are looked up in the bitmap.
* C82 (`C82_word_report`, `C82_word_hole`): the exceptions of the string routines look at each byte's address only (the FIXME at alloc_drmem.c:2012-2015): a hole within a word is excused, and an entirely bad word is reported as one byte.
* C82 (`C82_magic64`): 0xfefefeff is compared as a 64-bit number with an immediate that is extended with its sign (alloc_drmem.c:1750).
* C82 (`C82_fault`, `C82_windows_fault`, `C82_linux_fault`): `*(int *)dpc` at alloc_drmem.c:2026 is not guarded, unlike the decoding after it; is_loader_exception applies loc_to_pc to system calls (2341), which only a debug build refuses.

* C83 (`C83_result_float`): subps and subpd of a register with itself are listed as always giving a defined result (slowpath_x86.c:461-463), but an infinity or a not-a-number gives a not-a-number.
* C83 (`C83_far`): `next_pc < pc + NONGPR_MEMCOPY_MAX_DISTANCE` (slowpath_x86.c:796) compares with the address of the instruction just decoded, not of the load, so that the limit of 128 bytes never applies.
* C83 (`C83_dest_lea`, `C83_dest_slot`, `C83_open`): the instruction that writes the base register of the store is not required to be a load (slowpath_x86.c:839-847): after `lea 8(%ebp),%eax` the word at the address is taken for the address. The byte marked is then another one, the store stays in the fast path, and mem2fpmm_source remains set, whereupon every undefined read of the thread is excused (slowpath_x86.c:750-751).
* C83 (`C83_two_loads`): the register stack of the x87 is not followed: `fld A; fld B; fstp C` gives C the definedness of A.
* C83 (`C83_store_stale`): the shadow noted at the load is put back at the store (slowpath.c:859) even if the byte was freed by another thread meanwhile.
* C83 (`C83_relocate`): the umbra_shadow_memory_info_t at spill.c:543 is used without initialisation.
* C83 (`C83_reg_strlen`): is_strlen_uninit (slowpath_x86.c:628-655) does not ask for the lowest byte to be defined as the others do.
* C83 (`C83_zero`): a reference that begins at address zero leaves the mark without a copy under way.

* C84 (`C84_call_missed`): is_retaddr (callstack.c:1080-1106) has no case for an indirect call with a SIB byte and a displacement (`call *8(%rsp)`), so a caller that uses one is skipped by a scan and ends the trust in a frame chain.
* C84 (`C84_call_loose`): `(*(pc - 1) & 0x3) != 0x5` (callstack.c:1087, 1106) is always true, as two bits are never 5; the mask should be 7.
* C84 (`C84_overflow`): the number of frames is compared with the maximum only after a frame is written (callstack.c:1878-1926; the same in walk_unwind_info, 1667-1690). packed_callstack_record allocates max_frames entries and has filled the first if it is given a location, so -callstack_max_frames 1 (allowed range 0 to 4096) writes one entry past the array.
* C84 (`C84_other_stack`): `pt->stack_lowest_frame - fp` (callstack.c:1401) is negative, hence below 64, for every fp above the lowest frame: on another stack at a higher address no frame but the top one is found by scanning, although the line before limits the test to the threshold.
* C84 (`C84_self`): with FP_DO_NOT_WALK_FP the word below a return address is not followed but still ends the callstack if it equals its own address (callstack.c:1928), or lies in range and cannot be read (1963-1966, `C84_stops`).
* C84: `pt` may be NULL (callstack.c:1721) but is dereferenced at 1378 and 1893.

* C85 (`C85_wraps`): handle_make_unaddressable computes `start+len` without a test for overflow (annotations.c:81); shadow_set_range returns at once if the end is not above the start, so a range reaching the end of the address space is not marked at all. The length of handle_make_mem_defined_if_addressable is not tested either; its loop `cur != end` goes round the address space.

* C86 (`C86_bnd`): the stub test (callstack.c:1250-1257) allows endbr64 but not the bnd prefix (f2) that linkers put after it for -fcf-protection; every call through such a stub is refused as a caller from another module.
* C86 (`C86_misread`): `*(pc - 5) == OP_CALL_DIR` (callstack.c:1248, 1319) is tested without regard to the length of the call, so an indirect call of two or three bytes after a byte e8 is taken for a direct one.
* C86 (`C86_no_symbols`): "If it can't tell, it returns true" (callstack.c:1203), but without symbols funcoffs stays 0 and line 1355 then refuses every call with a known target. The same happens for a frame at the first byte of its function.
* C86 (`C86_stub_start`): the pointer of `jmp *disp(%rip)` is looked for at pc + disp (callstack.c:1324), not at the end of the instruction, pc + 6 + disp. endbr64 is not skipped there either.
* C86 (`C86_cross_partial`): with FP_VERIFY_CALL_TARGET alone, a call from another module is accepted or refused at line 1301-1302 without its target being verified.
* C86 (`C86_cross_flag`): with FP_VERIFY_CROSS_MODULE_TARGET (never set by Dr. Memory) `pc` has been moved to the stub at lines 1249-1254, and lines 1319-1333 then look for a call before the stub.

* C84 (`C84_lowest_lost`): stack_lowest_frame only grows (callstack.c:2010-2019); once a frame has been listed on a stack at higher addresses, such as an alternate signal stack, scans of the thread's own stack are no longer stopped at its lowest frame.

## Checking the theorems

`seeded/LOG.jsonl` lists the deliberate errors put into copies of the model, the claim each one breaks, and the
theorems that stopped proving.
