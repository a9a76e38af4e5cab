/-!
# Options

Model of how options travel from the command line to the tool: the frontend quotes the
arguments it does not handle itself (drmemory/frontend.c), and the client takes the string apart
and sets its options (drmemory/options.c).

Strings are lists of characters without the character 0.  `dr_sscanf` is not part of the
repository: numbers are read as the C standard says, and where that leaves the result open
(overflow) or the word starts with a sign or a space, the outcome is `unspec`.
-/

namespace Verif.Options

abbrev Str := List Char

/-- `isspace` in the C locale. -/
def isSpace (c : Char) : Bool :=
  c = ' ' || c = '\t' || c = '\n' || c = '\r' || c.toNat = 11 || c.toNat = 12

/-- The three kinds of quotes, options.c:176. -/
def isQuote (c : Char) : Bool := c = '"' || c = '\'' || c = '`'

/-- The loop of `get_option_word`, options.c:181-183: at most `n` characters up to the first
one at which `stop` holds. -/
def takeWord (stop : Char → Bool) : Nat → Str → Str × Str
  | 0, s => ([], s)
  | _ + 1, [] => ([], [])
  | n + 1, c :: s => if stop c then ([], c :: s) else (c :: (takeWord stop n s).1, (takeWord stop n s).2)

/-- The first character after the spaces, if it is a quote, and the rest, options.c:174-180. -/
def openQuote (s : Str) : Option Char × Str :=
  match s.dropWhile isSpace with
  | [] => (none, [])
  | c :: r => if isQuote c then (some c, r) else (none, c :: r)

/-- Where the word ends, options.c:181. -/
def stopAt (q : Option Char) (c : Char) : Bool :=
  match q with
  | none => isSpace c
  | some e => c = e

/-- The closing quote is skipped, options.c:184-185. -/
def closeQuote (q : Option Char) (s : Str) : Str :=
  match q, s with
  | some e, c :: r => if c = e then r else c :: r
  | _, s => s

/-- `get_option_word`, options.c:168-191: the word and the rest; `max` is `MAX_OPTION_LEN`. -/
def getWord (max : Nat) (s : Str) : Option (Str × Str) :=
  let o := openQuote s
  let w := takeWord (stopAt o.1) (max - 1) o.2
  let r := closeQuote o.1 w.2
  if w.1 = [] ∧ r = [] then none else some (w.1, r)

/-! ## The table of options -/

/-- The types of options (options.c:105-125) with their ranges. -/
inductive Ty where
  | bool | str | multi
  | uint (min max : Nat)
  | uint64 (min max : Nat)
  | int (min max : Int)
deriving DecidableEq

/-- An entry of optionsx.h for the client: name, second name, type, and whether it exists on
Windows only. -/
structure Entry where
  name : String
  alt : Option String
  ty : Ty
  win : Bool
deriving DecidableEq

/-- The options of the client (`OPTION_CLIENT*`) in drmemory/optionsx.h for `TOOL_DR_MEMORY`,
in the order of the file (lines 131-926). -/
def allOptions : List Entry :=
  [⟨"light", none, .bool, false⟩, ⟨"brief", none, .bool, false⟩, ⟨"visual_studio", none, .bool, true⟩,
   ⟨"logdir", none, .str, false⟩, ⟨"verbose", none, .uint 0 32, false⟩, ⟨"quiet", none, .bool, false⟩,
   ⟨"results_to_stderr", none, .bool, false⟩, ⟨"prefix_style", none, .uint 0 2, false⟩,
   ⟨"log_suppressed_errors", none, .bool, false⟩, ⟨"ignore_asserts", none, .bool, false⟩,
   ⟨"exit_code_if_errors", none, .int (-2147483648) 2147483647, false⟩,
   ⟨"pause_at_error", none, .bool, false⟩, ⟨"pause_at_unaddressable", none, .bool, false⟩,
   ⟨"pause_at_uninitialized", none, .bool, false⟩, ⟨"pause_at_exit", none, .bool, false⟩,
   ⟨"pause_at_assert", none, .bool, false⟩, ⟨"pause_via_loop", none, .bool, false⟩,
   ⟨"crash_at_unaddressable", none, .bool, false⟩, ⟨"crash_at_error", none, .bool, false⟩,
   ⟨"dump_at_error_mask", none, .uint 0 47, true⟩, ⟨"dump_at_unaddressable", none, .bool, true⟩,
   ⟨"callstack_max_frames", none, .uint 0 4096, false⟩, ⟨"malloc_max_frames", none, .uint 0 4096, false⟩,
   ⟨"free_max_frames", none, .uint 0 4096, false⟩, ⟨"callstack_style", none, .uint 0 8191, false⟩,
   ⟨"callstack_truncate_below", none, .str, false⟩, ⟨"callstack_modname_hide", none, .str, false⟩,
   ⟨"callstack_exe_hide", none, .bool, false⟩, ⟨"callstack_srcfile_hide", none, .str, false⟩,
   ⟨"callstack_srcfile_prefix", none, .str, false⟩,
   ⟨"lib_blocklist_default", some "lib_blacklist_default", .str, false⟩,
   ⟨"lib_blocklist", some "lib_blacklist", .str, false⟩,
   ⟨"lib_blocklist_frames", some "lib_blacklist_frames", .uint 0 4096, false⟩,
   ⟨"lib_allowlist", some "lib_whitelist", .str, false⟩,
   ⟨"lib_allowlist_frames", some "lib_whitelist_frames", .uint 0 4096, false⟩,
   ⟨"src_allowlist", some "src_whitelist", .str, false⟩,
   ⟨"src_allowlist_frames", some "src_whitelist_frames", .uint 0 4096, false⟩,
   ⟨"check_uninit_blocklist", some "check_uninit_blacklist", .str, false⟩,
   ⟨"callstack_use_unwind", none, .bool, false⟩, ⟨"callstack_use_top_fp", none, .bool, false⟩,
   ⟨"callstack_use_top_fp_selectively", none, .bool, false⟩, ⟨"callstack_use_fp", none, .bool, false⟩,
   ⟨"callstack_conservative", none, .bool, false⟩, ⟨"callstack_max_scan", none, .uint 0 16384, false⟩,
   ⟨"callstack_bad_fp_list", none, .str, false⟩, ⟨"check_leaks", none, .bool, false⟩,
   ⟨"count_leaks", none, .bool, false⟩, ⟨"symbol_offsets", none, .bool, false⟩,
   ⟨"ignore_early_leaks", none, .bool, false⟩, ⟨"check_leaks_on_destroy", none, .bool, false⟩,
   ⟨"possible_leaks", none, .bool, false⟩, ⟨"check_encoded_pointers", none, .bool, true⟩,
   ⟨"midchunk_size_ok", none, .bool, false⟩, ⟨"midchunk_new_ok", none, .bool, false⟩,
   ⟨"midchunk_inheritance_ok", none, .bool, false⟩, ⟨"midchunk_string_ok", none, .bool, false⟩,
   ⟨"scan_read_only_files", none, .bool, false⟩, ⟨"strings_vs_pointers", none, .bool, false⟩,
   ⟨"show_reachable", none, .bool, false⟩, ⟨"suppress", none, .multi, false⟩,
   ⟨"default_suppress", none, .bool, false⟩, ⟨"gen_suppress_offs", none, .bool, false⟩,
   ⟨"gen_suppress_syms", none, .bool, false⟩, ⟨"show_threads", none, .bool, false⟩,
   ⟨"show_all_threads", none, .bool, false⟩, ⟨"conservative", none, .bool, false⟩,
   ⟨"check_uninit_cmps", none, .bool, false⟩, ⟨"check_uninit_non_moves", none, .bool, false⟩,
   ⟨"check_uninit_all", none, .bool, false⟩, ⟨"strict_bitops", none, .bool, false⟩,
   ⟨"check_pc", none, .bool, false⟩, ⟨"stack_swap_threshold", none, .int 256 2147483647, false⟩,
   ⟨"redzone_size", none, .uint 0 32768, false⟩, ⟨"report_max", none, .int (-1) 2147483647, false⟩,
   ⟨"report_leak_max", none, .int (-1) 2147483647, false⟩,
   ⟨"report_write_to_read_only", none, .bool, false⟩, ⟨"show_duplicates", none, .bool, false⟩,
   ⟨"batch", none, .bool, false⟩, ⟨"summary", none, .bool, false⟩, ⟨"use_symcache", none, .bool, false⟩,
   ⟨"symcache_dir", none, .str, false⟩, ⟨"symcache_minsize", none, .uint 0 4294967295, false⟩,
   ⟨"use_symcache_postcall", none, .bool, false⟩, ⟨"preload_symbols", none, .bool, true⟩,
   ⟨"skip_msvc_importers", none, .bool, true⟩, ⟨"warn_null_ptr", none, .bool, false⟩,
   ⟨"delay_frees", none, .uint 0 4294967295, false⟩,
   ⟨"delay_frees_maxsz", none, .uint 0 4294967295, false⟩, ⟨"delay_frees_stack", none, .bool, false⟩,
   ⟨"leaks_only", none, .bool, false⟩, ⟨"handle_leaks_only", none, .bool, true⟩,
   ⟨"check_uninitialized", none, .bool, false⟩, ⟨"check_stack_bounds", none, .bool, false⟩,
   ⟨"check_stack_access", none, .bool, false⟩, ⟨"check_alignment", none, .bool, false⟩,
   ⟨"fault_to_slowpath", none, .bool, false⟩, ⟨"check_tls", none, .bool, true⟩,
   ⟨"check_gdi", none, .bool, true⟩, ⟨"check_gdi_multithread", none, .bool, true⟩,
   ⟨"check_handle_leaks", none, .bool, true⟩, ⟨"filter_handle_leaks", none, .bool, true⟩,
   ⟨"handle_leak_threshold", none, .uint 1 65535, true⟩, ⟨"check_heap_mismatch", none, .bool, true⟩,
   ⟨"check_delete_mismatch", none, .bool, false⟩, ⟨"check_prefetch", none, .bool, false⟩,
   ⟨"malloc_callstacks", none, .bool, false⟩, ⟨"prctl_allowlist", none, .str, false⟩,
   ⟨"auxlib", none, .str, false⟩, ⟨"analyze_unknown_syscalls", none, .bool, false⟩,
   ⟨"syscall_dword_granularity", none, .bool, false⟩, ⟨"syscall_sentinels", none, .bool, false⟩,
   ⟨"prefer_msize", none, .bool, false⟩, ⟨"perturb", none, .bool, false⟩,
   ⟨"perturb_only", none, .bool, false⟩, ⟨"perturb_max", none, .uint 0 4294967295, false⟩,
   ⟨"perturb_seed", none, .uint 0 4294967295, false⟩, ⟨"unaddr_only", none, .bool, false⟩,
   ⟨"pattern", none, .uint 0 65535, false⟩, ⟨"persist_code", none, .bool, false⟩,
   ⟨"persist_dir", none, .str, false⟩, ⟨"soft_kills", none, .bool, false⟩,
   ⟨"ignore_kernel", none, .bool, false⟩, ⟨"use_syscall_tables", none, .bool, false⟩,
   ⟨"syscall_number_path", none, .str, false⟩, ⟨"coverage", none, .bool, false⟩,
   ⟨"fuzz", none, .bool, false⟩, ⟨"fuzz_module", none, .str, false⟩, ⟨"fuzz_function", none, .str, false⟩,
   ⟨"fuzz_offset", none, .uint 0 4294967295, false⟩, ⟨"fuzz_num_args", none, .uint 0 32, false⟩,
   ⟨"fuzz_data_idx", none, .uint 0 31, false⟩, ⟨"fuzz_size_idx", none, .uint 0 31, false⟩,
   ⟨"fuzz_num_iters", none, .int 0 2147483647, false⟩, ⟨"fuzz_replace_buffer", none, .bool, false⟩,
   ⟨"fuzz_call_convention", none, .str, false⟩, ⟨"fuzz_dump_on_error", none, .bool, false⟩,
   ⟨"fuzz_input_file", none, .str, false⟩, ⟨"fuzz_corpus", none, .str, false⟩,
   ⟨"fuzz_corpus_out", none, .str, false⟩, ⟨"fuzz_coverage", none, .bool, false⟩,
   ⟨"fuzz_target", none, .str, false⟩, ⟨"fuzz_mutator_lib", none, .str, false⟩,
   ⟨"fuzz_mutator_ops", none, .multi, false⟩, ⟨"fuzz_mutator_alg", none, .str, false⟩,
   ⟨"fuzz_mutator_unit", none, .str, false⟩, ⟨"fuzz_mutator_flags", none, .uint 0 4294967295, false⟩,
   ⟨"fuzz_mutator_sparsity", none, .uint 0 4294967295, false⟩,
   ⟨"fuzz_mutator_max_value", none, .uint64 0 18446744073709551615, false⟩,
   ⟨"fuzz_mutator_random_seed", none, .uint64 0 18446744073709551615, false⟩,
   ⟨"fuzz_dictionary", none, .str, false⟩, ⟨"fuzz_one_input", none, .str, false⟩,
   ⟨"fuzz_buffer_fixed_size", none, .uint 0 4294967295, false⟩,
   ⟨"fuzz_buffer_offset", none, .uint 0 4294967295, false⟩,
   ⟨"fuzz_skip_initial", none, .uint 0 4294967295, false⟩,
   ⟨"fuzz_stat_freq", none, .uint 0 4294967295, false⟩, ⟨"fuzz_per_iter_leak_scan", none, .bool, false⟩,
   ⟨"fuzz_mangled_names", none, .bool, true⟩, ⟨"resfile", none, .uint 0 4294967295, false⟩,
   ⟨"use_stderr", none, .bool, false⟩, ⟨"shadowing", none, .bool, false⟩,
   ⟨"track_allocs", none, .bool, false⟩, ⟨"check_invalid_frees", none, .bool, false⟩,
   ⟨"track_heap", none, .bool, false⟩, ⟨"size_in_redzone", none, .bool, false⟩,
   ⟨"fastpath", none, .bool, false⟩, ⟨"esp_fastpath", none, .bool, false⟩,
   ⟨"shared_slowpath", none, .bool, false⟩, ⟨"loads_use_table", none, .bool, false⟩,
   ⟨"stores_use_table", none, .bool, false⟩, ⟨"num_spill_slots", none, .uint 0 16, false⟩,
   ⟨"check_ignore_unaddr", none, .bool, false⟩, ⟨"thread_logs", none, .bool, false⟩,
   ⟨"statistics", none, .bool, false⟩, ⟨"stats_dump_interval", none, .uint 1 4294967295, false⟩,
   ⟨"define_unknown_regions", none, .bool, false⟩, ⟨"replace_libc", none, .bool, false⟩,
   ⟨"libc_addrs", none, .str, false⟩, ⟨"check_push", none, .bool, false⟩,
   ⟨"repstr_to_loop", none, .bool, false⟩, ⟨"replace_realloc", none, .bool, false⟩,
   ⟨"share_xl8", none, .bool, false⟩, ⟨"share_xl8_max_slow", none, .uint 0 2147483647, false⟩,
   ⟨"share_xl8_max_diff", none, .uint 0 2048, false⟩,
   ⟨"share_xl8_max_flushes", none, .uint 0 4294967295, false⟩, ⟨"check_memset_unaddr", none, .bool, false⟩,
   ⟨"disable_crtdbg", none, .bool, true⟩, ⟨"zero_stack", none, .bool, false⟩,
   ⟨"zero_retaddr", none, .bool, false⟩, ⟨"verify_sysnums", none, .bool, false⟩,
   ⟨"leave_uninit", none, .bool, false⟩, ⟨"fpxmm_mem2mem_prop", none, .bool, false⟩,
   ⟨"leak_scan", none, .bool, false⟩, ⟨"pattern_use_malloc_tree", none, .bool, false⟩,
   ⟨"replace_malloc", none, .bool, false⟩, ⟨"pattern_max_2byte_faults", none, .int (-1) 2147483647, false⟩,
   ⟨"callstack_dump_stack", none, .uint 0 524288, false⟩, ⟨"pattern_opt_repstr", none, .bool, false⟩,
   ⟨"pattern_opt_elide_overlap", none, .bool, false⟩, ⟨"track_origins_unaddr", none, .bool, false⟩,
   ⟨"native_until_thread", none, .uint 0 4294967295, false⟩, ⟨"native_parent", none, .bool, false⟩,
   ⟨"replace_nosy_allocs", none, .bool, true⟩]

/-- The table of a build for Windows or another system. -/
def table (win : Bool) : List Entry := allOptions.filter fun e => win || ! e.win

/-- What a word says about an option. -/
inductive Say where
  | set (b : Bool)
  | value
deriving DecidableEq

/-- The spelling `-` followed by the stringised second name: an entry without a second name has
`""` there, which the macro turns into the two quotes, options.c:353, 358, 364. -/
def altName (e : Entry) : Str :=
  match e.alt with
  | some n => n.toList
  | none => ['"', '"']

/-- The tests of one entry, options.c:350-371. -/
def Entry.matchWord (e : Entry) (w : Str) : Option Say :=
  if e.ty = .bool then
    if w = '-' :: e.name.toList ∨ w = '-' :: altName e then some (.set true)
    else if w = "-no_".toList ++ e.name.toList ∨ w = "-no_".toList ++ altName e then some (.set false)
    else none
  else if w = '-' :: e.name.toList ∨ w = '-' :: altName e then some .value
  else none

/-- The first entry that matches, options.c:349-377. -/
def lookup : List Entry → Str → Option (Entry × Say)
  | [], _ => none
  | e :: es, w =>
    match e.matchWord w with
    | some a => some (e, a)
    | none => lookup es w

/-! ## Values -/

/-- Value of a hexadecimal digit. -/
def hexVal (c : Char) : Option Nat :=
  if '0' ≤ c ∧ c ≤ '9' then some (c.toNat - 48)
  else if 'a' ≤ c ∧ c ≤ 'f' then some (c.toNat - 87)
  else if 'A' ≤ c ∧ c ≤ 'F' then some (c.toNat - 55)
  else none

/-- Value of a decimal digit. -/
def decVal (c : Char) : Option Nat := if '0' ≤ c ∧ c ≤ '9' then some (c.toNat - 48) else none

/-- The digits at the front, as `%x`, `%u` and `%d` read them: their number and value. -/
def digits (base : Nat) (val : Char → Option Nat) : Nat → Str → Nat × Nat
  | acc, [] => (0, acc)
  | acc, c :: s =>
    match val c with
    | none => (0, acc)
    | some d => ((digits base val (acc * base + d) s).1 + 1, (digits base val (acc * base + d) s).2)

/-- Outcome of reading a number. -/
inductive Num where
  | ok (n : Int)
  | bad
  | unspec
deriving DecidableEq

/-- `dr_sscanf(word, "0x%x", ..) != 1 && dr_sscanf(word, "%u", ..) != 1`, options.c:224-226,
245-247 and 263-265; numbers not below `lim` do not fit the variable. -/
def readNum (lim : Nat) (w : Str) : Num :=
  let dec : Num :=
    match w with
    | [] => .bad
    | c :: _ =>
      if isSpace c ∨ c = '+' then .unspec
      else
        let d := digits 10 decVal 0 w
        if d.1 = 0 then .bad else if d.2 < lim then .ok d.2 else .unspec
  match w with
  | '0' :: 'x' :: r =>
    match r with
    | [] => dec
    | c :: _ =>
      if isSpace c ∨ c = '+' ∨ c = '-' ∨ r.take 2 = ['0', 'x'] ∨ r.take 2 = ['0', 'X'] then .unspec
      else
        let d := digits 16 hexVal 0 r
        if d.1 = 0 then dec else if d.2 < lim then .ok d.2 else .unspec
  | _ => dec

/-- The value of an option. -/
inductive Val where
  | bool (b : Bool)
  | num (n : Int)
  | str (s : Str)
  /-- the buffer of a repeatable option; 0 is the character that ends strings -/
  | multi (buf : Str)
deriving DecidableEq

/-- Why the tool stops: `option_error` with a missing or wrong value or an unknown option, or a
case in which the C standard does not say what happens. -/
inductive Err where
  | missing | negative | invalid | range | unknown | unspec
deriving DecidableEq

/-- The range test of `option_read_uint` and the others, options.c:227-228, 248-249, 266-267. -/
def inRange (min max : Int) : Num → Except Err Int
  | .ok n => if n < min ∨ n > max then .error .range else .ok n
  | .bad => .error .invalid
  | .unspec => .error .unspec

/-- `option_read_uint64` and `option_read_uint`, options.c:209-251. -/
def readUint (lim : Nat) (min max : Nat) (w : Str) : Except Err Int :=
  match w with
  | [] => .error .missing
  | '-' :: _ => .error .negative
  | w => inRange min max (readNum lim w)

/-- `option_read_int`, options.c:253-269; `%d` reads a sign. -/
def readInt (min max : Int) (w : Str) : Except Err Int :=
  match w with
  | [] => .error .missing
  | '-' :: r =>
    let d := digits 10 decVal 0 r
    inRange min max (if d.1 = 0 then .bad else if d.2 ≤ 2 ^ 31 then .ok (-d.2) else .unspec)
  | w => inRange min max (readNum (2 ^ 31) w)

/-- The character that ends strings. -/
def nul : Char := Char.ofNat 0

/-- Where the strings of a repeatable option end: the first of two 0 characters, or the last
element of the buffer, options.c:302-306. -/
def multiEnd (buf : Str) : Nat → Nat → Nat
  | 0, i => i
  | n + 1, i =>
    if i < buf.length - 1 ∧ (buf[i]?.getD nul ≠ nul ∨ buf[i + 1]?.getD nul ≠ nul) then multiEnd buf n (i + 1)
    else i

/-- `dr_snprintf(dst, size, "%s", word)` into a buffer: no character 0 at the end if the word
fills the space. -/
def putStr (buf : Str) (pos size : Nat) (w : Str) : Str :=
  buf.take pos ++ (w ++ [nul]).take size ++ buf.drop (pos + ((w ++ [nul]).take size).length)

/-- `option_read_multi_opstring_t`, options.c:292-311. -/
def readMulti (buf : Str) (w : Str) : Str :=
  let c := multiEnd buf buf.length 0
  (putStr buf (if c = 0 then c else c + 1) (buf.length - (c + 1)) w).set (buf.length - 1) nul

/-! ## The loop -/

/-- `options` and `option_specified`, by name. -/
structure St where
  val : String → Val
  spec : String → Bool

/-- An assignment. -/
def St.set (s : St) (n : String) (v : Val) : St :=
  { val := fun m => if m = n then v else s.val m, spec := fun m => m = n || s.spec m }

/-- Reading the value of an option from the string `s`: the value and the rest. -/
def readValue (max : Nat) (cur : Val) (ty : Ty) (s : Str) : Except Err (Val × Str) :=
  match getWord max s with
  | none => .error .missing
  | some (w, r) =>
    match ty with
    | .bool => .ok (cur, s)
    | .str =>
      match w with
      | '-' :: _ => .ok (.str [], s)
      | w => .ok (.str w, r)
    | .multi =>
      match cur with
      | .multi buf => .ok (.multi (readMulti buf w), r)
      | v => .ok (v, r)
    | .uint min max' =>
      match readUint (2 ^ 32) min max' w with
      | .ok n => .ok (.num n, r)
      | .error e => .error e
    | .uint64 min max' =>
      match readUint (2 ^ 64) min max' w with
      | .ok n => .ok (.num n, r)
      | .error e => .error e
    | .int min max' =>
      match readInt min max' w with
      | .ok n => .ok (.num n, r)
      | .error e => .error e

/-- The loop of `options_init`, options.c:347-385, at most `fuel` times. -/
def parse (max : Nat) (tbl : List Entry) : Nat → Str → St → Except Err St
  | 0, _, t => .ok t
  | fuel + 1, s, t =>
    match getWord max s with
    | none => .ok t
    | some (w, r) =>
      match lookup tbl w with
      | none => .error .unknown
      | some (e, .set b) => parse max tbl fuel r (t.set e.name (.bool b))
      | some (e, .value) =>
        match readValue max (t.val e.name) e.ty r with
        | .error x => .error x
        | .ok (v, r') => parse max tbl fuel r' (t.set e.name v)

/-- `options_init` up to the dependent options: every turn takes at least one character. -/
def optionsInit (max : Nat) (tbl : List Entry) (s : Str) (t : St) : Except Err St :=
  parse max tbl (s.length + 1) s t

/-! ## The frontend -/

/-- What the frontend makes of an argument that it passes on, frontend.c:1204-1211. -/
def quoteArg (a : Str) : Str := '`' :: (a ++ ['`', ' '])

/-- The option string for the client. -/
def clientOps (as : List Str) : Str := (as.map quoteArg).flatten

/-- The default block list is added unless the option string has the option in it,
frontend.c:1439-1464 (`paths` is the text between the quotes). -/
def addDefault (ops paths : Str) : Str :=
  if "-lib_blocklist_default".toList <:+: ops then ops
  else ops ++ "-lib_blocklist_default `".toList ++ paths ++ "` ".toList

/-! ## The readers of repeatable options -/

/-- Outcome of walking the strings of a repeatable option: `oob` if the walk leaves the buffer. -/
inductive Walk where
  | ok (ws : List Str)
  | oob
deriving DecidableEq

/-- The loop over the `-suppress` files, drmemory/report.c:1633-1637 (also the mutator options in
fuzzer.c); from position `c`, at most `n` strings. -/
def walk (buf : Str) : Nat → Nat → Walk
  | 0, _ => .ok []
  | n + 1, c =>
    match buf.drop c with
    | [] => .oob
    | x :: xs =>
      if x = nul then .ok []
      else
        let s := (x :: xs).takeWhile (· ≠ nul)
        if (x :: xs).length ≤ s.length then .oob
        else
          match walk buf n (c + s.length + 1) with
          | .oob => .oob
          | .ok ws => .ok (s :: ws)

end Verif.Options
