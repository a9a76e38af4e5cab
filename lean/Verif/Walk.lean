

/-!
# Walking the stack: `print_callstack` of common/callstack.c

* x86-64 Linux, with a packed callstack and no callback (`packed_callstack_record`), for a walk that
  does not use the unwind information (`-no_use_unwind`, or a start outside of all modules).
* `FP_SEARCH_REQUIRE_FP` and `FP_SEARCH_DO_NOT_DISASM` are clear; nothing in Dr. Memory sets them
  (drmemory/report.c:1541-1549).  The other flags are fields of `Env`.
* The memory of the application does not change during the walk.  Whether an address can be read
  depends on its page only, and nothing above `2^63` can be read.
* The tables of modules, of return addresses seen and of defined words, `ignore_xbp` and the answer of
  `check_retaddr_targets_frame` (common/callstack.c:1206-1363, modelled in `Target`) are arbitrary functions.
* The buffer that holds a page (`page_buf`) is left out: a word of a page is read at the time it is
  used.  Statistics and logging are left out.
-/
namespace Verif.Walk

/-- The end of the addresses an application can use (see the head of this file; the checked reads of
common/callstack.c:1421, 1449, 1795, 1838, 1964 fail above it). -/
def userTop : Nat := 9223372036854775808

/-- The size of the address space, for the pointer arithmetic of common/callstack.c:1047-2025. -/
def two64 : Nat := 18446744073709551616

/-- What the walk reads: memory, the tables, and `ops` (common/callstack.h:102-173, 232-273). -/
structure Env where
  /-- Whether a page can be read. -/
  ok : Nat → Bool
  byte : Nat → Nat
  /-- `is_in_module` -/
  inMod : Nat → Bool
  /-- `libdr_base`..`libdr_end` or `libtoolbase`..`libtoolend` -/
  tool : Nat → Bool
  /-- `retaddr_table` -/
  seen : Nat → Bool
  /-- `ops.is_dword_defined`; always true if it is `NULL` -/
  defd : Nat → Bool
  /-- `check_retaddr_targets_frame(frame, retaddr, fp_walk)` -/
  targets : Nat → Nat → Bool → Bool
  /-- `ops.ignore_xbp` -/
  ignoreXbp : Bool := false
  /-- `ops.stack_swap_threshold` -/
  swap : Nat := 0x20000
  /-- `ops.fp_scan_sz` -/
  scanSz : Nat := 4096
  /-- `ops.old_retaddrs_zeroed` -/
  zeroed : Bool := true
  /-- `FP_SHOW_NON_MODULE_FRAMES` -/
  showNon : Bool := false
  /-- `FP_STOP_AT_BAD_NONZERO_FRAME` -/
  stopBad : Bool := false
  /-- `FP_STOP_AT_BAD_ZERO_FRAME` -/
  stopZero : Bool := false
  /-- `FP_DO_NOT_CHECK_RETADDR` -/
  noCheck : Bool := false
  /-- `FP_CHECK_RETADDR_PRE_SCAN` -/
  preScan : Bool := false
  /-- `FP_DO_NOT_CHECK_FIRST_RETADDR` -/
  noFirst : Bool := false
  /-- `FP_DO_NOT_WALK_FP` -/
  noWalk : Bool := false
  /-- `FP_DO_NOT_VERIFY_TARGET_IN_SCAN` -/
  noVerScan : Bool := false
  /-- `FP_DO_NOT_VERIFY_TARGET_IN_WALK` -/
  noVerWalk : Bool := false
  /-- `FP_SEARCH_ALLOW_UNSEEN_RETADDR` -/
  unseenOk : Bool := false

/-- Whether `safe_read` of `n` bytes at `a` succeeds, for `n` up to a page
(common/callstack.c:1421, 1449, 1795, 1838, 1964). -/
def rdOk (e : Env) (a n : Nat) : Bool :=
  decide (a + n ≤ userTop) && e.ok (a / 4096) && e.ok ((a + n - 1) / 4096)

/-- The eight bytes at `a` as a pointer, as `appdata` and `slot1` hold them
(common/callstack.c:1501, 1726-1729). -/
def word (e : Env) (a : Nat) : Nat :=
  e.byte a + 256 * (e.byte (a + 1) + 256 * (e.byte (a + 2) + 256 * (e.byte (a + 3) +
    256 * (e.byte (a + 4) + 256 * (e.byte (a + 5) + 256 * (e.byte (a + 6) +
      256 * e.byte (a + 7)))))))

/-- `pc - k` (common/callstack.c:1065, 1080-1106). -/
def back (pc k : Nat) : Nat := (pc + two64 - k) % two64

/-- `*(pc - k)`; `none` is a fault, caught by `DR_TRY_EXCEPT` (common/callstack.c:1078). -/
def rb (e : Env) (pc k : Nat) : Option Nat :=
  if e.ok (back pc k / 4096) then some (e.byte (back pc k)) else none

/-- `||` of C where either side may fault (common/callstack.c:1080-1106). -/
def orE (x y : Option Bool) : Option Bool :=
  match x with
  | none => none
  | some true => some true
  | some false => y

/-- `&&` of C where either side may fault (common/callstack.c:1080-1106). -/
def andE (x y : Option Bool) : Option Bool :=
  match x with
  | none => none
  | some true => y
  | some false => some false

/-- `*(int*)(pc - 4) != 0` (common/callstack.c:1082). -/
def disp (e : Env) (pc : Nat) : Option Bool :=
  match rb e pc 4, rb e pc 3, rb e pc 2, rb e pc 1 with
  | some a, some b, some c, some d => some (!(a == 0 && b == 0 && c == 0 && d == 0))
  | _, _, _, _ => none

/-- Whether the bytes before `pc` look like a call (common/callstack.c:1080-1106, 64-bit Linux). -/
def callBefore (e : Env) (pc : Nat) : Option Bool :=
  orE (andE ((rb e pc 5).map (· == 0xe8)) (disp e pc)) <|
  orE (andE ((rb e pc 2).map (· == 0xff))
        ((rb e pc 1).map fun m => (m >>> 3 == 0x02 && (m &&& 0x3) != 0x5) || (m &&& 0xf8) == 0xd0)) <|
  orE (andE ((rb e pc 3).map (· == 0xff)) ((rb e pc 2).map fun m => m >>> 3 == 0x0a)) <|
  orE (andE ((rb e pc 6).map (· == 0xff))
        ((rb e pc 5).map fun m => m >>> 3 == 0x12 || m == 0x15)) <|
  andE ((rb e pc 3).map (· == 0xff))
    (andE ((rb e pc 2).map (· == 0x14)) ((rb e pc 1).map fun m => (m &&& 0x3) != 5))

/-- `is_retaddr` (common/callstack.c:1047-1164). -/
def isRetaddr (e : Env) (pc : Nat) (excludeTool : Bool) : Bool :=
  if !e.inMod (back pc 1) then false
  else if excludeTool && e.tool pc then false
  else if (callBefore e pc).getD false = false then false
  else if !e.unseenOk && !e.tool pc && !e.seen pc then false
  else true

/-- `fpscan_cache_entry` (common/callstack.c:68-73). -/
structure Entry where
  inp : Nat := 0
  out : Nat := 0
  ra : Nat := 0
  deriving DecidableEq, Repr

/-- The fields of `tls_callstack_t` the walk uses (common/callstack.c:81-96). -/
structure Tls where
  /-- `stack_lowest_frame` -/
  low : Nat := 0
  /-- `stack_lowest_retaddr` -/
  lowRa : Nat := 0
  cache : List Entry := List.replicate 16 {}
  idx : Nat := 0
  deriving DecidableEq, Repr

/-- The test of one entry whose `input_fp` matches (common/callstack.c:1420-1427). -/
def entryGood (e : Env) (c : Entry) : Bool :=
  rdOk e ((c.out + 8) % two64) 8 && word e ((c.out + 8) % two64) == c.ra &&
    e.defd ((c.out + 8) % two64)

/-- The loop over the cache (common/callstack.c:1418-1440): the entries afterwards, and the position
and contents of the one that was hit. -/
def look (e : Env) (fp : Nat) : Nat → List Entry → List Entry × Option (Nat × Entry)
  | _, [] => ([], none)
  | i, c :: t =>
    if fp = c.inp then
      if entryGood e c then (c :: t, some (i, c))
      else
        let r := look e fp (i + 1) t
        ({ c with inp := 0 } :: r.1, r.2)
    else
      let r := look e fp (i + 1) t
      (c :: r.1, r.2)

/-- `fpcache_update` (common/callstack.c:1365-1372). -/
def update (p : Tls) (c : Entry) : Tls :=
  { p with
    cache := p.cache.set p.idx c
    idx := (p.idx + 1) % 16 }

/-- Whether the word at `sp` is taken for a return address (common/callstack.c:1493-1578). -/
def slotOk (e : Env) (prior sp : Nat) : Bool :=
  e.defd sp && isRetaddr e (word e sp) true &&
    (prior == 0 || e.noVerScan || e.targets prior (word e sp) false)

/-- The loop over the words of the stack (common/callstack.c:1468-1613), for the given number of
words. -/
def scan (e : Env) (prior : Nat) : Nat → Nat → Option Nat
  | 0, _ => none
  | n + 1, sp =>
    if !rdOk e (sp / 4096 * 4096) 4096 then none
    else if slotOk e prior sp then some sp
    else scan e prior n (sp + 8)

/-- The test against the lowest frame (common/callstack.c:1393-1401); the second difference is a
signed number. -/
def tooLow (e : Env) (p : Tls) (fp : Nat) (top : Bool) : Bool :=
  p.low != 0 &&
    ((decide (fp ≥ p.low) && decide (fp - p.low < e.swap)) ||
     (!top && decide ((p.low : Int) - (fp : Int) < 64)))

/-- `find_next_fp` (common/callstack.c:1374-1618): the frame pointer, or 0, what is stored in
`*retaddr`, and the thread's data. -/
def find (e : Env) (p : Tls) (fp0 prior : Nat) (top : Bool) : Nat × Nat × Tls :=
  let fp := fp0 / 8 * 8
  if tooLow e p fp top then (0, 0, p)
  else
    let l := look e fp0 0 p.cache
    match (if e.zeroed then l.2 else none) with
    | some (i, c) => (c.out, c.ra, { p with cache := l.1, idx := (i + 1) % 16 })
    | none =>
      let p := if e.zeroed then { p with cache := l.1 } else p
      if !rdOk e (fp / 4096 * 4096) 4096 then (0, 0, p)
      else
        match scan e prior (((fp + e.scanSz) % two64 - fp + 7) / 8) fp with
        | none => (0, 0, p)
        | some sp => (back sp 8, 0, update p ⟨fp0, back sp 8, word e sp⟩)

/-- The variables of the loop of `print_callstack` (common/callstack.c:1719-1736). -/
structure St where
  pc : Nat
  /-- `appdata.next_fp` and `appdata.retaddr`, if `have_appdata` -/
  app : Option (Nat × Nat) := none
  custom : Nat := 0
  lowest : Nat := 0
  first : Bool := true
  scanned : Bool := false
  num : Nat
  /-- The addresses in `pcs->frames` -/
  frames : List Nat
  tls : Tls
  deriving DecidableEq, Repr

/-- One of the calls of `find_next_fp` that start above the frame at `s.pc`
(common/callstack.c:1944-1947, 1980-1983, 1993-1996). -/
def scanFrom (e : Env) (s : St) (prior : Nat) : St :=
  let r := find e s.tls (s.pc + 16) prior false
  { s with
    pc := r.1
    scanned := true
    tls := r.2.2 }

/-- The end of the loop's body: the next frame (common/callstack.c:1927-2001).  `Sum.inr` is
`break`. -/
def next (e : Env) (s : St) (nfp ra : Nat) : St ⊕ St :=
  if s.pc = nfp then .inr s
  else if nfp = 0 then
    if e.stopZero then .inr s else .inl (scanFrom e s ra)
  else
    let outOfRange := decide (nfp < s.pc) || decide (nfp - s.pc ≥ e.swap)
    if !outOfRange && !rdOk e nfp 16 then .inr s
    else if outOfRange || (!e.noCheck && (s.scanned || e.preScan) &&
        !isRetaddr e (word e (nfp + 8)) false) then
      if e.stopBad then .inr s else .inl (scanFrom e s ra)
    else if e.noWalk || (!e.noVerWalk && !e.targets ra (word e (nfp + 8)) true) then
      .inl (scanFrom e s ra)
    else
      .inl { s with
        pc := nfp
        app := some (word e nfp, word e (nfp + 8)) }

/-- Whether `address_to_frame` records the address (common/callstack.c:888, 942, 1883-1885). -/
def keeps (e : Env) (ra : Nat) : Bool := e.inMod ra || e.showNon

/-- The test of the number of frames, then the next frame (common/callstack.c:1918-2001). -/
def more (e : Env) (max : Nat) (s : St) (nfp ra : Nat) : St ⊕ St :=
  let s := { s with first := false }
  if decide (s.num ≥ max) || decide (s.frames.length ≥ max) then .inr s
  else next e { s with app := none } nfp ra

/-- One execution of the body of the loop with `pc != NULL` (common/callstack.c:1836-2004).  `xsp` is
the stack pointer of the context, `max` is `max_frames`. -/
def step (e : Env) (xsp max : Nat) (s : St) : St ⊕ St :=
  if s.app.isNone && !rdOk e s.pc 16 then .inr s
  else
    let a := s.app.getD (word e s.pc, word e (s.pc + 8))
    let nfp := if s.pc < xsp then 0 else a.1
    let ra := if s.custom ≠ 0 then s.custom else a.2
    let s := { s with custom := 0 }
    if s.first && decide (s.num = 1) && decide (s.frames.head? = some ra) then
      more e max { s with lowest := s.pc } nfp ra
    else if keeps e ra then
      let s := { s with
        lowest := s.pc
        frames := s.frames ++ [ra]
        num := s.num + 1 }
      if ra = s.tls.lowRa ∧ s.tls.lowRa ≠ 0 then .inr s
      else more e max s nfp ra
    else if s.first then
      let r := find e s.tls xsp 0 true
      .inl { s with
        pc := r.1
        custom := r.2.1
        scanned := true
        first := false
        app := none
        tls := r.2.2 }
    else more e max s nfp ra

/-- The loop (common/callstack.c:1836-2004) for at most `n` rounds; the flag says that it ended. -/
def loop (e : Env) (xsp max : Nat) : Nat → St → Bool × St
  | 0, s => (s.pc == 0, s)
  | n + 1, s =>
    if s.pc = 0 then (true, s)
    else
      match step e xsp max s with
      | .inr t => (true, t)
      | .inl t => loop e xsp max n t

/-- The test of the frame pointer of the context (common/callstack.c:1780-1800): whether to scan. -/
def badFp (e : Env) (xsp xbp : Nat) : Bool :=
  xsp != 0 &&
    (xbp % 8 != 0 || decide (xbp < xsp) || decide (xbp - xsp > e.swap) || e.ignoreXbp ||
     !e.defd xbp || !e.defd (xbp + 8) ||
     (xbp != 0 && (!rdOk e xbp 16 ||
       (!e.noFirst && !isRetaddr e (word e (xbp + 8)) false))))

/-- The start of `print_callstack` (common/callstack.c:1719-1835).  `init` holds the frame the caller
has recorded, if any. -/
def start (e : Env) (p : Tls) (xsp xbp : Nat) (init : List Nat) : St :=
  if badFp e xsp xbp then
    let r := find e p xsp (init.headD 0) true
    { pc := r.1
      custom := r.2.1
      scanned := true
      num := init.length
      frames := init
      tls := r.2.2 }
  else
    { pc := xbp
      num := init.length
      frames := init
      tls := p }

end Verif.Walk
