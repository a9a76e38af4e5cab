/-!
# Pattern mode: unaddressable accesses found without shadow memory

`-pattern V` (implied by `-unaddr_only` and `-light`) keeps no shadow memory.
The 16-bit value `V` is written over and over into the redzones around every
heap block, into the padding after the requested size and into freed blocks.
Before every memory access of the application a compare against the pattern is
inserted; if it matches, an illegal instruction is executed, and the fault
handler decides with the help of the allocator's own records whether the access
really touches a redzone or a freed block.

Modelled: drmemory/pattern.c lines 272-365 (which compares are inserted),
936-985 (the fault handler), 1262-1313 (the quick pre-check), 1315-1328,
1334-1356 (writing the pattern), 1358-1488 (the actions on allocator events) and
1490-1548 (deciding and reporting); drmemory/alloc_drmem.c lines 2647-2713
(`region_in_redzone`) and common/alloc_replace.c lines 2425-2513 (the walk over
the chunks of an arena).

Simplifications.  Memory is a total function from addresses to bytes (so every
`safe_read` succeeds).  The heap is one arena of the replacement allocator with
redzones that are not shared, which is what pattern mode uses.  The
exceptions for known-benign accesses (`check_unaddressable_exceptions`) are left
out: a report here is a report unless such an exception applies.  An
instruction has one memory operand.  The elision of checks
(`pattern_opt_elide_overlap`, off by default) is not modelled.
-/

namespace Verif.Pattern

/-- Contents of memory, byte by byte. -/
abbrev Mem := Nat → UInt8

/-- The settings pattern mode runs with: `pat` is the 16-bit value of
    `options.pattern` (drmemory/options.c doubles it to 32 bits),
    `rz` is `options.redzone_size`, `hs` the allocator's `header_size`
    (common/alloc_replace.c 5256-5290), `four` is `pattern_4byte_check_only`
    (drmemory/pattern.c 58) and `nodisp` says that the displacement of the operand
    is too small to subtract 2 from it (drmemory/pattern.c 308, 349). -/
structure Cfg where
  pat : Nat
  rz : Nat
  hs : Nat
  four : Bool
  nodisp : Bool

/-- `SWAP_BYTE` (drmemory/pattern.c 51). -/
def swap (p : Nat) : Nat := p / 256 % 256 + 256 * (p % 256)

/-- `options.pattern` once doubled: the 16-bit value in both halves. -/
def P32 (k : Cfg) : Nat := k.pat * 65537

/-- `pattern_reverse`, `PATTERN_REVERSE` (drmemory/pattern.c 52). -/
def R32 (k : Cfg) : Nat := swap k.pat * 65537

/-- The `i`-th byte of a little-endian value. -/
def byteOf (v i : Nat) : UInt8 := UInt8.ofNat (v / 256 ^ i)

/-- A store of the `w` low bytes of `v` at `a`. -/
def wr (m : Mem) (a v w : Nat) : Mem := fun x =>
  if a ≤ x ∧ x < a + w then byteOf v (x - a) else m x

/-- A load of `w` bytes at `a`. -/
def rd (m : Mem) (a : Nat) : Nat → Nat
  | 0 => 0
  | w + 1 => (m a).toNat + 256 * rd m (a + 1) w

/-- `memset(a, 0, n)`. -/
def zero (m : Mem) (a n : Nat) : Mem := fun x =>
  if a ≤ x ∧ x < a + n then 0 else m x

/-- `ALIGN_FORWARD(x, 4)`. -/
def up4 (x : Nat) : Nat := (x + 3) / 4 * 4

/-- `ALIGN_BACKWARD(x, 4)`. -/
def down4 (x : Nat) : Nat := x / 4 * 4

/-- The loop of `pattern_write_pattern` (drmemory/pattern.c 1351-1355): `n`
    dwords from `a` on. -/
def fill (k : Cfg) (m : Mem) (a : Nat) : Nat → Mem
  | 0 => m
  | n + 1 => fill k (wr m a (P32 k) 4) (a + 4) n

/-- `pattern_write_pattern` (drmemory/pattern.c 1334-1356).  The loop runs while
    `addr < end`, that is `ceil((end - addr) / 4)` times. -/
def writePattern (k : Cfg) (m : Mem) (s e : Nat) : Mem :=
  let m := if s % 2 ≠ 0 then wr m s (R32 k) 4
           else if s % 4 ≠ 0 then wr m s k.pat 2
           else m
  fill k m (up4 s) ((e - up4 s + 3) / 4)

/-- A chunk of the arena: `malloc_info_t` / `chunk_header_t` (`base`,
    `request_size`, `pad_size`; `live` is the negation of `CHUNK_FREED`). -/
structure Chunk where
  base : Nat
  req : Nat
  pad : Nat
  live : Bool
deriving DecidableEq, Repr

/-- `pattern_handle_malloc` (drmemory/pattern.c 1358-1381), `has_redzone`. -/
def handleMalloc (k : Cfg) (m : Mem) (c : Chunk) : Mem :=
  let m := writePattern k m (c.base - k.rz) c.base
  writePattern k m (c.base + c.req) (c.base + c.pad + k.rz)

/-- `pattern_handle_real_free` with `delayed` (drmemory/pattern.c 1388-1394): what
    `client_handle_free_reuse` (drmemory/alloc_drmem.c 935-941) does. -/
def handleReuse (k : Cfg) (m : Mem) (c : Chunk) : Mem :=
  zero m (c.base - k.rz) (c.pad + k.rz * 2)

/-- `pattern_handle_delayed_free` (drmemory/pattern.c 1422-1436). -/
def handleFree (k : Cfg) (m : Mem) (c : Chunk) : Mem :=
  writePattern k m c.base (c.base + c.req)

/-- The in-place part of `pattern_handle_realloc` (drmemory/pattern.c 1456-1477)
    for a chunk whose padded size stays as it is, which is the only in-place
    case of the replacement allocator (common/alloc_replace.c 2147-2163). -/
def handleResize (k : Cfg) (m : Mem) (c : Chunk) (req : Nat) : Mem :=
  if c.req < req then
    let m := zero m (c.base + c.req) (c.pad - c.req + k.rz)
    writePattern k m (c.base + req) (c.base + req + (c.pad - req + k.rz))
  else if req < c.req then
    writePattern k m (c.base + req) (c.base + c.req)
  else m

/-- `pattern_new_redzone` (drmemory/pattern.c 1479-1487). -/
def newRedzone (k : Cfg) (m : Mem) (s n : Nat) : Mem :=
  writePattern k m s (s + n)

/-- One inserted compare: `w` bytes at `addr` against `val`. -/
structure Check where
  addr : Nat
  w : Nat
  val : Nat
deriving DecidableEq, Repr

/-- `pattern_create_check_opnds` (drmemory/pattern.c 272-365) for an operand of
    `n` bytes at `a`.  The last case is the code as it stands: line 355 moves
    the displacement of `refs[1]`, not of `refs[2]`. -/
def checks (k : Cfg) (a n : Nat) : List Check :=
  if n > 2 then [⟨a, 4, P32 k⟩]
  else if n = 2 then
    if !k.four then [⟨a, 2, k.pat⟩]
    else if k.nodisp then [⟨a, 4, P32 k⟩]
    else [⟨a, 4, P32 k⟩, ⟨a - 2, 4, P32 k⟩]
  else if n = 1 then
    if !k.four then [⟨a, 2, k.pat⟩, ⟨a, 2, swap k.pat⟩]
    else if k.nodisp then [⟨a, 4, P32 k⟩, ⟨a, 4, R32 k⟩]
    else [⟨a, 4, P32 k⟩, ⟨a - 2, 4, R32 k⟩, ⟨a, 4, P32 k⟩, ⟨a, 4, R32 k⟩]
  else []

/-- The first loop of `pattern_addr_pre_check` (drmemory/pattern.c 1284-1296):
    how many of the next `n` dwords from `a` up hold the pattern before one does
    not. -/
def matchUp (k : Cfg) (m : Mem) (a : Nat) : Nat → Nat
  | 0 => 0
  | n + 1 => if rd m a 4 = P32 k then matchUp k m (a + 4) n + 1 else 0

/-- The second loop (drmemory/pattern.c 1299-1308), going down.  At the bottom of
    the address space it stops. -/
def matchDown (k : Cfg) (m : Mem) (a : Nat) : Nat → Nat
  | 0 => 0
  | n + 1 =>
    if rd m a 4 = P32 k then
      (if a < 4 then 0 else matchDown k m (a - 4) n) + 1
    else 0

/-- `pattern_addr_pre_check` (drmemory/pattern.c 1262-1313). -/
def preCheck (k : Cfg) (m : Mem) (addr : Nat) : Bool :=
  let a := down4 addr
  let up := matchUp k m (a + 4) (k.rz / 4)
  if up > k.rz / 4 / 2 then true
  else decide (up + matchDown k m a (k.rz / 4) > k.rz / 4 / 2)

/-- The walk of `alloc_replace_overlaps_region` over the chunks of an arena
    (common/alloc_replace.c 2477-2500): the first chunk for which
    `start < chunk_start + alloc_size + redzone && end >= chunk_start - redzone`. -/
def overlapping (k : Cfg) (cs : List Chunk) (s e : Nat) : Option Chunk :=
  cs.find? fun c => decide (s < c.base + c.pad + k.rz) && decide (c.base ≤ e + k.rz)

/-- `region_in_redzone` (drmemory/alloc_drmem.c 2647-2713) through
    `alloc_replace_overlaps_malloc`; the chunk found must not be freed. -/
def inRedzone (k : Cfg) (cs : List Chunk) (a n : Nat) : Bool :=
  match overlapping k cs a (a + n) with
  | none => false
  | some c =>
    c.live &&
      (decide (a < c.base ∧ c.base < a + n + k.rz) ||
       decide (a < c.base + c.pad + k.rz * 2 ∧ c.base + c.req < a + n))

/-- `overlaps_delayed_free` for any freed chunk (drmemory/alloc_drmem.c, through
    `alloc_replace_overlaps_any_free`, common/alloc_replace.c 2525-2533). -/
def inFreed (k : Cfg) (cs : List Chunk) (a n : Nat) : Bool :=
  match overlapping k cs a (a + n) with
  | none => false
  | some c => !c.live

/-- The first three conjuncts of the decision in `pattern_handle_mem_ref`
    (drmemory/pattern.c 1496-1507): the value read. -/
def looksBad (k : Cfg) (m : Mem) (a n : Nat) : Bool :=
  if n ≤ 2 then decide (rd m a 2 = k.pat) || decide (rd m a 2 = swap k.pat)
  else decide (rd m a 4 = P32 k) || decide (rd m a 4 = R32 k)

/-- `pattern_handle_mem_ref` (drmemory/pattern.c 1490-1548): whether an error is
    reported, and memory afterwards. -/
def handleMemRef (k : Cfg) (cs : List Chunk) (m : Mem) (a n : Nat) : Bool × Mem :=
  if looksBad k m a n && preCheck k m a &&
      (inRedzone k cs a n || inFreed k cs a n) then
    (true, wr m a 0 1)
  else (false, m)

/-- The inserted code for one access of the application: each compare in turn,
    with `pattern_handle_ill_fault` (drmemory/pattern.c 936-985) on a match.  The
    result is the number of reports and memory as the application's instruction
    then finds it. -/
def runChecks (k : Cfg) (cs : List Chunk) (a n : Nat) : List Check → Mem → Nat × Mem
  | [], m => (0, m)
  | c :: r, m =>
    if rd m c.addr c.w = c.val then
      let h := handleMemRef k cs m a n
      let t := runChecks k cs a n r h.2
      ((if h.1 then 1 else 0) + t.1, t.2)
    else runChecks k cs a n r m

/-- All checks of an access to `n` bytes at `a`. -/
def access (k : Cfg) (cs : List Chunk) (m : Mem) (a n : Nat) : Nat × Mem :=
  runChecks k cs a n (checks k a n) m

/-- Memory and the chunks of the arena in address order. -/
structure St where
  mem : Mem
  chunks : List Chunk

/-- There is room for the trailing redzone of `c`, the header of `d` and the
    leading redzone of `d` between the two chunks (`inter_chunk_space`,
    common/alloc_replace.c 812-836). -/
def gap (k : Cfg) (c d : Chunk) : Prop :=
  c.base + c.pad + k.rz + k.hs + k.rz ≤ d.base

/-- What `pattern_handle_malloc` asserts of a chunk (drmemory/pattern.c
    1361-1363), and that its header and redzone lie at positive addresses. -/
def fits (k : Cfg) (c : Chunk) : Prop :=
  c.base % 4 = 0 ∧ c.pad % 4 = 0 ∧ c.req ≤ c.pad ∧ k.rz + k.hs ≤ c.base

/-- What can happen to the heap. -/
inductive Ev where
  /-- a block is handed to the application -/
  | malloc (c : Chunk)
  /-- a block is freed -/
  | free (c : Chunk)
  /-- a freed chunk is taken off the free list -/
  | reuse (c : Chunk)
  /-- a freed chunk is split in two -/
  | split (c d : Chunk)
  /-- two adjacent freed chunks become one -/
  | join (c d : Chunk)
  /-- a block is resized where it is -/
  | resize (c : Chunk) (req : Nat)
  /-- the application stores a byte -/
  | store (a : Nat) (v : UInt8)
  /-- the checks in front of an access of the application -/
  | check (a n : Nat)
  /-- anything else that happens to memory outside chunks and their redzones:
      headers, other mappings -/
  | other

/-- One event.  The allocator side (which chunks there are) is as in
    common/alloc_replace.c: new chunks keep clear of the others, a split leaves room
    for a header and two redzones (1512-1540), and a merge takes over what lies
    between (1370-1412).  The memory side is the function of pattern.c called by
    drmemory/alloc_drmem.c 549, 622, 753-759, 811, 859, 923-930, 935-951. -/
inductive Step (k : Cfg) : Ev → St → St → Prop where
  | malloc {m : Mem} {pre post : List Chunk} {c : Chunk}
      (live : c.live = true) (ok : fits k c)
      (below : ∀ d ∈ pre, gap k d c) (above : ∀ d ∈ post, gap k c d) :
      Step k (.malloc c) ⟨m, pre ++ post⟩ ⟨handleMalloc k m c, pre ++ c :: post⟩
  | free {m : Mem} {pre post : List Chunk} {c : Chunk} (live : c.live = true) :
      Step k (.free c) ⟨m, pre ++ c :: post⟩
        ⟨handleFree k m c, pre ++ { c with live := false } :: post⟩
  | reuse {m : Mem} {pre post : List Chunk} {c : Chunk} (freed : c.live = false) :
      Step k (.reuse c) ⟨m, pre ++ c :: post⟩ ⟨handleReuse k m c, pre ++ post⟩
  | split {m : Mem} {pre post : List Chunk} {c d : Chunk} {e : Chunk}
      (freed : e.live = false) (cfreed : c.live = false) (dfreed : d.live = false)
      (cbase : c.base = e.base) (dbase : d.base = c.base + c.pad + (k.rz + k.hs + k.rz))
      (size : d.base + d.pad = e.base + e.pad) (cok : fits k c) (dok : fits k d) :
      Step k (.split c d) ⟨m, pre ++ e :: post⟩
        ⟨newRedzone k (newRedzone k m (d.base - k.rz) k.rz) (d.base + d.pad) k.rz,
          pre ++ c :: d :: post⟩
  | join {m : Mem} {pre post : List Chunk} {c d e : Chunk}
      (cfreed : c.live = false) (dfreed : d.live = false) (freed : e.live = false)
      (adj : d.base = c.base + c.pad + (k.rz + k.hs + k.rz))
      (base : e.base = c.base) (size : e.base + e.pad = d.base + d.pad)
      (req : e.req ≤ e.pad) :
      Step k (.join c d) ⟨m, pre ++ c :: d :: post⟩
        ⟨newRedzone k m (d.base - k.rz - k.hs) k.hs, pre ++ e :: post⟩
  | resize {m : Mem} {pre post : List Chunk} {c : Chunk} {req : Nat}
      (live : c.live = true) (size : req ≤ c.pad) :
      Step k (.resize c req) ⟨m, pre ++ c :: post⟩
        ⟨handleResize k m c req, pre ++ { c with req := req } :: post⟩
  | store {m : Mem} {cs : List Chunk} (a : Nat) (v : UInt8) :
      Step k (.store a v) ⟨m, cs⟩ ⟨fun x => if x = a then v else m x, cs⟩
  | check {m : Mem} {cs : List Chunk} (a n : Nat) :
      Step k (.check a n) ⟨m, cs⟩ ⟨(access k cs m a n).2, cs⟩
  | other {m m' : Mem} {cs : List Chunk}
      (away : ∀ c ∈ cs, ∀ x, c.base ≤ x + k.rz → x < c.base + c.pad + k.rz → m' x = m x) :
      Step k .other ⟨m, cs⟩ ⟨m', cs⟩

end Verif.Pattern
