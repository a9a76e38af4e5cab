import Verif.UmbraRange
/-!
# Umbra on 32-bit machines (umbra/umbra_32.c)

One map of the 32-bit implementation: a table with one displacement per 64 KB of application
address space, blocks of shadow memory, one default block for memory without shadow, and up to
eight read-only blocks that many table entries share.

The memory of the process is a function from addresses to bytes together with access rights.  The
allocator is a parameter: a function from the blocks in use to the next block, or to nothing when
memory is exhausted.  A store to memory that is not writable and an exhausted allocator are outcomes
of their own (`fault`, `oom`).

Simplifications: one thread (locks dropped); access rights are kept per byte instead of per page;
the `ASSERT`s are left out; value sizes are 1 (all other sizes are rejected by the code or by an
`ASSERT`); the sizes stored through `*shadow_size` are kept only when the call succeeds.
-/
namespace Verif.Umbra32

/-- 2^32, the number of addresses. -/
@[irreducible] def W : Nat := 4294967296

/-- `APP_BLOCK_SIZE` (umbra/umbra_32.c:60-62). -/
@[irreducible] def B : Nat := 65536

/-- Options of a map: scale as a fraction `m/g` (umbra/umbra.h:92-102, umbra/umbra.c:52-70), default
value, `UMBRA_MAP_CREATE_SHADOW_ON_TOUCH`, redzone size (after umbra/umbra_32.c:585-586), redzone
value and `make_redzone_faulty`. -/
structure Cfg where
  m : Nat
  g : Nat
  dflt : UInt8
  onTouch : Bool
  rz : Nat
  rzval : UInt8
  faulty : Bool

/-- The scale and block size in the form used for the range loop of the 64-bit code. -/
def Cfg.u (c : Cfg) : Umbra.Cfg := ⟨B, c.m, c.g, c.dflt, c.onTouch⟩

/-- `umbra_map_scale_app_to_shadow` (umbra/umbra.c:52-60) on 32-bit values. -/
def scale (c : Cfg) (v : Nat) : Nat := v * c.m / c.g % W

/-- `umbra_map_scale_shadow_to_app` (umbra/umbra.c:62-70) on 32-bit values. -/
def unscale (c : Cfg) (v : Nat) : Nat := v * c.g / c.m % W

/-- `map->shadow_block_size` (umbra/umbra_32.c:599). -/
def S (c : Cfg) : Nat := scale c B

/-- Access rights given to `dr_memory_protect`. -/
inductive Perm where
  | none | read | rw
  deriving DecidableEq, Repr

/-- The fields of `umbra_map_t` (umbra/umbra_private.h:50-80) and the memory of the process.
`specials` lists (`start`, `value`) of `special_blocks[0..num_special_blocks)`; `live` lists the blocks
in use and exists only for the allocator. -/
structure Map where
  table : Nat → Nat
  dflt : Nat
  specials : List (Nat × Nat)
  mem : Nat → UInt8
  perm : Nat → Perm
  live : List Nat

/-- Results: the `drmf_status_t` values returned, and the two outcomes in which the call does not
return. -/
inductive Status where
  | ok | invalidParameter | invalidSize | notImplemented | featureNotAvailable | noMem | oom | fault
  deriving DecidableEq, Repr

/-- The allocator (`nonheap_alloc`, `global_alloc`): address of the next block (after its leading
redzone) given the blocks in use. -/
abbrev Alloc := List Nat → Option Nat

/-- Give the bytes `[i, i+n)` the rights `p` (`dr_memory_protect`). -/
def protect (f : Nat → Perm) (i n : Nat) (p : Perm) : Nat → Perm :=
  fun t => if i ≤ t ∧ t < i + n then p else f t

/-- `shadow_table_init_redzone` (umbra/umbra_32.c:95-130); `b` is the address after the leading
redzone, which is what the function returns. -/
def initRedzone (c : Cfg) (m : Map) (b : Nat) : Map :=
  if c.rz = 0 then m
  else if c.faulty then
    { m with perm := protect (protect m.perm (b - c.rz) c.rz .none) (b + S c) c.rz .none }
  else
    { m with mem := Umbra.memset (Umbra.memset m.mem (b - c.rz) c.rz c.rzval) (b + S c) c.rz c.rzval }

/-- `shadow_table_create_block` (umbra/umbra_32.c:132-152): the memory allocated is readable and
writable. -/
def createBlock (c : Cfg) (al : Alloc) (m : Map) : Option (Map × Nat) :=
  match al m.live with
  | none => none
  | some b =>
    some (initRedzone c { m with live := b :: m.live,
                                 perm := protect m.perm (b - c.rz) (S c + 2 * c.rz) .rw } b, b)

/-- `shadow_table_delete_block` (umbra/umbra_32.c:82-93). -/
def deleteBlock (m : Map) (b : Nat) : Map := { m with live := m.live.filter (· ≠ b) }

/-- `shadow_table_create_special_block_helper` (umbra/umbra_32.c:181-210): a block filled with
`value`, then made read-only together with its redzones. -/
def specialHelper (c : Cfg) (al : Alloc) (m : Map) (v : Nat) : Option (Map × Nat) :=
  match createBlock c al m with
  | none => none
  | some (m, b) =>
    some ({ m with mem := Umbra.memset m.mem b (S c) (UInt8.ofNat v),
                   perm := protect m.perm (b - c.rz) (S c + 2 * c.rz) .read }, b)

/-- `shadow_table_lookup_special_block` (umbra/umbra_32.c:221-238). -/
def lookupSpecial (m : Map) (v : Nat) : Option Nat :=
  (m.specials.find? fun p => p.2 = v).map (·.1)

/-- `shadow_table_create_special_block` (umbra/umbra_32.c:240-262); `MAX_NUM_SPECIAL_BLOCKS` is 8
(umbra/umbra_private.h:42).  The outer `none` is an exhausted allocator, the inner one `NULL`. -/
def createSpecial (c : Cfg) (al : Alloc) (m : Map) (v : Nat) : Option (Map × Option Nat) :=
  match lookupSpecial m v with
  | some b => some (m, some b)
  | none =>
    if m.specials.length ≥ 8 then some (m, none)
    else match specialHelper c al m v with
      | none => none
      | some (m, b) => some ({ m with specials := m.specials ++ [(b, v)] }, some b)

/-- `shadow_table_set_block` (umbra/umbra_32.c:264-274): the entry holds the distance from the scaled
application base to the block, modulo 2^32. -/
def setBlock (c : Cfg) (m : Map) (idx b : Nat) : Map :=
  { m with table := fun j => if j = idx then (b + (W - scale c (idx * B % W))) % W else m.table j }

/-- `shadow_table_get_block` (umbra/umbra_32.c:276-282). -/
def getBlock (c : Cfg) (m : Map) (idx : Nat) : Nat := (m.table idx + scale c (idx * B % W)) % W

/-- `shadow_table_app_to_shadow` (umbra/umbra_32.c:284-289) with `shadow_table_get_block_offset`
(umbra/umbra_32.c:75-80). -/
def appToShadow (c : Cfg) (m : Map) (a : Nat) : Nat :=
  (getBlock c m (a / B) + scale c (a % B)) % W

/-- What the instructions inserted on x86 leave in `reg_addr`
(`shadow_table_insert_app_to_shadow_arch`, umbra/umbra_32.c:304-341): index by a shift of 16, address
shifted by the scale, entry added. -/
def genX86 (c : Cfg) (m : Map) (a : Nat) : Nat := (scale c a + m.table (a / 65536)) % W

/-- The word loaded from `table + 4*i`, for a table that lies at address `tb` (used by the ARM code):
the entry if the address is one of an entry. -/
def tableLoad (m : Map) (tb x : Nat) : Option Nat :=
  if tb ≤ x ∧ (x - tb) % 4 = 0 ∧ (x - tb) / 4 < 65536 then some (m.table ((x - tb) / 4)) else none

/-- What the instructions inserted on ARM leave in `reg_addr` (umbra/umbra_32.c:350-401):
`idx = table + (addr >> 14)`, low two bits cleared, load, address shifted and added. -/
def genArm (c : Cfg) (m : Map) (tb a : Nat) : Option Nat :=
  let i := (tb + a / 16384) % W
  let i := i - i % 4
  (tableLoad m tb i).map fun e => (e + scale c a) % W

/-- The address test of `shadow_table_is_in_default_block` and
`shadow_table_is_in_special_block` (umbra/umbra_32.c:410-412, 441-445): pointer arithmetic wraps. -/
def inRegion (c : Cfg) (start x : Nat) : Bool :=
  decide ((start + (W - c.rz)) % W ≤ x) && decide (x < (start + S c + c.rz) % W)

/-- `shadow_table_is_in_default_block` (umbra/umbra_32.c:406-425); with create-on-touch `start` is
`NULL` (umbra/umbra_32.c:527). -/
def isDefault (c : Cfg) (m : Map) (x : Nat) : Bool := inRegion c m.dflt x

/-- `shadow_table_is_in_special_block` (umbra/umbra_32.c:434-466): the value of the block. -/
def isSpecial (c : Cfg) (m : Map) (x : Nat) : Option Nat :=
  (m.specials.find? fun p => inRegion c p.1 x).map (·.2)

/-- `shadow_table_is_in_normal_block` (umbra/umbra_32.c:477-483). -/
def isNormal (c : Cfg) (m : Map) (x : Nat) : Bool := !isDefault c m x && (isSpecial c m x).isNone

/-- A store of `n` bytes at `i` (`memset`, `memmove`) by the library. -/
def store (m : Map) (i n : Nat) (f : Nat → UInt8) : Option Map :=
  if ∀ t, t < n → m.perm (i + t) = .rw then some { m with mem := Umbra.memput m.mem i n f } else none

/-- The value a replaced block starts with: that of the default block or of the special block in use
(umbra/umbra_32.c:491-495); `none` if the block is an ordinary one. -/
def sharedValue (c : Cfg) (m : Map) (a : Nat) : Option Nat :=
  if isDefault c m (appToShadow c m a) then some c.dflt.toNat
  else isSpecial c m (appToShadow c m a)

/-- `shadow_table_replace_block` (umbra/umbra_32.c:485-504). -/
def replaceBlock (c : Cfg) (al : Alloc) (m : Map) (a : Nat) : Map × Status :=
  match sharedValue c m a with
  | none => (m, .ok)
  | some v =>
    match createBlock c al m with
    | none => (m, .oom)
    | some (m, b) =>
      match store m b (S c) (fun _ => UInt8.ofNat v) with
      | none => (m, .fault)
      | some m => (setBlock c m (a / B) b, .ok)

/-- `shadow_table_init` (umbra/umbra_32.c:506-529), starting from memory `mem`. -/
def init (c : Cfg) (al : Alloc) (mem : Nat → UInt8) : Option Map :=
  let m0 : Map := ⟨fun _ => 0, 0, [], mem, fun _ => .none, []⟩
  if c.onTouch then
    match createSpecial c al m0 c.dflt.toNat with
    | some (m, some b) => some { m with table := fun i => (b + (W - scale c (i * B % W))) % W }
    | _ => none
  else
    match specialHelper c al m0 c.dflt.toNat with
    | some (m, b) =>
      some { m with dflt := b, table := fun i => (b + (W - scale c (i * B % W))) % W }
    | none => none

/-- The control part of `APP_RANGE_LOOP` (umbra/umbra_private.h:105-122) with 32-bit addresses:
the list of (`start`, `iter_size`) given to the loop body. -/
def piecesGo (a e : Nat) : Nat → Nat → List (Nat × Nat)
  | 0, _ => []
  | f + 1, blk =>
    if blk < e then
      let blkEnd := blk + (B - 1)
      let start := if a > blk then a else blk
      let en := if e < blkEnd then e else blkEnd
      (start, en - start + 1) :: piecesGo a e f (if blkEnd + 1 ≥ W then e else blkEnd + 1)
    else []

/-- `APP_RANGE_LOOP` from its first block (umbra/umbra_private.h:105-108). -/
def pieces (a n : Nat) : List (Nat × Nat) := piecesGo a (a + (n - 1)) (n + 1) (a / B * B)

/-- `POINTER_OVERFLOW_ON_ADD(app_addr, app_size-1)` (umbra/umbra_32.c:636 and others). -/
def overflows (a n : Nat) : Bool :=
  if n = 0 then decide (0 < a) else decide (a + (n - 1) ≥ W)

/-- Run a loop body over the pieces until it does not succeed. -/
def loop {σ : Type} (f : σ → Nat → Nat → σ × Status) : List (Nat × Nat) → σ → σ × Status
  | [], s => (s, .ok)
  | (a, k) :: l, s =>
    match f s a k with
    | (s', .ok) => loop f l s'
    | r => r

/-- The step shared by set and write for one piece: no shadow is an error, a shared block is replaced,
then the bytes are stored at the address of `start` (umbra/umbra_32.c:754-762, 796-806). -/
def putPiece (c : Cfg) (al : Alloc) (m : Map) (start iter : Nat) (f : Map → Nat → UInt8) :
    Map × Status :=
  if isDefault c m (appToShadow c m start) then (m, .invalidParameter)
  else
    let r := if (isSpecial c m (appToShadow c m start)).isSome then
        replaceBlock c al m (start / B * B) else (m, .ok)
    match r with
    | (m, .ok) =>
      match store m (appToShadow c m start) (scale c iter) (f m) with
      | none => (m, .fault)
      | some m => (m, .ok)
    | r => r

/-- `umbra_shadow_set_range_arch` (umbra/umbra_32.c:771-811).  Returns the map, `*shadow_size` and the
status. -/
def setRange (c : Cfg) (al : Alloc) (m : Map) (a n v : Nat) : (Map × Nat) × Status :=
  if v > 255 then ((m, 0), .notImplemented)
  else if overflows a n then ((m, 0), .invalidSize)
  else loop (fun (m, sz) start iter =>
    match putPiece c al m start iter (fun _ _ => UInt8.ofNat v) with
    | (m, st) => ((m, sz + scale c iter), st)) (pieces a n) (m, 0)

/-- The loop body of `umbra_create_shadow_memory_arch` (umbra/umbra_32.c:618-681) for the block of the
piece; `a`, `e` are `app_addr` and `app_src_end`. -/
def createPiece (c : Cfg) (al : Alloc) (shared : Bool) (a e v : Nat) (m : Map) (start iter : Nat) :
    Map × Status :=
  let blk := start / B * B
  let setIt (m : Map) : Map × Status :=
    match setRange c al m start iter v with
    | ((m, _), st) => (m, st)
  let normal (m : Map) : Map × Status :=
    match replaceBlock c al m blk with
    | (m, .ok) => setIt m
    | r => r
  if isDefault c m (appToShadow c m blk) then
    if shared && ((decide (blk ≥ a) && decide (blk + (B - 1) ≤ e)) || decide (c.dflt.toNat = v)) then
      match createSpecial c al m v with
      | none => (m, .oom)
      | some (m, some b) => (setBlock c m (blk / B) b, .ok)
      | some (m, none) => normal m
    else normal m
  else setIt m

/-- `umbra_create_shadow_memory_arch` (umbra/umbra_32.c:618-681). -/
def create (c : Cfg) (al : Alloc) (m : Map) (shared : Bool) (a n v : Nat) : Map × Status :=
  if v ≥ 255 then (m, .featureNotAvailable)
  else if overflows a n then (m, .invalidSize)
  else loop (createPiece c al shared a (a + (n - 1)) v) (pieces a n) m

/-- `umbra_delete_shadow_memory_arch` (umbra/umbra_32.c:683-694). -/
def delete (c : Cfg) (al : Alloc) (m : Map) (a n : Nat) : (Map × Nat) × Status :=
  setRange c al m a n c.dflt.toNat

/-- `umbra_read_shadow_memory_arch` (umbra/umbra_32.c:696-729), `bufsz` the incoming `*shadow_size`;
returns the bytes put into `buffer`. -/
def read (c : Cfg) (m : Map) (a n bufsz : Nat) : List UInt8 × Status :=
  if bufsz < scale c n then ([], .invalidSize)
  else if overflows a n then ([], .invalidSize)
  else loop (fun out start iter =>
    if isDefault c m (appToShadow c m start) then (out, .invalidParameter)
    else (out ++ (List.range (scale c iter)).map fun i => m.mem (appToShadow c m start + i), .ok))
    (pieces a n) []

/-- `umbra_write_shadow_memory_arch` (umbra/umbra_32.c:731-769).  The buffer is a function of the map
because `umbra_shadow_copy_range_arch` passes a pointer into shadow memory. -/
def write (c : Cfg) (al : Alloc) (m : Map) (a n bufsz : Nat) (buf : Map → Nat → UInt8) :
    (Map × Nat) × Status :=
  if bufsz < scale c n then ((m, 0), .invalidSize)
  else if overflows a n then ((m, 0), .invalidSize)
  else loop (fun (m, done) start iter =>
    match putPiece c al m start iter (fun m i => buf m (done + i)) with
    | (m, st) => ((m, done + scale c iter), st)) (pieces a n) (m, 0)

/-- `umbra_shadow_copy_range_arch` (umbra/umbra_32.c:813-881).  `app_dst` is advanced by the loop and
the advanced value is used for the overlap tail.  Returns the map, `*shadow_size_out` and the
status. -/
def copy (c : Cfg) (al : Alloc) (m : Map) (src dst n : Nat) : (Map × Nat) × Status :=
  if overflows src n || overflows dst n then ((m, 0), .invalidSize)
  else
    let ov := decide (src < dst) && decide (src + (n - 1) ≥ dst)
    let tailSz := src + (n - 1) - dst + 1
    let tail := (read c m dst tailSz (scale c tailSz)).1
    let sz := if ov then dst - src else n
    match loop (fun ((m, d, tot) : Map × Nat × Nat) start iter =>
        if isDefault c m (appToShadow c m start) then ((m, d, tot), .invalidParameter)
        else
          let p := appToShadow c m start
          match write c al m d iter (scale c iter) (fun m i => m.mem (p + i)) with
          | ((m, w), .ok) => ((m, d + iter, tot + w), .ok)
          | ((m, w), st) => ((m, d, tot + w), st)) (pieces src sz) (m, dst, 0) with
    | ((m, d, tot), .ok) =>
      if ov then
        match write c al m (d + (d - src)) tailSz (scale c tailSz) (fun _ i => tail.getD i 0) with
        | ((m, w), st) => ((m, tot + w), st)
      else ((m, tot), .ok)
    | ((m, _, tot), st) => ((m, tot), st)

/-- `umbra_value_in_shadow_memory_arch` (umbra/umbra_32.c:883-928): the application address stored
through `*app_addr`, if the value was found.  The C function accepts values up to `USHRT_MAX`;
`memchr` compares with the value as a byte. -/
def valueIn (c : Cfg) (m : Map) (a n v : Nat) : Option Nat × Status :=
  if v > 65535 then (none, .notImplemented)
  else if overflows a n then (none, .invalidSize)
  else go (pieces a n)
where
  /-- The loop. -/
  go : List (Nat × Nat) → Option Nat × Status
  | [] => (none, .ok)
  | (start, iter) :: l =>
    let x := appToShadow c m (start / B * B)
    if isDefault c m x then (none, .invalidParameter)
    else match isSpecial c m x with
      | some w => if w = v then (some start, .ok) else go l
      | none =>
        match (List.range (scale c iter)).find? fun i =>
            m.mem (appToShadow c m start + i) = UInt8.ofNat v with
        | some i => (some (start + unscale c i), .ok)
        | none => go l

/-- `umbra_replace_shared_shadow_memory_arch` (umbra/umbra_32.c:1067-1075): the map and
`*shadow_addr`. -/
def replaceShared (c : Cfg) (al : Alloc) (m : Map) (a : Nat) : (Map × Nat) × Status :=
  match replaceBlock c al m a with
  | (m, st) => ((m, appToShadow c m a), st)

/-- `umbra_create_shared_shadow_block_arch` (umbra/umbra_32.c:1077-1087). -/
def createShared (c : Cfg) (al : Alloc) (m : Map) (v : Nat) : Map × Option Nat × Status :=
  match createSpecial c al m v with
  | none => (m, none, .oom)
  | some (m, none) => (m, none, .noMem)
  | some (m, some b) => (m, some b, .ok)

/-- `umbra_get_shared_shadow_block_arch` (umbra/umbra_32.c:1089-1104): the value left in `*block`,
which held `old` before the call. -/
def getShared (m : Map) (v old : Nat) : Nat × Status :=
  match m.specials.find? fun p => p.2 = v with
  | some p => (p.1, .ok)
  | none => (old, .ok)

/-- One round of the loop of `umbra_clear_redundant_blocks` (umbra/umbra_32.c:1113-1162). -/
def clearOne (c : Cfg) (mc : Map × Nat) (i : Nat) : Map × Nat :=
  let x := getBlock c mc.1 i
  if !isNormal c mc.1 x then mc
  else if (List.range (S c)).all fun j => mc.1.mem (x + j) = c.dflt then
    (setBlock c (deleteBlock mc.1 x) i ((lookupSpecial mc.1 c.dflt.toNat).getD 0), mc.2 + 1)
  else mc

/-- `umbra_clear_redundant_blocks` (umbra/umbra_32.c:1113-1162): the map, `*count` and the status. -/
def clearRedundant (c : Cfg) (m : Map) : (Map × Nat) × Status :=
  if !c.onTouch then ((m, 0), .invalidParameter)
  else ((List.range 65536).foldl (clearOne c) (m, 0), .ok)

/-- `umbra_shadow_memory_type_t` as far as returned by the functions below
(umbra/umbra.h `UMBRA_SHADOW_MEMORY_TYPE_*`), the flag says redzone. -/
inductive Type32 where
  | unknown | notAlloc (redzone : Bool) | shared (redzone : Bool) | normal (redzone : Bool) | notShadow
  deriving DecidableEq, Repr

/-- The redzone flag of the two block tests (umbra/umbra_32.c:413-420, 450-461). -/
def inRedzone (c : Cfg) (start x : Nat) : Bool :=
  decide (c.rz ≠ 0) && (decide (x < start) || decide (x ≥ (start + S c) % W))

/-- `umbra_get_shadow_memory_type_arch` (umbra/umbra_32.c:990-1026) with
`umbra_shadow_memory_is_shared_arch` (umbra/umbra_32.c:973-988); `app x` is
`umbra_address_is_app_memory` (umbra/umbra_32.c:1058-1065). -/
def shadowType (c : Cfg) (m : Map) (app : Nat → Bool) (x : Nat) : Type32 :=
  if isDefault c m x then .notAlloc (inRedzone c m.dflt x)
  else match m.specials.find? fun p => inRegion c p.1 x with
    | some p => .shared (inRedzone c p.1 x)
    | none =>
      if app x then .unknown
      else match (List.range 65536).find? fun i => inRegion c (getBlock c m i) x with
        | some i => .normal (decide (x < getBlock c m i) ||
            decide (x ≥ (getBlock c m i + S c) % W))
        | none => .notShadow

/-- The entries passed to the callback of `umbra_iterate_shadow_memory_arch`
(umbra/umbra_32.c:947-971) when it never asks to stop: application base, shadow base, shared or
not. -/
def iterate (c : Cfg) (m : Map) : List (Nat × Nat × Bool) :=
  (List.range 65536).filterMap fun i =>
    let x := appToShadow c m (i * B)
    if isDefault c m x then none else some (i * B, x, (isSpecial c m x).isSome)

end Verif.Umbra32
