/-!
# The replacement allocator (common/alloc_replace.c)

Chunks are named by the address handed to the application (`ptr_from_header`,
common/alloc_replace.c:811-822); the header of chunk `p` occupies the bytes
`[p - rbh - hs, p - rbh)` and is kept in a separate map `hdr`.  `hdr p = none` stands for memory
that is not readable or does not hold the magic number.  A missing header, a broken list or a null
container is the distinct outcome `none` of an operation.

Simplifications: one thread (locks dropped); no external headers, no allocations from before the
tool took over; allocation types, client callbacks and statistics dropped; the doubly linked lists
are lists; a header counts as unmapped together with the first byte of its chunk; the operating
system's answers are given by `Os`.  `size_t` arithmetic does not wrap on 64-bit; `heapsz_t`
arithmetic is modulo 2^32.
-/
namespace Verif.Al

/-- Configuration: `alloc_ops` (common/alloc.h) and the sizes of the two arena headers
(common/alloc_replace.c:967, 1001-1002, rounded up at 1013-1015). -/
structure Cfg where
  x64 : Bool
  rz : Nat
  shared : Bool
  delayFrees : Nat
  delayMax : Nat
  mainHdr : Nat
  subHdr : Nat

/-- `CHUNK_ALIGNMENT` and `CHUNK_MIN_SIZE` (common/alloc_replace.c:116-117). -/
def Cfg.A (c : Cfg) : Nat := if c.x64 then 16 else 8

/-- `header_size` (common/alloc_replace.c:5259-5267): `chunk_header_t` is 32 or 20 bytes,
`free_header_t` 40 or 24. -/
def Cfg.hs (c : Cfg) : Nat :=
  if c.shared then (if c.x64 then 32 else 24) else (if c.x64 then 48 else 24)

/-- `header_beyond_redzone` (common/alloc_replace.c:5283-5293). -/
def Cfg.hbr (c : Cfg) : Nat :=
  if !c.shared then c.hs else if c.rz < c.hs then c.hs - c.rz else 0

/-- `redzone_beyond_header` (common/alloc_replace.c:5283-5293). -/
def Cfg.rbh (c : Cfg) : Nat :=
  if !c.shared then c.rz else if c.rz < c.hs then 0 else (c.rz - c.hs) / 2

/-- `inter_chunk_space` (common/alloc_replace.c:844-849). -/
def Cfg.inter (c : Cfg) : Nat := c.rz + c.hbr + (if c.shared then 0 else c.rz)

/-- `sizeof(mmap_header_t)` (common/alloc_replace.c:227-230). -/
def Cfg.mh (c : Cfg) : Nat := if c.x64 then 16 else 8

/-- `PAGE_SIZE`. -/
def page : Nat := 4096
/-- `CHUNK_MIN_MMAP` (common/alloc_replace.c:118). -/
def minMmap : Nat := 128 * 1024
/-- `ARENA_INITIAL_SIZE` (common/alloc_replace.c:121). -/
def arenaSize : Nat := 4 * 1024 * 1024

/-- `heapsz_t` is a 32-bit unsigned integer (common/alloc_replace.c:127). -/
def u32 (x : Nat) : Nat := x % 2 ^ 32

/-- `size_t` arithmetic. -/
def Cfg.sz (c : Cfg) (x : Nat) : Nat := if c.x64 then x else u32 x

/-- `ALIGN_FORWARD` (common/utils.h:183-184). -/
def alignUp (x a : Nat) : Nat := (x + (a - 1)) / a * a

/-- `free_list_sizes` (common/alloc_replace.c:132-135). -/
def Cfg.sizes (c : Cfg) : List Nat :=
  (if c.x64 then [] else [8]) ++
    [16, 24, 32, 40, 64, 96, 128, 192, 256, 384, 512, 1024, 2048, 4096, 8192, 16384, 32768]

/-- `NUM_FREE_LISTS` (common/alloc_replace.c:136). -/
def Cfg.numLists (c : Cfg) : Nat := c.sizes.length

/-- `chunk_header_t` (common/alloc_replace.c:174-222); `prevSz` is the value
`get_prev_size_field` reads (common/alloc_replace.c:1198-1210). -/
structure Hdr where
  size : Nat
  reqDiff : Nat := 0
  prevSz : Nat := 0
  freed : Bool := false
  delay : Bool := false
  mmap : Bool := false
  prevFree : Bool := false
deriving DecidableEq

/-- `arena_header_t` (common/alloc_replace.c:293-338); `brk`: the arena ends at the program break. -/
structure Arena where
  base : Nat
  start : Nat
  next : Nat
  commit : Nat
  prevFree : Nat := 0
  brk : Bool := false
deriving DecidableEq

/-- A large allocation with its own mapping (common/alloc_replace.c:1714-1753). -/
structure Map where
  base : Nat
  size : Nat
  ptr : Nat
deriving DecidableEq

/-- The allocator state: sub-arenas in list order, the main one first. -/
structure St where
  arenas : List Arena
  hdr : Nat → Option Hdr := fun _ => none
  free : Nat → List Nat := fun _ => []
  delay : List Nat := []
  dChunks : Nat := 0
  dBytes : Nat := 0
  maps : List Map := []
  mem : Nat → UInt8 := fun _ => 0

/-- Answers of the operating system during one call: end of the last arena after growing it in
place, base of a new arena, base of a large mapping, whether the break really shrinks. -/
structure Os where
  ext : Option Nat := none
  arena : Option Nat := none
  map : Option Nat := none
  shrink : Bool := true

/-- Replace one header. -/
def St.put (s : St) (p : Nat) (h : Hdr) : St :=
  { s with hdr := fun q => if q = p then some h else s.hdr q }

/-- Memory that is returned to or fresh from the operating system holds no header. -/
def St.wipe (s : St) (lo hi : Nat) : St :=
  { s with hdr := fun q => if lo ≤ q ∧ q < hi then none else s.hdr q }

/-- `chunk_request_size` (common/alloc_replace.c:766-770). -/
def Hdr.req (h : Hdr) : Nat := h.size - h.reqDiff

/-- The arena test of `ptr_is_in_arena` and `next_chunk_forward`
(common/alloc_replace.c:908, 1152). -/
def Arena.has (a : Arena) (p : Nat) : Bool := a.start ≤ p && p < a.commit

/-- Search the sub-arenas from one on (common/alloc_replace.c:907-910, 1151-1162). -/
def findArena : List Arena → Nat → Nat → Option (Nat × Arena)
  | [], _, _ => none
  | a :: as, n, p => if a.has p then some (n, a) else findArena as (n + 1) p

/-- `is_live_alloc` with `is_valid_chunk` and `ptr_is_in_arena` (common/alloc_replace.c:854-931). -/
def isLive (c : Cfg) (s : St) (p : Nat) : Bool :=
  match s.hdr p with
  | some h => p ≠ 0 && p % c.A = 0 && !h.freed && (h.mmap || (findArena s.arenas 0 p).isSome)
  | none => false

/-- What `next_chunk_forward` finds (common/alloc_replace.c:1142-1164): the next chunk, the end of
the arena with an index, or no arena at all. -/
inductive Nx
  | chunk (q : Nat)
  | last (i : Nat)
  | lost

/-- `next_chunk_forward` (common/alloc_replace.c:1142-1164) from sub-arena `n` on. -/
def nextForward (c : Cfg) (s : St) (n p size : Nat) : Nx :=
  match findArena (s.arenas.drop n) n p with
  | none => .lost
  | some (i, a) => if p + size + c.inter < a.next then .chunk (p + size + c.inter) else .last i

/-- `set_prev_size_field` (common/alloc_replace.c:1167-1196).  Writing the field of a chunk that is
on a free list would break that list. -/
def setPrev (c : Cfg) (n : Nat) (s : St) (p : Nat) : Option St :=
  match s.hdr p with
  | none => none
  | some h =>
    match nextForward c s n p h.size with
    | .lost => none
    | .last i => some { s with arenas := s.arenas.modify i fun a => { a with prevFree := h.size } }
    | .chunk q =>
      match s.hdr q with
      | none => none
      | some x =>
        if x.freed && !x.delay then none
        else some (s.put q { x with
          prevFree := true
          prevSz := if h.size / c.A ≤ 65535 then h.size / c.A * c.A else h.size })

/-- The loop of `bucket_index` (common/alloc_replace.c:1228-1232): the first class from `b` down
whose size does not exceed the given one. -/
def bucketDown (sizes : List Nat) (size : Nat) : Nat → Nat
  | 0 => 0
  | b + 1 => if size < sizes.getD (b + 1) 0 then bucketDown sizes size b else b + 1

/-- `bucket_index` (common/alloc_replace.c:1221-1235). -/
def bucketIndex (c : Cfg) (size : Nat) : Nat :=
  bucketDown c.sizes size (if size > c.sizes.getD 6 0 then c.numLists - 1 else 6)

/-- `remove_from_free_list` (common/alloc_replace.c:1238-1257). -/
def removeFree (c : Cfg) (s : St) (p size : Nat) : Option St :=
  let b := bucketIndex c size
  if p ∈ s.free b then
    some { s with free := fun i => if i = b then (s.free b).erase p else s.free i }
  else none

/-- `add_to_free_list` (common/alloc_replace.c:1259-1277). -/
def addFree (c : Cfg) (s : St) (p : Nat) : Option St :=
  match s.hdr p with
  | none => none
  | some h =>
    let b := bucketIndex c h.size
    some { s with free := fun i => if i = b then s.free b ++ [p] else s.free i }

/-- The sub-arena search of `consider_giving_back_memory` (common/alloc_replace.c:1314-1333):
index of a sub-arena that is one free chunk; the first one is never given back. -/
def wholeArena (c : Cfg) (t size : Nat) : List Arena → Nat → Option (Nat × Arena)
  | [], _ => none
  | a :: as, n =>
    if t = a.start ∧ t + size + c.inter = a.next then some (n, a) else wholeArena c t size as (n + 1)

/-- `consider_giving_back_memory` (common/alloc_replace.c:1279-1336).  The second component is the
remaining free chunk.  A failing `set_brk` returns the old break, which counts as success. -/
def giveBack (c : Cfg) (os : Os) (n : Nat) (s : St) (t : Nat) : Option (St × Option Nat) :=
  match s.hdr t with
  | none => none
  | some h =>
    if h.size < arenaSize / 2 then some (s, some t)
    else
      let tail := match s.arenas.drop n with
        | [] => none
        | a :: as =>
          if a.brk = true ∧ t + h.size + c.inter = a.next then some (.inl a)
          else match wholeArena c t h.size as (n + 1) with
            | some (i, b) => some (.inr (i, b))
            | none => none
      match (tail : Option (Arena ⊕ Nat × Arena)) with
      | none => some (s, some t)
      | some (.inl a) =>
        let brk := if os.shrink then alignUp t page else a.commit
        some ({ s.wipe brk a.commit with
          arenas := s.arenas.modify n fun a => { a with commit := brk, next := t, prevFree := 0 } },
          none)
      | some (.inr (i, b)) =>
        some ({ s.wipe b.base b.commit with arenas := s.arenas.eraseIdx i }, none)

/-- The first half of `coalesce_adjacent_frees` (common/alloc_replace.c:1345-1387). -/
def mergePrev (c : Cfg) (s : St) (p : Nat) : Option (St × Nat) :=
  match s.hdr p with
  | none => none
  | some h =>
    if h.prevFree then
      let q := p - c.inter - h.prevSz
      match s.hdr q with
      | none => none
      | some x =>
        if x.freed ∧ !x.delay ∧ x.size = h.prevSz then
          match removeFree c s q x.size with
          | none => none
          | some s => some (s.put q { x with size := u32 (x.size + h.size + c.inter) }, q)
        else none
    else some (s, p)

/-- The second half of `coalesce_adjacent_frees` (common/alloc_replace.c:1388-1415). -/
def mergeNext (c : Cfg) (n : Nat) (s : St) (p t : Nat) : Option St :=
  match s.hdr t with
  | none => none
  | some h =>
    let other : Option St := if t ≠ p then setPrev c n s t else some s
    match nextForward c s n t h.size with
    | .chunk q =>
      match s.hdr q with
      | none => none
      | some x =>
        if x.freed && !x.delay then
          match removeFree c s q x.size with
          | none => none
          | some s => setPrev c n (s.put t { h with size := u32 (h.size + x.size + c.inter) }) t
        else other
    | _ => other

/-- `coalesce_adjacent_frees` (common/alloc_replace.c:1341-1417). -/
def coalesce (c : Cfg) (os : Os) (n : Nat) (s : St) (p : Nat) : Option (St × Option Nat) :=
  match mergePrev c s p with
  | none => none
  | some (s, t) =>
    match mergeNext c n s p t with
    | none => none
    | some s => giveBack c os n s t

/-- What follows both calls of `coalesce_adjacent_frees` (common/alloc_replace.c:1441-1444,
1540-1548). -/
def coalesceAdd (c : Cfg) (os : Os) (n : Nat) (s : St) (p : Nat) : Option St :=
  match coalesce c os n s p with
  | none => none
  | some (s, none) => some s
  | some (s, some t) =>
    match setPrev c n s t with
    | none => none
    | some s => addFree c s t

/-- `shift_from_delay_list_to_free_list` (common/alloc_replace.c:1419-1453), for a list that is not
empty. -/
def shift (c : Cfg) (os : Os) (n : Nat) (s : St) (p : Nat) (rest : List Nat) : Option St :=
  match s.hdr p with
  | none => none
  | some h =>
    coalesceAdd c os n
      ({ s.put p { h with delay := false } with
          delay := rest, dChunks := s.dChunks - 1, dBytes := s.dBytes - h.size }) p

/-- `arena_delayed_list_full` (common/alloc_replace.c:1135-1140). -/
def full (c : Cfg) (s : St) : Bool := c.delayFrees ≤ s.dChunks || c.delayMax ≤ s.dBytes

/-- The loop of `add_to_delay_list` (common/alloc_replace.c:1474-1480); `k` bounds the rounds. -/
def drain (c : Cfg) (os : Os) (n : Nat) : Nat → St → Option St
  | 0, s => some s
  | k + 1, s =>
    if full c s then
      match s.delay with
      | [] => some s
      | p :: rest => match shift c os n s p rest with
        | none => none
        | some s => drain c os n k s
    else some s

/-- `add_to_delay_list` (common/alloc_replace.c:1455-1481).  Each round takes one chunk off the
list, so its length bounds the loop. -/
def addDelay (c : Cfg) (os : Os) (s : St) (p : Nat) : Option St :=
  match s.hdr p with
  | none => none
  | some h =>
    let s1 : St := { s.put p { h with delay := true } with
      delay := s.delay ++ [p], dChunks := s.dChunks + 1, dBytes := s.dBytes + h.size }
    drain c os 0 s1.delay.length s1

/-- `split_piece_for_free_list` (common/alloc_replace.c:1510-1550). -/
def splitPiece (c : Cfg) (os : Os) (n : Nat) (s : St) (head freeP freeSz newSz : Nat) : Option St :=
  match s.hdr head with
  | none => none
  | some h =>
    let prevSz := match s.hdr freeP with
      | some o => o.prevSz
      | none => 0
    coalesceAdd c os n
      ((s.put head { h with size := u32 newSz }).put freeP
        { h with size := u32 freeSz, reqDiff := 0, prevSz := prevSz, freed := true }) freeP

/-- The first loop of `find_free_list_entry` (common/alloc_replace.c:1566-1569). -/
def firstBucket (sizes : List Nat) (size : Nat) : Nat → Nat → Nat
  | 0, b => b
  | k + 1, b => if size > sizes.getD b 0 then firstBucket sizes size k (b + 1) else b

/-- The second loop of `find_free_list_entry` (common/alloc_replace.c:1583-1586). -/
def nonEmptyBucket (free : Nat → List Nat) : Nat → Nat → Nat
  | 0, b => b
  | k + 1, b => if (free b).isEmpty then nonEmptyBucket free k (b + 1) else b

/-- Choice of the entry in `find_free_list_entry`, with `search_free_list_bucket`
(common/alloc_replace.c:1566-1609, 1483-1506).  A chunk without header on a list counts as too
small. -/
def pick (c : Cfg) (s : St) (size : Nat) : Option Nat :=
  let last := c.numLists - 1
  let b0 := firstBucket c.sizes size last 0
  let b := nonEmptyBucket s.free (last - b0) b0
  if b = last then (s.free b).find? fun p => match s.hdr p with
    | some h => size ≤ h.size
    | none => false
  else (s.free b).head?

/-- The bucket from which `pick` takes (common/alloc_replace.c:1566-1586). -/
def pickBucket (c : Cfg) (s : St) (size : Nat) : Nat :=
  let last := c.numLists - 1
  let b0 := firstBucket c.sizes size last 0
  nonEmptyBucket s.free (last - b0) b0

/-- `find_free_list_entry` (common/alloc_replace.c:1552-1644) from sub-arena `n` on. -/
def findFree (c : Cfg) (os : Os) (n : Nat) (s : St) (size : Nat) : Option (St × Option Nat) :=
  match pick c s size with
  | none => some (s, none)
  | some p =>
    let b := pickBucket c s size
    let s : St := { s with free := fun i => if i = b then (s.free b).erase p else s.free i }
    match s.hdr p with
    | none => none
    | some h =>
      let r := if h.size > size + c.A + c.inter then
          splitPiece c os n s p (p + size + c.inter) (h.size - (size + c.inter)) size
        else some s
      match r with
      | none => none
      | some s =>
        match s.hdr p with
        | none => none
        | some h =>
          let s := s.put p { h with freed := false }
          match nextForward c s n p h.size with
          | .chunk q => match s.hdr q with
            | none => none
            | some x => some (s.put q { x with prevFree := false }, some p)
          | .last i => some ({ s with arenas := s.arenas.modify i fun a => { a with prevFree := 0 } },
              some p)
          | .lost => some (s, some p)

/-- The sub-arena with room for a new chunk (common/alloc_replace.c:1777-1782). -/
def roomFor (add : Nat) : List Arena → Nat → Option Nat
  | [], _ => none
  | a :: as, n => if a.next + add ≤ a.commit then some n else roomFor add as (n + 1)

/-- `arena_init` for a new sub-arena (common/alloc_replace.c:1013-1019, 1069). -/
def Cfg.newArena (c : Cfg) (base : Nat) : Arena :=
  { base := base, start := base + c.subHdr + c.inter, next := base + c.subHdr + c.inter,
    commit := base + arenaSize }

/-- `arena_extend` (common/alloc_replace.c:1083-1133): the state and the index of the arena to use. -/
def extend (c : Cfg) (os : Os) (s : St) : Option (St × Nat) :=
  match os.ext with
  | some e =>
    some ({ s with arenas := s.arenas.modify (s.arenas.length - 1) fun a => { a with commit := e } },
      s.arenas.length - 1)
  | none =>
    match os.arena with
    | some b => some ({ s.wipe b (b + arenaSize) with arenas := s.arenas ++ [c.newArena b] },
        s.arenas.length)
    | none => none

/-- The loop that gives up delayed frees when there is no memory
(common/alloc_replace.c:1792-1799), from sub-arena `n` on. -/
def giveUp (c : Cfg) (os : Os) (n size : Nat) : Nat → St → Option (St × Option Nat)
  | 0, s => some (s, none)
  | k + 1, s =>
    if size ≤ s.dBytes then
      match s.delay with
      | [] => some (s, none)
      | p :: rest => match shift c os n s p rest with
        | none => none
        | some s => match findFree c os n s size with
          | none => none
          | some (s, some p) => some (s, some p)
          | some (s, none) => giveUp c os n size k s
    else some (s, none)

/-- Carving a chunk from the unused end of sub-arena `i` (common/alloc_replace.c:1805-1829). -/
def carve (c : Cfg) (s : St) (i size : Nat) : Option (St × Nat) :=
  match s.arenas[i]? with
  | none => none
  | some a =>
    let s1 : St := { s.put a.next { size := size } with
      arenas := s.arenas.modify i fun a => { a with next := a.next + u32 (size + c.inter) } }
    if a.prevFree ≠ 0 then
      let q := a.next - c.inter - a.prevFree
      match s1.hdr q with
      | none => none
      | some x =>
        if x.freed then
          match setPrev c i s1 q with
          | none => none
          | some s2 => some ({ s2 with
              arenas := s2.arenas.modify i fun a => { a with prevFree := 0 } }, a.next)
        else none
    else some (s1, a.next)

/-- New memory for a chunk (common/alloc_replace.c:1764-1830): the chunk, if any, and the sub-arena
used. -/
def newChunk (c : Cfg) (os : Os) (s : St) (size : Nat) : Option (St × Option (Nat × Nat)) :=
  let fromArena (s : St) (i : Nat) : Option (St × Option (Nat × Nat)) :=
    match carve c s i size with
    | none => none
    | some (s, p) => some (s, some (p, i))
  match roomFor (u32 (size + c.inter)) s.arenas 0 with
  | some i => fromArena s i
  | none =>
    match extend c os s with
    | some (s, i) => fromArena s i
    | none =>
      let n := s.arenas.length - 1
      match giveUp c os n size s.delay.length s with
      | none => none
      | some (s, none) => some (s, none)
      | some (s, some p) => some (s, some (p, n))

/-- The end of `replace_alloc_common` (common/alloc_replace.c:1832-1856): request size, and the
padding in front of an aligned chunk. -/
def finish (c : Cfg) (os : Os) (n : Nat) (s : St) (p req align : Nat) : Option (St × Nat) :=
  match s.hdr p with
  | none => none
  | some h =>
    let h := { h with reqDiff := u32 (h.size + 2 ^ 32 - req) }
    if p % align = 0 then some (s.put p h, p)
    else
      let res := alignUp (p + c.A + c.inter) align
      match splitPiece c os n ((s.put p h).put res h) res p (res - p - c.inter) (h.size - (res - p)) with
      | none => none
      | some s =>
        match s.hdr res with
        | none => none
        | some h => some (s.put res { h with reqDiff := u32 (h.size + 2 ^ 32 - req) }, res)

/-- Fill memory with zeroes. -/
def St.zero (s : St) (p n : Nat) : St :=
  { s with mem := fun a => if p ≤ a ∧ a < p + n then 0 else s.mem a }

/-- `IS_POWER_OF_2` (common/utils.h:197) of a positive number. -/
def isPow2 (x : Nat) : Bool := x &&& (x - 1) = 0

/-- The rounded size of `replace_alloc_common` (common/alloc_replace.c:1696-1706). -/
def alignedSize (c : Cfg) (req align : Nat) : Nat :=
  let a0 := u32 (alignUp req c.A)
  let a1 := if align > c.A then u32 (a0 + align + c.A + c.inter) else a0
  if a1 < c.A then c.A else a1

/-- The size of the mapping for a large request (common/alloc_replace.c:1716-1718). -/
def mapSize (c : Cfg) (size : Nat) : Nat :=
  c.sz (alignUp (c.sz (size + c.mh + c.rz * 2 + c.hbr)) page)

/-- The large part of `replace_alloc_common` (common/alloc_replace.c:1714-1753); 0 is NULL. -/
def allocMap (c : Cfg) (os : Os) (s : St) (req align size : Nat) : St × Nat :=
  match os.map with
  | none => (s, 0)
  | some base =>
    let msz := mapSize c size
    let res := alignUp (base + c.mh + c.rz + c.hbr) align
    if res - c.rbh - c.hs - base > 2 ^ 32 - 1 then (s, 0)
    else
      let sz := u32 (base + msz - c.rz - res)
      ({ (s.wipe base (base + msz)).put res
          { size := sz, mmap := true, prevSz := res - c.rbh - c.hs - base,
            reqDiff := u32 (sz + 2 ^ 32 - req) } with
        maps := { base := base, size := msz, ptr := res } :: s.maps }, res)

/-- `replace_alloc_common` (common/alloc_replace.c:1666-1876); a result of 0 is NULL. -/
def alloc (c : Cfg) (os : Os) (s : St) (req align0 : Nat) (zero : Bool) : Option (St × Nat) :=
  if req ≥ 2 ^ 32 ∨ (c.x64 = false ∧ alignUp req page ≥ 2 ^ 32) then some (s, 0)
  else if align0 ≠ 0 ∧ !isPow2 align0 then some (s, 0)
  else
    let align := if align0 < c.A then c.A else align0
    let size := alignedSize c req align
    let fin (s : St) (p : Nat) : St × Nat := (if zero then s.zero p req else s, p)
    if u32 (size + c.hs) ≥ minMmap then
      let r := allocMap c os s req align size
      if r.2 = 0 then some r else some (fin r.1 r.2)
    else
      match findFree c os 0 s size with
      | none => none
      | some (s, some p) =>
        match finish c os 0 s p req align with
        | none => none
        | some (s, r) => some (fin s r)
      | some (s, none) =>
        match newChunk c os s size with
        | none => none
        | some (s, none) => some (s, 0)
        | some (s, some (p, i)) =>
          match finish c os i s p req align with
          | none => none
          | some (s, r) => some (fin s r)

/-- `unsigned_multiply_will_overflow` (common/utils.c:514-549). -/
def mulOverflows (c : Cfg) (m n : Nat) : Bool :=
  if c.x64 then
    let m0 := m % 2 ^ 32
    let m1 := m / 2 ^ 32 % 2 ^ 32
    let n0 := n % 2 ^ 32
    let n1 := n / 2 ^ 32 % 2 ^ 32
    let middle := (m1 * n0 + m0 * n1) % 2 ^ 64
    (m1 > 0 && n1 > 0) || middle > 2 ^ 32 - 1 || (middle + m0 * n0) % 2 ^ 64 < middle
  else m * n > 2 ^ 32 - 1

/-- `replace_calloc` (common/alloc_replace.c:2620-2643). -/
def calloc (c : Cfg) (os : Os) (s : St) (n size : Nat) : Option (St × Nat) :=
  if mulOverflows c n size then some (s, 0)
  else alloc c os s (if c.x64 then n * size % 2 ^ 64 else n * size % 2 ^ 32) 0 true

/-- `replace_free_common` (common/alloc_replace.c:1936-2086); false: reported as invalid. -/
def free (c : Cfg) (os : Os) (s : St) (p : Nat) : Option (St × Bool) :=
  if isLive c s p then
    match s.hdr p with
    | none => none
    | some h =>
      let s := s.put p { h with freed := true }
      if h.mmap then
        match s.maps.find? (·.ptr = p) with
        | none => none
        | some m => some ({ s.wipe m.base (m.base + m.size) with maps := s.maps.erase m }, true)
      else
        match addDelay c os s p with
        | none => none
        | some s => some (s, true)
  else some (s, false)

/-- Copy between application blocks. -/
def St.copy (s : St) (dst src n : Nat) : St :=
  { s with mem := fun a => if dst ≤ a ∧ a < dst + n then s.mem (src + (a - dst)) else s.mem a }

/-- Flags of `replace_realloc_common` (common/alloc_replace.c:428-446). -/
structure RFlags where
  zero : Bool := false
  allowNull : Bool := true
  allowEmpty : Bool := false
  inPlace : Bool := false

/-- `replace_realloc_common` (common/alloc_replace.c:2097-2204).  The Boolean is false if an invalid
argument was reported.  `size` is below 2^64. -/
def realloc (c : Cfg) (os : Os) (s : St) (p size : Nat) (f : RFlags) : Option (St × Nat × Bool) :=
  if p = 0 then
    if f.allowNull then
      match alloc c os s size 0 f.zero with
      | none => none
      | some (s, r) => some (s, r, true)
    else some (s, 0, true)
  else if size = 0 ∧ f.allowEmpty = false then
    match free c os s p with
    | none => none
    | some (s, ok) => some (s, 0, ok)
  else if isLive c s p then
    match s.hdr p with
    | none => none
    | some h =>
      if size ≤ h.size then
        let s := if h.req < size ∧ f.zero then s.zero (p + h.req) (size - h.req) else s
        some (s.put p { h with reqDiff := h.size - size }, p, true)
      else if f.inPlace = false then
        match alloc c os s size 0 f.zero with
        | none => none
        | some (s, r) =>
          if r = 0 then some (s, 0, true)
          else
            match free c os (s.copy r p (min size h.req)) p with
            | none => none
            | some (s, _) => some (s, r, true)
      else some (s, 0, true)
  else some (s, 0, false)

/-- `replace_size_common` (common/alloc_replace.c:2210-2245). -/
def sizeOf? (c : Cfg) (s : St) (p : Nat) : Option Nat :=
  if isLive c s p then (s.hdr p).map Hdr.req else none

/-- The loop of `alloc_iter_own_arena` (common/alloc_replace.c:2335-2348) with `only_live`. -/
def walk (c : Cfg) (s : St) (stop : Nat) : Nat → Nat → Option (List (Nat × Nat))
  | 0, _ => some []
  | k + 1, cur =>
    if cur < stop then
      match s.hdr cur with
      | none => none
      | some h =>
        match walk c s stop k (cur + h.size + c.inter) with
        | none => none
        | some l => some (if h.freed then l else (cur, h.req) :: l)
    else some []

/-- `alloc_iter_own_arena` for one heap region (common/alloc_replace.c:2303-2351): an arena or a
large mapping. -/
def iterRegion (c : Cfg) (s : St) : Arena ⊕ Map → Option (List (Nat × Nat))
  | .inl a => walk c s a.next (a.next - a.start) a.start
  | .inr m =>
    match s.hdr m.ptr with
    | none => none
    | some h => some (if h.freed then [] else [(m.ptr, h.req)])

/-- `alloc_iterate` (common/alloc_replace.c:2357-2397) over the heap regions in the order in which
`heap_region_iterate` visits them. -/
def iterate (c : Cfg) (s : St) : List (Arena ⊕ Map) → Option (List (Nat × Nat))
  | [] => some []
  | r :: rs =>
    match iterRegion c s r with
    | none => none
    | some l => match iterate c s rs with
      | none => none
      | some l' => some (l ++ l')

/-- Where a heap region starts. -/
def regionLo : Arena ⊕ Map → Nat
  | .inl a => a.base
  | .inr m => m.base

/-- The heap regions in the order of the interval tree (common/heap.c:1024-1035,
common/redblack.c:663-686). -/
def heapRegions (s : St) : List (Arena ⊕ Map) :=
  (s.arenas.map Sum.inl ++ s.maps.map Sum.inr).mergeSort fun x y => regionLo x ≤ regionLo y

/-- `alloc_iterate` (common/alloc_replace.c:2357-2397) over the whole heap. -/
def iterateAll (c : Cfg) (s : St) : Option (List (Nat × Nat)) := iterate c s (heapRegions s)

/-- The state after `arena_init` (common/alloc_replace.c:964-1028) for the main arena, which may end
at the program break. -/
def Cfg.init (c : Cfg) (base commit : Nat) (brk : Bool) : St :=
  { arenas := [{ base := base, start := base + c.mainHdr + c.inter, next := base + c.mainHdr + c.inter,
                 commit := commit, brk := brk }] }

/-- A call by the application; `os` are the answers of the system meanwhile. -/
inductive Op
  | alloc (os : Os) (req align : Nat) (zero : Bool)
  | free (os : Os) (p : Nat)
  | realloc (os : Os) (p size : Nat) (f : RFlags)
  | store (a : Nat) (v : UInt8)

/-- A store by the application to one byte of its own block.  It destroys a stale header there. -/
def store (c : Cfg) (s : St) (a : Nat) (v : UInt8) : St :=
  { s with
      mem := fun x => if x = a then v else s.mem x
      hdr := fun p => if p - c.rbh - c.hs ≤ a ∧ a + c.rbh < p then none else s.hdr p }

/-- One call: the new state, the returned address (0 for none), and false if an invalid argument was
reported. -/
def step (c : Cfg) (s : St) : Op → Option (St × Nat × Bool)
  | .alloc os req align zero => match alloc c os s req align zero with
    | none => none
    | some (s, r) => some (s, r, true)
  | .free os p => match free c os s p with
    | none => none
    | some (s, ok) => some (s, 0, ok)
  | .realloc os p size f => realloc c os s p size f
  | .store a v => some (store c s a v, 0, true)

end Verif.Al
