import Mathlib.Data.List.Basic

/-!
# C69: the staleness data of Dr. Heapstat

With `-staleness` Dr. Heapstat says for every live block of the heap when it was last used.  Every
reference to memory sets a shadow byte, one per 8 bytes of the application; a sweep, run from a
timer, stamps the blocks with a shadow byte set and clears their bytes; a snapshot stores one
compressed record per live block (/repo/drheapstat/staleness.c:43-180, 263-281, 380-607,
/repo/drheapstat/staleness.h:56-135, /repo/drheapstat/drheapstat.c:528-600, 815-856, 926-950, 1478-1486).

Simplifications.  The shadow memory is a function from granules of 8 bytes to whether the byte is 1:
`umbra_value_in_shadow_memory` and `umbra_shadow_set_range` (umbra/umbra_64.c:1086-1125, 1204-1274)
cut the range at blocks of 64K, whose sizes are multiples of 8, so for a start that is a multiple
of 8 they see `size >> 3` granules in all.  The counter of time `stamp` is a number without a bound.
Which references take the fast path, and when a snapshot is due, are inputs.  References the tool
ignores (`-stale_ignore_sp`) are no events.  The races with the thread that sweeps are left out.
-/

namespace Verif.Stale

/-! ## Events -/

/-- How a reference reaches the shadow memory: the inlined code, the slow path or a system call, or
a mere check of addressability. -/
inductive Kind where
  | fast | slow | check
  deriving DecidableEq, Repr

/-- What happens: a region is added to the heap; a block is allocated, freed, or resized where it
is (`peak`, `due`: a snapshot is taken before, after); memory is referenced; the timer sweeps; time
passes; the timer takes a snapshot; a Windows heap is destroyed with the blocks in it (with a
snapshot after a block or not). -/
inductive Ev where
  | heapAdd (start len : Nat)
  | malloc (base size cs : Nat) (due : Bool)
  | free (base : Nat) (peak due : Bool)
  | resize (base size : Nat) (peak due : Bool)
  | ref (addr sz : Nat) (k : Kind)
  | sweep
  | tick (d : Nat)
  | take
  | destroy (bs : List (Nat × Bool))
  deriving DecidableEq, Repr

/-! ## The model -/

/-- How a run can go wrong: a write beyond an array, entries of a snapshot never written, a block
of memory given back with another size than it was asked with. -/
inductive Fail where
  | overflow | mismatch | badFree
  deriving DecidableEq, Repr

/-- A live block: the fields of `malloc_info_t` used here and `stale_per_alloc_t`
(staleness.h:56-61). -/
structure Blk where
  base : Nat
  size : Nat
  cs : Nat
  last : Nat
  deriving DecidableEq, Repr

/-- `STALE_SMALL_MAX_STAMP`, `STALE_SMALL_MAX_ID`, `STALE_SMALL_MAX_SZ` (staleness.h:77-79). -/
def maxStamp : Nat := 4294967295 / 2
def maxId : Nat := 2 ^ 19 - 1
def maxSz : Nat := 2 ^ 13 - 1

/-- `stale_snap_alloc_small_t` (staleness.h:82-102): one bit, 31 bits, and a word that is either two
bit fields of 19 and 13 bits, the first in the low bits, or an index. -/
structure Small where
  usesExt : Bool
  last : Nat
  u : Nat
  deriving DecidableEq, Repr

/-- `stale_snap_alloc_ext_t` (staleness.h:105-108). -/
structure Ext where
  id : Nat
  bytes : Nat
  deriving DecidableEq, Repr

/-- `stale_snap_alloc_large_t` (staleness.h:113-117). -/
structure Large where
  id : Nat
  bytes : Nat
  last : Nat
  deriving DecidableEq, Repr

/-- `stale_snap_allocs_t` (staleness.h:120-135).  The arrays hold what has been written so far, so
`idx` is the length of `main` or `lg` and `ext_entries` the length of `ext`; `held` are the sizes of
the blocks of memory in use for it. -/
structure Snap where
  usesLarge : Bool
  num : Nat
  main : List Small
  ext : List Ext
  extCap : Nat
  lg : List Large
  held : List Nat
  deriving DecidableEq, Repr

/-- `global_free` of a block of memory of the given size. -/
def release (n : Nat) (l : List Nat) : Except Fail (List Nat) :=
  if n ∈ l then .ok (l.erase n) else .error .badFree

/-- `sizeof` of `stale_snap_allocs_t` (on 64-bit), and of the entries of the arrays. -/
def snapSz : Nat := 40
def smallSz : Nat := 8
def extSz : Nat := 8
def largeSz : Nat := 16

/-- Making room in the extension array (staleness.c:517-533): the capacity is a `uint`. -/
def growExt (s : Snap) : Except Fail Snap :=
  if s.ext.length ≥ s.extCap then
    let cap := (if s.extCap = 0 then 512 else s.extCap * 2) % 2 ^ 32
    if s.extCap = 0 then
      .ok { s with extCap := cap, held := (cap * extSz) :: s.held }
    else
      match release (s.extCap * extSz) ((cap * extSz) :: s.held) with
      | .error e => .error e
      | .ok h => .ok { s with extCap := cap, held := h }
  else .ok s

/-- `alloc_itercb_snapshot` (staleness.c:484-541).  The assignment to a `uint` and to a bit field
keeps the low bits. -/
def addBlk (s : Snap) (b : Blk) : Except Fail Snap :=
  let id := b.cs % 2 ^ 32
  let bytes := b.size % 2 ^ 32
  if s.usesLarge then
    if s.num ≤ s.lg.length then .error .overflow
    else .ok { s with lg := s.lg ++ [⟨id, bytes, b.last % 2 ^ 64⟩] }
  else if s.num ≤ s.main.length then .error .overflow
  else if id ≤ maxId ∧ bytes ≤ maxSz then
    .ok { s with main := s.main ++ [⟨false, b.last % 2 ^ 31, id % 2 ^ 19 + bytes % 2 ^ 13 * 2 ^ 19⟩] }
  else
    match growExt s with
    | .error e => .error e
    | .ok s' =>
      if s'.extCap ≤ s'.ext.length then .error .overflow
      else .ok { s' with
        main := s'.main ++ [⟨true, b.last % 2 ^ 31, s'.ext.length % 2 ^ 32⟩]
        ext := s'.ext ++ [⟨id, bytes⟩] }

/-- The walk over the live blocks (`malloc_iterate`). -/
def addAll (s : Snap) : List Blk → Except Fail Snap
  | [] => .ok s
  | b :: l =>
    match addBlk s b with
    | .error e => .error e
    | .ok s' => addAll s' l

/-- The empty snapshot (staleness.c:546-573). -/
def emptySnap (n cur : Nat) : Snap :=
  let large := decide (maxStamp < cur)
  { usesLarge := large, num := n, main := [], ext := [], extCap := 0, lg := []
    held := if n = 0 then [snapSz] else [n * (if large then largeSz else smallSz), snapSz] }

/-- `staleness_take_snapshot` (staleness.c:544-584) with `num_live_mallocs` and the blocks of the
table. -/
def takeSnapshot (n cur : Nat) (blks : List Blk) : Except Fail Snap :=
  match (if n = 0 then .ok (emptySnap n cur) else addAll (emptySnap n cur) blks) with
  | .error e => .error e
  | .ok s => if s.main.length + s.lg.length = n then .ok s else .error .mismatch

/-- `staleness_free_snapshot` (staleness.c:587-607). -/
def freeSnapshot (s : Snap) : Except Fail (List Nat) :=
  let rest (h : List Nat) := release snapSz h
  if s.num > 0 then
    if s.usesLarge then
      match release (s.num * largeSz) s.held with
      | .error e => .error e
      | .ok h => rest h
    else
      match release (s.num * smallSz) s.held with
      | .error e => .error e
      | .ok h =>
        if s.extCap ≠ 0 then
          match release (s.extCap * extSz) h with
          | .error e => .error e
          | .ok h' => rest h'
        else rest h
  else rest s.held

/-- `staleness_get_snap_cstack_id` (staleness.c:449-459). -/
def getId (s : Snap) (i : Nat) : Option Nat :=
  if s.usesLarge then (s.lg[i]?).map (·.id)
  else match s.main[i]? with
    | none => none
    | some m => if m.usesExt then (s.ext[m.u]?).map (·.id) else some (m.u % 2 ^ 19)

/-- `staleness_get_snap_bytes` (staleness.c:461-471). -/
def getBytes (s : Snap) (i : Nat) : Option Nat :=
  if s.usesLarge then (s.lg[i]?).map (·.bytes)
  else match s.main[i]? with
    | none => none
    | some m => if m.usesExt then (s.ext[m.u]?).map (·.bytes) else some (m.u / 2 ^ 19)

/-- `staleness_get_snap_last_access` (staleness.c:473-481). -/
def getLast (s : Snap) (i : Nat) : Option Nat :=
  if s.usesLarge then (s.lg[i]?).map (·.last) else (s.main[i]?).map (·.last)

/-- The state: the shadow memory, the table of blocks, `num_live_mallocs`, `stamp` and the snapshots
taken, the last one first. -/
structure St where
  marks : Nat → Bool
  blks : List Blk
  n : Nat
  stamp : Nat
  snaps : List Snap

/-- The start: the shadow value by default is 1 (staleness.c:56). -/
def St.init : St := ⟨fun _ => true, [], 0, 0, []⟩

/-- `shadow_val_in_range(base, base + size, 1)` (staleness.c:184-196). -/
def valIn (m : Nat → Bool) (base size : Nat) : Bool :=
  (List.range (size / 8)).any fun i => m (base / 8 + i)

/-- `shadow_set_range(base, base + size, v)` (staleness.c:128-142). -/
def setRange (m : Nat → Bool) (base size : Nat) (v : Bool) : Nat → Bool :=
  fun g => if base / 8 ≤ g ∧ g < base / 8 + size / 8 then v else m g

/-- The loop of `handle_mem_ref` (staleness.c:274-279) over `k` granules from granule `g`. -/
def markLoop (m : Nat → Bool) (g : Nat) : Nat → (Nat → Bool)
  | 0 => m
  | k + 1 => markLoop (fun x => if x = g then true else m x) (g + 1) k

/-- A reference: the inlined code sets the byte of the first byte referenced (staleness.c:332-343,
"any one memory reference will only access one heap allocation"); `handle_mem_ref`
(staleness.c:263-281) those from the address rounded down to the end rounded up. -/
def refMem (m : Nat → Bool) (addr sz : Nat) : Kind → (Nat → Bool)
  | .fast => fun x => if x = addr / 8 then true else m x
  | .slow => markLoop m (addr / 8) ((addr + sz + 7) / 8 - addr / 8)
  | .check => m

/-- `alloc_itercb_sweep` (staleness.c:416-430). -/
def sweepOne (stamp : Nat) (m : Nat → Bool) (b : Blk) : (Nat → Bool) × Blk :=
  if valIn m b.base b.size then (setRange m b.base b.size false, { b with last := stamp }) else (m, b)

/-- `staleness_sweep` (staleness.c:432-446). -/
def sweepAll (stamp : Nat) (m : Nat → Bool) : List Blk → (Nat → Bool) × List Blk
  | [] => (m, [])
  | b :: l =>
    let r := sweepOne stamp m b
    let r' := sweepAll stamp r.1 l
    (r'.1, r.2 :: r'.2)

/-- A snapshot, when one is due. -/
def snapIf (due : Bool) (s : St) : Except Fail St :=
  if due then
    match takeSnapshot s.n s.stamp s.blks with
    | .error e => .error e
    | .ok sn => .ok { s with snaps := sn :: s.snaps }
  else .ok s

/-- `destroy_arena_family` (common/alloc_replace.c:2251-2283): the client is told of every block, and
may take a snapshot, while all the blocks are still in the table. -/
def destroyLoop (s : St) : List (Nat × Bool) → Except Fail St
  | [] => .ok s
  | (_, due) :: l =>
    match snapIf due { s with n := s.n - 1 } with
    | .error e => .error e
    | .ok s' => destroyLoop s' l

/-- One event.  A block is in the table when its snapshot is taken after an allocation
(common/alloc_replace.c:771-784) and before a free, and no longer after (2037-2053); a resize in
place only changes the size in the header (2148-2163, drheapstat.c:926-945). -/
def step (s : St) : Ev → Except Fail St
  | .heapAdd start len => .ok { s with marks := setRange s.marks start len false }
  | .malloc base size cs due =>
    snapIf due { s with blks := ⟨base, size, cs, s.stamp⟩ :: s.blks, n := s.n + 1 }
  | .free base peak due =>
    match snapIf peak s with
    | .error e => .error e
    | .ok s' => snapIf due { s' with n := s'.n - 1, blks := s'.blks.filter (·.base != base) }
  | .resize base size peak due =>
    match snapIf peak { s with blks := s.blks.map fun b => if b.base = base then { b with size := size } else b } with
    | .error e => .error e
    | .ok s' => snapIf due s'
  | .ref addr sz k => .ok { s with marks := refMem s.marks addr sz k }
  | .sweep =>
    .ok { s with marks := (sweepAll s.stamp s.marks s.blks).1, blks := (sweepAll s.stamp s.marks s.blks).2 }
  | .tick d => .ok { s with stamp := s.stamp + d }
  | .take => snapIf true s
  | .destroy bs =>
    match destroyLoop s bs with
    | .error e => .error e
    | .ok s' => .ok { s' with blks := s'.blks.filter fun b => !(bs.map (·.1)).contains b.base }

/-- A run. -/
def run (s : St) : List Ev → Except Fail St
  | [] => .ok s
  | e :: l =>
    match step s e with
    | .error x => .error x
    | .ok s' => run s' l

/-! ## The specification -/

/-- Two ranges of bytes have a byte in common. -/
def meets (a n b m : Nat) : Bool := decide (max a b < min (a + n) (b + m))

/-- What a user wants to know of a block: whether it has been used since the last sweep, and the
time of the sweep after its last use. -/
structure SBlk where
  base : Nat
  size : Nat
  cs : Nat
  last : Nat
  used : Bool
  deriving DecidableEq, Repr

/-- One block, of which `len` bytes count. -/
def blkStep (len : Nat) (stamp : Nat) (b : SBlk) : Ev → SBlk
  | .ref addr sz k => if k ≠ .check ∧ meets addr sz b.base len then { b with used := true } else b
  | .sweep => if b.used then { b with last := stamp, used := false } else b
  | _ => b

/-- The time after an event. -/
def stampStep (t : Nat) : Ev → Nat
  | .tick d => t + d
  | _ => t

/-- One block through a run. -/
def blkRun (len : Nat) (t : Nat) (b : SBlk) : List Ev → SBlk
  | [] => b
  | e :: l => blkRun len (stampStep t e) (blkStep len t b e) l

/-- The live blocks after one more event: a block is not used when it is new. -/
def heapStep (t : Nat) (l : List SBlk) : Ev → List SBlk
  | .malloc base size cs _ => ⟨base, size, cs, t, false⟩ :: l
  | .free base _ _ => l.filter (·.base != base)
  | .resize base size _ _ => l.map fun b => if b.base = base then { b with size := size } else b
  | .destroy bs => l.filter fun b => !(bs.map (·.1)).contains b.base
  | e => l.map fun b => blkStep b.size t b e

/-- The live blocks after a run. -/
def heapRun (t : Nat) (l : List SBlk) : List Ev → List SBlk
  | [] => l
  | e :: es => heapRun (stampStep t e) (heapStep t l e) es

/-- The ranges of the live blocks. -/
abbrev Live := List (Nat × Nat)

def liveStep (l : Live) : Ev → Live
  | .malloc base size _ _ => (base, size) :: l
  | .free base _ _ => l.filter (·.1 != base)
  | .resize base size _ _ => l.map fun x => if x.1 = base then (base, size) else x
  | .destroy bs => l.filter fun x => !(bs.map (·.1)).contains x.1
  | _ => l

/-- A range apart from a block. -/
def Apart (a n : Nat) (x : Nat × Nat) : Prop := a + n ≤ x.1 ∨ x.1 + x.2 ≤ a

/-- What the allocator and the application do: blocks start at multiples of 8 and are apart from
each other; only live blocks are freed or resized; regions added to the heap hold no block yet; a
reference has a byte, and one that takes the fast path and meets a block starts in it. -/
def Ok1 (l : Live) : Ev → Prop
  | .malloc base size _ _ => base % 8 = 0 ∧ ∀ x ∈ l, x.1 ≠ base ∧ Apart base size x
  | .free base _ _ => ∃ x ∈ l, x.1 = base
  | .resize base size _ _ => (∃ x ∈ l, x.1 = base) ∧ ∀ x ∈ l, x.1 ≠ base → Apart base size x
  | .heapAdd start len => start % 8 = 0 ∧ len % 8 = 0 ∧ ∀ x ∈ l, Apart start len x
  | .ref addr sz k =>
    0 < sz ∧ (k = .fast → ∀ x ∈ l, meets addr sz x.1 x.2 = true → x.1 ≤ addr)
  | .destroy _ => False
  | _ => True

def OkRun (l : Live) : List Ev → Prop
  | [] => True
  | e :: es => Ok1 l e ∧ OkRun (liveStep l e) es

/-- The bytes were added to the heap, and not referenced since (the past, the last event first). -/
def Untouched (base size : Nat) : List Ev → Prop
  | [] => False
  | .heapAdd start len :: past =>
    (start ≤ base ∧ base + size ≤ start + len) ∨ Untouched base size past
  | .ref addr sz k :: past => (k ≠ .check → meets addr sz base size = false) ∧ Untouched base size past
  | _ :: past => Untouched base size past

/-- The application gets fresh memory: every block lies in a region added to the heap and not
referenced since, its size is a multiple of 8, and it keeps its size. -/
def Fresh (past : List Ev) : List Ev → Prop
  | [] => True
  | .malloc base size cs due :: es =>
    (size % 8 = 0 ∧ Untouched base size past) ∧ Fresh (.malloc base size cs due :: past) es
  | .resize _ _ _ _ :: _ => False
  | e :: es => Fresh (e :: past) es

end Verif.Stale
