import Mathlib.Data.Fintype.Card

/-!
# C68: the snapshots of Dr. Heapstat

Dr. Heapstat follows every allocation of the application and keeps a fixed number of snapshots of
the heap, spread evenly over the run, and one more for the peak
(/repo/drheapstat/drheapstat.c:177-211, 233-289, 394-716, 733-950).

Simplifications.  The modes `-dump` (write every snapshot at once) and `-staleness`, the reset after
a fork, and the locks are left out; the 64-bit counters are numbers without a bound.  The arrival of
a signal of the clock, or of the counter of instructions, is an event.  The pointer `per->used` of a
call stack is the node of that call stack in the list of the snapshot in progress, which is how
`copy_snapshot` (drheapstat.c:467-513) and `account_for_bytes_pre` maintain it.
-/

namespace Verif.HeapStat

/-! ## The specification: the heap of the application -/

/-- A heap block: the call stack that asked for it, the size asked for, and the size the allocator
gave, which includes the size asked for ("request_size plus padding", common/alloc.h:133). -/
structure Blk where
  cs : Nat
  req : Nat
  pad : Nat
  deriving DecidableEq, Repr

/-- What happens: the application allocates, frees, or resizes a block that stays where it is; a
snapshot is due; the user asks for the snapshots (`d` is the time since the last one). -/
inductive Ev where
  | malloc (b : Blk)
  | free (b : Blk)
  | resize (b b' : Blk)
  | tick
  | dump (d : Nat)
  deriving DecidableEq, Repr

/-- The live blocks after one more event. -/
def liveStep (l : List Blk) : Ev → List Blk
  | .malloc b => b :: l
  | .free b => l.erase b
  | .resize b b' => b' :: l.erase b
  | .tick => l
  | .dump _ => l

/-- The live blocks after the events. -/
def live (evs : List Ev) : List Blk := evs.foldl liveStep []

/-- Sum over blocks. -/
def total (f : Blk → Nat) (l : List Blk) : Nat := (l.map f).sum

/-! ## The model -/

/-- How the run can go wrong: `% 0` (SIGFPE), use of a NULL pointer, a signed overflow, a value that
does not fit into an `int`, a loop without end. -/
inductive Fail where
  | divZero | null | overflow | beyond | hang
  deriving DecidableEq, Repr

/-- Unit of time (drheapstat.c:170-211): the clock or the instructions, allocations, bytes. -/
inductive Mode where
  | clock | allocs | bytes
  deriving DecidableEq, Repr

/-- Options: number of snapshots, `-peak_threshold`, `HEADER_SIZE`, the unit of time
(optionsx.h, drheapstat.c:119-124). -/
structure Cfg where
  n : Nat
  thr : Nat
  hdr : Nat
  mode : Mode
  deriving DecidableEq, Repr

/-- `heap_used_t` (drheapstat.c:247-256). -/
structure Ent where
  cs : Nat
  inst : Int
  asked : Int
  extraU : Int
  extraO : Int
  deriving DecidableEq, Repr

/-- `per_snapshot_t` (drheapstat.c:258-269). -/
structure Snap where
  stamp : Nat := 0
  mallocs : Int := 0
  asked : Int := 0
  usable : Int := 0
  occupied : Int := 0
  used : List Ent := []
  deriving DecidableEq, Repr

/-- The variables (drheapstat.c:77-79, 240-241, 271-279). -/
structure State where
  snaps : Nat → Snap
  idx : Nat
  fills : Nat
  freq : Nat
  stamp : Nat
  peak : Snap
  afCur : Nat
  afLast : Nat
  cnt : Int

/-- `reset_intervals` and `snapshot_init` (drheapstat.c:177-211, 858-866): `f0` is the first
`dump_freq`: 1, 1000 for instructions, 8 for bytes. -/
def init (f0 : Nat) : State :=
  { snaps := fun _ => {}, idx := 0, fills := 0, freq := f0, stamp := 0, peak := {},
    afCur := 0, afLast := 0, cnt := f0 }

/-- Conversion of a 64-bit size to `int` (the arguments at drheapstat.c:812, 830, 845-846). -/
def int32 (x : Int) : Int := (x + 2147483648) % 4294967296 - 2147483648

/-- Does the value fit into an `int`? -/
def fitsInt (x : Int) : Prop := -2147483648 ≤ x ∧ x < 2147483648

instance (x : Int) : Decidable (fitsInt x) := by unfold fitsInt; infer_instance

/-- `difference_exceeds_percent` (drheapstat.c:517-523). -/
def exceeds (new old percent : Int) : Bool :=
  decide (100 * (if new > old then new - old else old - new) > percent * old)

/-- The second condition of `check_for_peak` (drheapstat.c:544-545): the percentage handed over is
the size of the peak, cut to a `uint`. -/
def peakPercent (s : State) : Int := s.peak.occupied % 4294967296

/-- Is a new peak taken? (drheapstat.c:532-549) -/
def newPeak (c : Cfg) (s : State) : Bool :=
  decide ((s.snaps s.idx).occupied > s.peak.occupied) &&
    (exceeds (s.snaps s.idx).occupied s.peak.occupied c.thr ||
     exceeds s.afCur s.afLast (peakPercent s) ||
     exceeds (s.snaps s.idx).stamp s.peak.stamp c.thr)

/-- `check_for_peak` (drheapstat.c:529-563). -/
def checkPeak (c : Cfg) (s : State) : State :=
  if newPeak c s then { s with peak := s.snaps s.idx, afLast := s.afCur } else s

/-- Write one element of the array. -/
def setSnap (f : Nat → Snap) (i : Nat) (x : Snap) : Nat → Snap :=
  fun j => if j = i then x else f j

/-- One step of the index, with the frequency doubled at the end of the array
(drheapstat.c:599-608). -/
def advance (n : Nat) (p : Nat × Nat × Nat) : Nat × Nat × Nat :=
  if p.1 + 1 ≥ n then (0, p.2.1 + 1, p.2.2 * 2 % 4294967296) else (p.1 + 1, p.2.1, p.2.2)

/-- The loop that looks for the next snapshot to overwrite (drheapstat.c:599-610).  The triple is
`snap_idx`, `snap_fills`, `dump_freq`. -/
def seek (n : Nat) (σ : Nat → Nat) : Nat → Nat × Nat × Nat → Except Fail (Nat × Nat × Nat)
  | 0, _ => .error .hang
  | k + 1, p =>
    let q := advance n p
    if σ q.1 > 0 then
      if q.2.2 = 0 then .error .divZero
      else if σ q.1 % q.2.2 = 0 then seek n σ k q
      else .ok q
    else .ok q

/-- Enough rounds: after 32 of them the frequency is 0. -/
def rounds (n : Nat) : Nat := 34 * (n + 1)

/-- The first half of `take_snapshot` (drheapstat.c:588-595). -/
def stampIt (c : Cfg) (s : State) : State :=
  checkPeak c { s with
    stamp := s.stamp + s.freq
    snaps := setSnap s.snaps s.idx { s.snaps s.idx with stamp := s.stamp + s.freq } }

/-- The second half: go on with a copy (drheapstat.c:599-614). -/
def goOn (s : State) (q : Nat × Nat × Nat) : State :=
  { s with
    snaps := setSnap s.snaps q.1 (s.snaps s.idx)
    idx := q.1
    fills := q.2.1
    freq := q.2.2 }

/-- `take_snapshot` (drheapstat.c:566-616). -/
def take (c : Cfg) (s : State) : Except Fail State :=
  match seek c.n (fun i => ((stampIt c s).snaps i).stamp) (rounds c.n)
      (s.idx, s.fills, s.freq) with
  | .error e => .error e
  | .ok q => .ok (goOn (stampIt c s) q)

/-- Add to the counters of a node: `uint`, `uint`, `ushort`, `ushort` (drheapstat.c:649-662). -/
def addEnt (di a u o : Int) (e : Ent) : Ent :=
  { e with
    inst := (e.inst + di) % 4294967296
    asked := (e.asked + a) % 4294967296
    extraU := (e.extraU + u) % 65536
    extraO := (e.extraO + o) % 65536 }

/-- Has the call stack a node? (`per->used != NULL`) -/
def hasEnt (cs : Nat) (l : List Ent) : Bool := l.any (fun e => e.cs == cs)

/-- Change the node of a call stack and take it out when nothing is left (drheapstat.c:659-680). -/
def modEnt (cs : Nat) (f : Ent → Ent) (l : List Ent) : List Ent :=
  (l.map (fun e => if e.cs = cs then f e else e)).filter
    (fun e => !(e.cs == cs && decide (e.inst = 0)))

/-- A new node is put in front of the list (drheapstat.c:630-644). -/
def newEnt (cs : Nat) (l : List Ent) : List Ent :=
  if hasEnt cs l then l else { cs := cs, inst := 0, asked := 0, extraU := 0, extraO := 0 } :: l

/-- The counters of the whole snapshot (drheapstat.c:683-685). -/
def bump (s : Snap) (dm a u o : Int) (l : List Ent) : Snap :=
  { s with
    mallocs := s.mallocs + dm
    asked := s.asked + a
    usable := s.usable + (a + u)
    occupied := s.occupied + (a + u + o)
    used := l }

/-- `account_for_bytes_pre` (drheapstat.c:621-681) on the snapshot in progress. -/
def pre (cs : Nat) (a u o : Int) (realloc : Bool) (s : Snap) : Except Fail Snap :=
  if ¬ fitsInt (a + u) ∨ ¬ fitsInt (a + u + o) then .error .overflow
  else if a + u > 0 then
    .ok (bump s 1 a u o
      (modEnt cs (addEnt (if realloc then 0 else 1) a u o) (newEnt cs s.used)))
  else if hasEnt cs s.used then
    .ok (bump s (-1) a u o (modEnt cs (addEnt (if realloc then 0 else -1) a u o) s.used))
  else .error .null

/-- `pre` inside the state. -/
def preState (cs : Nat) (a u o : Int) (realloc : Bool) (s : State) : Except Fail State :=
  match pre cs a u o realloc (s.snaps s.idx) with
  | .error e => .error e
  | .ok x => .ok { s with snaps := setSnap s.snaps s.idx x }

/-- Start the backward counter again: `int = uint` (drheapstat.c:702, 712). -/
def restart (s : State) : Except Fail State :=
  if s.freq < 2147483648 then .ok { s with cnt := s.freq } else .error .beyond

/-- The loop of `-time_bytes` (drheapstat.c:698-701). -/
def bytesLoop (c : Cfg) : Nat → Int → State → Except Fail State
  | 0, _, _ => .error .hang
  | k + 1, diff, s =>
    if diff > s.cnt then
      match take c s with
      | .error e => .error e
      | .ok s' => bytesLoop c k (diff - s'.freq) s'
    else .ok s

/-- The part of `account_for_bytes_post` for `-time_bytes` (drheapstat.c:691-705). -/
def postBytes (c : Cfg) (diff : Int) (s : State) : Except Fail State :=
  if diff > s.cnt then
    match bytesLoop c (diff.toNat + 1) diff s with
    | .error e => .error e
    | .ok s' => restart s'
  else .ok { s with cnt := s.cnt - diff }

/-- The part for `-time_allocs` (drheapstat.c:706-714). -/
def postAllocs (c : Cfg) (s : State) : Except Fail State :=
  if s.cnt - 1 ≤ 0 then
    match take c { s with cnt := s.cnt - 1 } with
    | .error e => .error e
    | .ok s' => restart s'
  else .ok { s with cnt := s.cnt - 1 }

/-- `account_for_bytes_post` (drheapstat.c:688-716); `diff` is the sum of the arguments. -/
def post (c : Cfg) (diff : Int) (s : State) : Except Fail State :=
  match (match c.mode with
    | .bytes => postBytes c (if diff < 0 then -diff else diff) s
    | .allocs => postAllocs c s
    | .clock => .ok s) with
  | .error e => .error e
  | .ok s' => .ok { s' with afCur := s'.afCur + 1 }

/-- Before and after the change of the table of allocations. -/
def account (c : Cfg) (cs : Nat) (a u o : Int) (realloc : Bool) (diff : Int) (s : State) :
    Except Fail State :=
  match preState cs a u o realloc s with
  | .error e => .error e
  | .ok s' => post c diff s'

/-- `stamp` of the snapshot in progress when all are written (drheapstat.c:879-887). -/
def elapsed (c : Cfg) (s : State) (d : Nat) : Nat :=
  match c.mode with
  | .clock => d
  | _ => ((s.freq : Int) - s.cnt).toNat

/-- The changes `snapshot_dump_all` makes (drheapstat.c:875-889). -/
def dumpState (c : Cfg) (d : Nat) (s : State) : State :=
  checkPeak c { s with
    snaps := setSnap s.snaps s.idx { s.snaps s.idx with stamp := s.stamp + elapsed c s d } }

/-- One event: `client_add_malloc_pre/post` (drheapstat.c:733-831), `client_remove_malloc_pre/post`
(834-856), `client_handle_realloc` (926-945), a due snapshot (1154-1165, 1690-1698), the nudge
(1966-2016). -/
def step (c : Cfg) (s : State) : Ev → Except Fail State
  | .malloc b =>
    account c b.cs (int32 b.req) (int32 b.pad) c.hdr false
      (int32 b.req + int32 b.pad + c.hdr) s
  | .free b =>
    account c b.cs (int32 (-(b.req : Int))) (int32 (-(b.pad : Int))) (-(c.hdr : Int)) false
      (int32 b.req + int32 b.pad + c.hdr) (checkPeak c s)
  | .resize b b' =>
    account c b'.cs (int32 ((b'.req : Int) - b.req)) (int32 ((b'.pad : Int) - b.pad)) 0 true
      (int32 ((b'.req : Int) - b.req) + int32 ((b'.pad : Int) - b.pad))
      (if b'.req < b.req then checkPeak c s else s)
  | .tick => take c s
  | .dump d => .ok (dumpState c d s)

/-- A run. -/
def run (c : Cfg) (s : State) : List Ev → Except Fail State
  | [] => .ok s
  | e :: es =>
    match step c s e with
    | .error f => .error f
    | .ok s' => run c s' es

/-- The lines of a snapshot that are written (drheapstat.c:411-419). -/
def lines (x : Snap) : List Ent :=
  x.used.filter (fun e => decide ((e.asked + e.extraU) % 4294967296 > 0))

/-- The snapshots `snapshot_dump_all` writes after the peak (drheapstat.c:891-900). -/
def written (c : Cfg) (s : State) : List Snap :=
  (List.range (if s.fills = 0 then s.idx + 1 else c.n)).map s.snaps

end Verif.HeapStat
