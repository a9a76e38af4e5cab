/-!
# Dr. Fuzz: fuzz targets, fuzz passes and faults (C70)

Model of `/repo/drfuzz/drfuzz.c`: the table of fuzz targets, the stack of
targets that are live on a thread, the cache of targets that were live in the
current pass, the handlers that run before and after every iteration of a
target, and the chain of faults kept for a crash report.

One thread is modelled.  Addresses, argument values, user data and faults are
numbers.  `drwrap` and the client are outside: what they may do is in the
events (`Ev`), and is not restricted.  A heap object is known by an identity
(`tid`, `pid`, iterator `id`), so that freeing one twice, or reading one after
it was freed, is an outcome of its own (`Err`).
-/

namespace Verif.DrFuzz

/-- What must not happen while the code runs.  `noTarget` is the assertion of
drfuzz.c:664 and the null pointer of `live_targets` at drfuzz.c:739. -/
inductive Err where
  | noTarget
  | useAfterFree
  | doubleFree
  | outOfBounds
  deriving DecidableEq, Repr

/-- A fuzz target, `fuzz_target_t`, drfuzz.c:61-71.  The callbacks are the
events; `user_data` of the target is left out. -/
structure Tgt where
  tid : Nat
  pc : Nat
  argc : Nat
  bbs : Nat
  deriving DecidableEq, Repr

/-- A target on this thread, `pass_target_t`, drfuzz.c:121-134.  `pc` and `argc`
are read by the code through `target`; here they are copied, and the places that
read through a pointer that may be stale check that `tid` is still allocated. -/
structure Pass where
  pid : Nat
  tid : Nat
  pc : Nat
  argc : Nat
  wrapcxt : Nat
  xsp : Nat
  retaddr : Nat
  orig : List Nat
  cur : List Nat
  user : Option Nat
  deriving DecidableEq, Repr

/-- One frame of a report, `drfuzz_target_frame_t`, drfuzz.h:69-73. -/
structure Frame where
  pc : Nat
  argc : Nat
  args : List Nat
  deriving DecidableEq, Repr

/-- An iterator over live targets, `target_iterator_t`, drfuzz.c:101-106. -/
structure Iter where
  id : Nat
  frames : List Frame
  deriving DecidableEq, Repr

/-- A recorded fault, `drfuzz_fault_t`, drfuzz.h:94-116, by its number, and the
user data in its slot. -/
structure Fault where
  code : Nat
  user : Option Nat
  deriving DecidableEq, Repr

/-- The state of one thread, `fuzz_pass_context_t`, drfuzz.c:139-158, the table of
targets, and what the client and the heap have seen.
`slots` is the user data left in the two elements of `thread_state->faults`. -/
structure St where
  targets : List Tgt := []
  nextT : Nat := 0
  live : List Pass := []
  cached : List Pass := []
  nextP : Nat := 0
  freedP : List Nat := []
  deleted : List Nat := []
  faults : List Fault := []
  observed : Nat := 0
  slot0 : Option Nat := none
  slot1 : Option Nat := none
  fdeleted : List Fault := []
  iter : Option Iter := none
  nextI : Nat := 0
  freedI : List Nat := []
  iterFrees : List (Nat × Nat) := []
  deriving Repr

/-- `hashtable_lookup(&fuzz_target_htable, pc)`, drfuzz.c:409, 540, 656, 800. -/
def St.find (s : St) (pc : Nat) : Option Tgt := s.targets.find? (fun t => t.pc == pc)

/-- The `fuzz_target_t` with this identity has not been freed. -/
def St.alloc (s : St) (tid : Nat) : Bool := s.targets.any (fun t => t.tid == tid)

/-- `drfuzz_fuzz_target`, drfuzz.c:370-401: refused when the address is null or is
a target already.  The failure of `drwrap_wrap_ex` is left out. -/
def fuzzTarget (s : St) (pc argc : Nat) : St × Bool :=
  if pc = 0 then (s, false)
  else
    match s.find pc with
    | some _ => (s, false)
    | none =>
      ({ s with targets := s.targets ++ [⟨s.nextT, pc, argc, 0⟩], nextT := s.nextT + 1 }, true)

/-- `lookup_live_target`, drfuzz.c:769-779. -/
def lookupLive (s : St) (pc : Nat) : Option Pass := s.live.find? (fun p => p.pc == pc)

/-- `drfuzz_unfuzz_target`, drfuzz.c:403-429: refused when the target is unknown or
is live on this thread. -/
def unfuzzTarget (s : St) (pc : Nat) : St × Bool :=
  match s.find pc with
  | none => (s, false)
  | some _ =>
    match lookupLive s pc with
    | some _ => (s, false)
    | none => ({ s with targets := s.targets.filter (fun t => t.pc != pc) }, true)

/-- `free_pass_target`, drfuzz.c:1001-1011: the client's data is deleted, and the two
arrays are freed with a size read through `target->target`. -/
def freePass (s : St) (p : Pass) : Except Err St :=
  let s1 := match p.user with
    | some u => { s with deleted := s.deleted ++ [u] }
    | none => s
  if s1.alloc p.tid then .ok { s1 with freedP := s1.freedP ++ [p.pid] }
  else .error .useAfterFree

/-- The loop of `clear_cached_targets` and of `clear_pass_targets`,
drfuzz.c:955-976. -/
def freePasses : St → List Pass → Except Err St
  | s, [] => .ok s
  | s, p :: ps =>
    match freePass s p with
    | .ok s1 => freePasses s1 ps
    | .error e => .error e

/-- `clear_cached_targets`, drfuzz.c:955-964. -/
def clearCached (s : St) : Except Err St :=
  match freePasses s s.cached with
  | .ok s1 => .ok { s1 with cached := [] }
  | .error e => .error e

/-- `activate_cached_target`, drfuzz.c:781-794: the top of the cache when it is for
this target; otherwise the cache is emptied. -/
def activate (s : St) (pc : Nat) : Except Err (Option Pass × St) :=
  match s.cached with
  | [] => .ok (none, s)
  | p :: ps =>
    if s.alloc p.tid then
      if p.pc = pc then .ok (some p, { s with cached := ps })
      else
        match clearCached s with
        | .ok s1 => .ok (none, s1)
        | .error e => .error e
    else .error .useAfterFree

/-- `clear_thread_state`, drfuzz.c:978-989: every recorded fault is handed to the
delete callback (here always registered), and the counts are reset.  The iterator
is not touched. -/
def clearFaults (s : St) : St :=
  { s with fdeleted := s.fdeleted ++ s.faults, faults := [], observed := 0 }

/-- `drfuzz_target_iterator_stop`, drfuzz.c:871-886.  The argument values of a frame
are freed with the size of one value (line 879), whatever the number of
arguments; the pairs of sizes, allocated and freed, are recorded. -/
def stopIter (s : St) (it : Iter) : Except Err St :=
  if it.id ∈ s.freedI then .error .doubleFree
  else .ok { s with
    freedI := s.freedI ++ [it.id],
    iterFrees := s.iterFrees ++ it.frames.map (fun f => (8 * f.argc, 8)) }

/-- The argument values of one frame, drfuzz.c:846-849: the element read is
`current_args[i]`, where `i` is the number of the frame, for every `j`. -/
def frameArgs (p : Pass) (i : Nat) : Except Err (List Nat) :=
  if p.argc = 0 then .ok []
  else
    match p.cur[i]? with
    | some v => .ok (List.replicate p.argc v)
    | none => .error .outOfBounds

/-- The second loop of `create_target_iterator`, drfuzz.c:842-850. -/
def mkFrames : List Pass → Nat → Except Err (List Frame)
  | [], _ => .ok []
  | p :: ps, i =>
    match frameArgs p i with
    | .error e => .error e
    | .ok a =>
      match mkFrames ps (i + 1) with
      | .error e => .error e
      | .ok fs => .ok (⟨p.pc, p.argc, a⟩ :: fs)

/-- `create_target_iterator`, drfuzz.c:825-853. -/
def mkIter (s : St) : Except Err (Iter × St) :=
  match mkFrames s.live 0 with
  | .error e => .error e
  | .ok fs => .ok (⟨s.nextI, fs⟩, { s with nextI := s.nextI + 1 })

/-- The arguments of a call, as `drwrap_get_arg` reads them. -/
abbrev Args := Nat → Nat

/-- `drwrap_set_arg`. -/
def setArg (a : Args) (i v : Nat) : Args := fun j => if j = i then v else a j

/-- `drwrap_get_arg` for every argument, in order. -/
def readArgs (a : Args) (n : Nat) : List Nat := (List.range n).map a

/-- The loop that puts the original arguments back, drfuzz.c:713-718. -/
def restoreArgs (a : Args) (orig : List Nat) (n : Nat) : Args :=
  (List.range n).foldl (fun a i => setArg a i (orig.getD i 0)) a

/-- What `drwrap` finds when the target is entered: the function, the wrap context,
the stack pointer, the return address and the arguments. -/
structure Entry where
  pc : Nat
  wrapcxt : Nat
  xsp : Nat
  ra : Nat
  args : Args

/-- What is seen of one iteration: the arguments in place when the client is called,
what `drfuzz_get_arg` says then for the original and for the current value, the
arguments the target then runs with, its stack pointer, and the return address
with the place it is written to. -/
structure Seen where
  pc : Nat
  args : List Nat
  orig : List Nat
  cur : List Nat
  ran : List Nat
  xsp : Nat
  retLoc : Nat
  retVal : Nat
  deriving DecidableEq, Repr

/-- The client's part in an iteration: the calls of `drfuzz_set_arg` it makes, given
the arguments it finds. -/
abbrev Client := List Nat → List (Nat × Nat)

/-- The client's calls of `drfuzz_set_arg`, drfuzz.c:571-580: they go through the wrap
context that was kept when the pass target was made (line 803 stores it, nothing
renews it), so they reach this call only when it is the same. -/
def applyClient (stored now : Nat) (ops : List (Nat × Nat)) (a : Args) : Args :=
  if stored = now then ops.foldl (fun a o => setArg a o.1 o.2) a else a

/-- `create_pass_target`, drfuzz.c:796-808. -/
def newPass (s : St) (t : Tgt) (wrapcxt : Nat) : Pass × St :=
  (⟨s.nextP, t.tid, t.pc, t.argc, wrapcxt, 0, 0, [], [], none⟩, { s with nextP := s.nextP + 1 })

/-- The part of `pre_fuzz_handler` that keeps what the application passed,
drfuzz.c:695-711. -/
def enterPass (p : Pass) (t : Tgt) (e : Entry) : Pass :=
  { p with xsp := e.xsp, retaddr := e.ra, orig := readArgs e.args t.argc,
           cur := readArgs e.args t.argc }

/-- `pre_fuzz_handler` from drfuzz.c:680-690: is this a repetition of the target on
top of the live stack, or a new invocation of a target?  In both cases the
pass target is returned off the stack, with the rest of the stack in the state. -/
def pickPass (s : St) (t : Tgt) (e : Entry) : Except Err (Pass × St) :=
  let fresh (s : St) : Except Err (Pass × St) :=
    match activate s e.pc with
    | .error x => .error x
    | .ok (some p, s1) => .ok (enterPass p t e, s1)
    | .ok (none, s1) =>
      let (p, s2) := newPass s1 t e.wrapcxt
      .ok (enterPass p t e, s2)
  match s.live with
  | p :: ps => if p.pc = e.pc then .ok (p, { s with live := ps }) else fresh s
  | [] => fresh s

/-- The end of `pre_fuzz_handler`, drfuzz.c:713-729: the arguments and the return
address are put back, the client is called, and the current arguments are
kept. -/
def runPass (p : Pass) (t : Tgt) (e : Entry) (c : Client) : Pass × Seen :=
  let a1 := restoreArgs e.args p.orig t.argc
  let a2 := applyClient p.wrapcxt e.wrapcxt (c (readArgs a1 t.argc)) a1
  ({ p with cur := readArgs a2 t.argc },
   ⟨e.pc, readArgs a1 t.argc, p.orig, p.cur, readArgs a2 t.argc, e.xsp, p.xsp, p.retaddr⟩)

/-- `pre_fuzz_handler`, drfuzz.c:651-732.  Lines 674-678: the iterator of the last
fault is stopped, but `thread_state->targets` keeps pointing to it. -/
def pre (s : St) (e : Entry) (c : Client) : Except Err (St × Seen) :=
  match s.find e.pc with
  | none => .error .noTarget
  | some t =>
    let s1 := clearFaults s
    let stopped := match s1.iter with
      | some it => stopIter s1 it
      | none => .ok s1
    match stopped with
    | .error x => .error x
    | .ok s2 =>
      match pickPass s2 t e with
      | .error x => .error x
      | .ok (p, s3) =>
        let (p', o) := runPass p t e c
        .ok ({ s3 with live := p' :: s3.live }, o)

/-- `post_fuzz_handler` when the client asks for no repetition, drfuzz.c:759-766. -/
def popLive (s : St) : Except Err St :=
  match s.live with
  | [] => .error .noTarget
  | p :: ps =>
    let s1 := { s with live := ps, cached := p :: s.cached }
    if ps = [] then clearCached s1 else .ok s1

/-- `post_fuzz_handler` when the client asks for a repetition, drfuzz.c:744-758: the
application continues at the entry of the target with the stack pointer it had.
`drwrap` then enters the target again; its wrap context, the return address on
the stack and the arguments are whatever the last iteration left (`junk`). -/
def again (s : St) (junk : Entry) (c : Client) : Except Err (St × Seen) :=
  match s.live with
  | [] => .error .noTarget
  | p :: _ => pre s { junk with pc := p.pc, xsp := p.xsp } c

/-- `bb_event`, drfuzz.c:343-368, for a block that is not for a trace nor a
translation: the count of the target on top of the live stack grows. -/
def bbEvent (s : St) : St :=
  match s.live with
  | [] => s
  | p :: _ =>
    let count (t : Tgt) : Tgt := if t.tid = p.tid then { t with bbs := t.bbs + 1 } else t
    { s with targets := s.targets.map count }

/-- The user data a new fault finds in its slot, and the slots after the client has
seen it: `capture_fault`, drfuzz.c:888-901, does not write `user_data`. -/
def putFault (s : St) (code : Nat) (attach : Option Nat) : St :=
  let n := s.faults.length
  let old := if n = 0 then s.slot0 else s.slot1
  let ud := match attach with
    | some u => some u
    | none => old
  let s1 := if n = 0 then { s with slot0 := ud } else { s with slot1 := ud }
  { s1 with faults := s.faults ++ [⟨code, ud⟩], observed := s.observed + 1 }

/-- The last recorded fault is dropped when there are two, drfuzz.c:928-932. -/
def dropLast (s : St) : St :=
  if s.faults.length = 2 then
    { s with fdeleted := s.fdeleted ++ s.faults.drop 1, faults := s.faults.take 1 }
  else s

/-- `fault_handler`, drfuzz.c:903-940, for a critical fault and with all callbacks
registered.  `attach` is the user data the client gives to the fault in its
callback, or `none` when it leaves the field alone. -/
def faultEvent (s : St) (code : Nat) (attach : Option Nat) : Except Err St :=
  match s.live with
  | [] => .ok (putFault (dropLast (clearFaults s)) code attach)
  | _ :: _ =>
    match mkIter s with
    | .error e => .error e
    | .ok (it, s1) => .ok (putFault (dropLast { s1 with iter := some it }) code attach)

/-- `drfuzz_set_target_per_thread_user_data`, drfuzz.c:628-649. -/
def setUser (s : St) (pc : Nat) (v : Option Nat) : St :=
  match lookupLive s pc with
  | none => s
  | some q =>
    { s with live := s.live.map (fun p => if p.pid = q.pid then { p with user := v } else p) }

/-- `drfuzz_get_arg`, drfuzz.c:548-569. -/
def getArg (s : St) (pc : Option Nat) (i : Nat) (original : Bool) : Option Nat :=
  match (match pc with
    | none => s.live.head?
    | some pc => lookupLive s pc) with
  | none => none
  | some p =>
    if p.argc ≤ i then none
    else if original then p.orig[i]? else p.cur[i]?

/-- The report handed to the crash callback at the exit of the thread. -/
structure Report where
  observed : Nat
  faults : List Fault
  frames : List Frame
  deriving DecidableEq, Repr

/-- `thread_exit`, drfuzz.c:319-341, with `free_thread_state`, drfuzz.c:1013-1030, and
`clear_pass_targets`, drfuzz.c:966-976. -/
def threadExit (s : St) : Except Err (St × Option Report) :=
  let crash : Except Err (St × Option Report) :=
    match s.live with
    | [] => .ok (s, none)
    | _ :: _ =>
      match s.iter with
      | some it => .ok (s, some ⟨s.observed, s.faults, it.frames⟩)
      | none =>
        match mkIter s with
        | .error e => .error e
        | .ok (it, s1) =>
          .ok ({ s1 with iter := some it }, some ⟨s1.observed, s1.faults, it.frames⟩)
  match crash with
  | .error e => .error e
  | .ok (s1, r) =>
    let stopped := match s1.iter with
      | some it => stopIter s1 it
      | none => .ok s1
    match stopped with
    | .error e => .error e
    | .ok s2 =>
      match freePasses { s2 with fdeleted := s2.fdeleted ++ s2.faults } s2.live with
      | .error e => .error e
      | .ok s3 =>
        match clearCached { s3 with live := [] } with
        | .error e => .error e
        | .ok s4 => .ok (s4, r)

/-- What can happen on the thread. -/
inductive Ev where
  /-- the client registers a target -/
  | fuzz (pc argc : Nat)
  /-- the client unregisters a target -/
  | unfuzz (pc : Nat)
  /-- the application calls a target -/
  | call (e : Entry) (c : Client)
  /-- the target on top returns and the client asks to repeat it -/
  | rep (junk : Entry) (c : Client)
  /-- the target on top returns and the client does not ask to repeat it -/
  | ret
  /-- a basic block is built -/
  | bb
  /-- a critical fault -/
  | fault (code : Nat) (attach : Option Nat)
  /-- the client sets its data for a live target -/
  | user (pc : Nat) (v : Option Nat)

/-- One event; an iteration that starts is observed. -/
def step (s : St) : Ev → Except Err (St × List Seen)
  | .fuzz pc argc => .ok ((fuzzTarget s pc argc).1, [])
  | .unfuzz pc => .ok ((unfuzzTarget s pc).1, [])
  | .call e c =>
    match pre s e c with
    | .error x => .error x
    | .ok (s1, o) => .ok (s1, [o])
  | .rep j c =>
    match again s j c with
    | .error x => .error x
    | .ok (s1, o) => .ok (s1, [o])
  | .ret =>
    match popLive s with
    | .error x => .error x
    | .ok s1 => .ok (s1, [])
  | .bb => .ok (bbEvent s, [])
  | .fault code a =>
    match faultEvent s code a with
    | .error x => .error x
    | .ok s1 => .ok (s1, [])
  | .user pc v => .ok (setUser s pc v, [])

/-- A run from a state. -/
def run : St → List Ev → Except Err (St × List Seen)
  | s, [] => .ok (s, [])
  | s, e :: es =>
    match step s e with
    | .error x => .error x
    | .ok (s1, o1) =>
      match run s1 es with
      | .error x => .error x
      | .ok (s2, o2) => .ok (s2, o1 ++ o2)

end Verif.DrFuzz
