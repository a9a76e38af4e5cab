import Verif.RedBlack

/-!
# The leak scan (drmemory/leak.c): reachability, possible leaks and indirect leaks

The scan of a memory range is given here as the list of words it looks at (`Env.words`,
`Env.roots`); how a range yields its words is `Verif.LeakRange`.

Simplifications: no encoded pointers and no `RtlpHeapFailureInfo` (Windows only), no statistics or
logging.  `Env.isStr` stands for `is_part_of_string` with its option and `Env.legit` for
`is_midchunk_pointer_legitimate`; both are arbitrary here.  The malloc table (flags by chunk start)
is a function of the address, the `unreach_entry_t` of a tree node is kept by the node's base
(allocated lazily and zeroed in the code, so that a missing one reads as zero and no parent), and
byte counts are natural numbers (bounded by the sum of all chunk sizes, `Leak.C29_bound`).
`none` means a NULL node is followed or a loop does not stop; `bad` records a failed `ASSERT`.
-/
namespace Verif.Leak

/-- What `malloc_info_t` says about a chunk here: base, request size, the client flag
`MALLOC_IGNORE_LEAK`. -/
structure Chunk where
  base : Nat
  size : Nat
  ignore : Bool
deriving DecidableEq, Repr

/-- End of the asked-for size. -/
def Chunk.stop (c : Chunk) : Nat := c.base + c.size

/-- A word looked at: `ptr_addr`, the value `pointer` read there, and `defined_end`. -/
structure Word where
  addr : Nat
  val : Nat
  dend : Nat
deriving DecidableEq, Repr

/-- Everything the scan reads: the malloc table in iteration order, the words of registers and
non-heap memory, the words of a range, the lowest pointer, the two heuristics, and the kind of
build of the interval tree. -/
structure Env where
  chunks : List Chunk
  roots : List Word
  words : Nat → Nat → List Word
  low : Nat
  isStr : Nat → Nat → Bool
  legit : Nat → Nat → Nat → Bool
  dbg : Bool

/-- `MALLOC_REACHABLE`, `MALLOC_MAYBE_REACHABLE`, `MALLOC_INDIRECTLY_REACHABLE`. -/
structure Fl where
  reach : Bool
  maybe : Bool
  ind : Bool
deriving DecidableEq, Repr

/-- `unreach_entry_t` (drmemory/leak.c:391-397); the parent is named by its chunk's base. -/
structure Ue where
  bytes : Nat
  parent : Option Nat
deriving DecidableEq, Repr

/-- `reachability_data_t` (drmemory/leak.c:83-107) with the flags of the malloc table and the
entries hanging off the tree.  `rq`, `mq`: the parts of the two queues not yet walked. -/
structure St where
  fl : Nat → Fl
  ue : Nat → Ue
  rq : List (Nat × Nat)
  mq : List (Nat × Nat)
  bad : Bool

/-- Change a function in one place. -/
def upd {α : Type} (f : Nat → α) (a : Nat) (v : α) : Nat → α := fun x => if x = a then v else f x

/-- The state before the scan: flags clear, no entries, empty queues (drmemory/leak.c:1410-1411;
flags are cleared at the end of a scan, lines 1294-1298). -/
def St.init : St := ⟨fun _ => ⟨false, false, false⟩, fun _ => ⟨0, none⟩, [], [], false⟩

/-- `malloc_iterate_build_tree_cb` over the table (drmemory/leak.c:1303-1317, 1429); a failing
assertion (an overlap) is reported by the flag. -/
def build (dbg : Bool) : List Chunk → RB.Tree → Bool → Option (RB.Tree × Bool)
  | [], t, bad => some (t, bad)
  | c :: cs, t, bad =>
    (RB.insert dbg ⟨c.base, c.size, 0⟩ t).bind fun r => build dbg cs r.1 (bad || r.2.isSome)

/-- `malloc_end` (common/alloc.c:4071-4081, common/alloc_replace.c:5127-5134): the end of the chunk
starting exactly at the address. -/
def mallocEnd (E : Env) (p : Nat) : Option Nat :=
  (E.chunks.find? fun c => c.base = p).map Chunk.stop

/-- The climbing loop of `mark_indirect` (drmemory/leak.c:506-508). -/
def climb (ue : Nat → Ue) : Nat → Nat → Option Nat
  | 0, _ => none
  | n + 1, top =>
    match (ue top).parent with
    | none => some top
    | some p => if p = top then some top else climb ue n p

/-- `mark_indirect` (drmemory/leak.c:453-527) for a word at `paddr` and the child `[cs, ce)` whose
node has base `nb`. -/
def markIndirect (E : Env) (t : RB.Tree) (paddr cs ce nb : Nat) (st : St) : Option St :=
  if (st.fl cs).reach then some st
  else
    match RB.inNode paddr t with
    | none => none
    | some pn =>
      if (st.fl cs).ind then
        some { st with bad := st.bad || (st.ue nb).parent.isNone }
      else
        (climb st.ue (E.chunks.length + 1) pn.base).map fun top =>
          if top ≠ nb then
            let ue := upd st.ue top
              ⟨(st.ue top).bytes + ((st.ue nb).bytes + (ce - cs)), (st.ue top).parent⟩
            { st with
              ue := upd ue nb ⟨(st.ue nb).bytes, some top⟩
              fl := upd st.fl cs ⟨(st.fl cs).reach, (st.fl cs).maybe, true⟩ }
          else { st with ue := upd st.ue nb ⟨(st.ue nb).bytes, some top⟩ }

/-- The end of `check_reachability_pointer` for a reachable chunk (drmemory/leak.c:997-1033). -/
def reached (E : Env) (t : RB.Tree) (primary : Bool) (paddr cs ce nb : Nat) (st : St) : Option St :=
  if primary then
    if (st.fl cs).reach then some st
    else some { st with
      fl := upd st.fl cs ⟨true, (st.fl cs).maybe, (st.fl cs).ind⟩
      rq := st.rq ++ [(cs, ce)] }
  else markIndirect E t paddr cs ce nb st

/-- The end of `check_reachability_pointer` for a mid-chunk pointer (drmemory/leak.c:958-962,
1008-1033). -/
def maybeReached (cs ce : Nat) (st : St) : St :=
  if (st.fl cs).maybe ∨ (st.fl cs).reach ∨ (st.fl cs).ind then st
  else { st with
    fl := upd st.fl cs ⟨(st.fl cs).reach, true, (st.fl cs).ind⟩
    mq := st.mq ++ [(cs, ce)] }

/-- `check_reachability_pointer` (drmemory/leak.c:876-1034). -/
def checkPointer (E : Env) (t : RB.Tree) (primary : Bool) (st : St) (w : Word) : Option St :=
  if w.val = 0 then some st
  else if w.val < E.low then some st
  else match RB.inNode w.val t with
    | none => some st
    | some n =>
      if w.addr > 4096 ∧ E.isStr w.addr w.dend then some st
      else match mallocEnd E w.val with
        | some ce =>
          if w.val ≤ w.addr ∧ w.addr < ce then some st
          else reached E t primary w.addr w.val ce n.base st
        | none =>
          if n.base ≤ w.addr ∧ w.addr < n.base + n.size then some st
          else if E.legit w.val n.base (n.base + n.size) then
            reached E t primary w.addr n.base (n.base + n.size) n.base st
          else some (maybeReached n.base (n.base + n.size) st)

/-- The walk of the reachable queue (drmemory/leak.c:1449-1453), with fuel. -/
def walkReach (E : Env) (t : RB.Tree) : Nat → St → Option St
  | 0, _ => none
  | n + 1, st =>
    match st.rq with
    | [] => some st
    | (s, e) :: q =>
      ((E.words s e).foldlM (checkPointer E t true) { st with rq := q }).bind (walkReach E t n)

/-- `malloc_iterate_identify_indirect_cb` (drmemory/leak.c:1238-1250). -/
def identify (E : Env) (t : RB.Tree) (st : St) (c : Chunk) : Option St :=
  if c.ignore ∨ (st.fl c.base).reach ∨ (st.fl c.base).maybe then some st
  else (E.words c.base c.stop).foldlM (checkPointer E t false) st

/-- The walk of the maybe-reachable queue (drmemory/leak.c:1464-1482), with fuel. -/
def walkMaybe (E : Env) (t : RB.Tree) : Nat → St → Option St
  | 0, _ => none
  | n + 1, st =>
    match st.mq with
    | [] => some st
    | (s, e) :: q =>
      if (st.fl s).reach ∨ (st.fl s).ind then walkMaybe E t n { st with mq := q }
      else ((E.words s e).foldlM (checkPointer E t false) { st with mq := q }).bind
        (walkMaybe E t n)

/-- What `client_found_leak` is told about a chunk (drmemory/leak.c:1284-1291). -/
structure Report where
  base : Nat
  size : Nat
  indirect : Nat
  reach : Bool
  maybe : Bool
deriving DecidableEq, Repr

/-- `malloc_iterate_cb` (drmemory/leak.c:1254-1293), first iteration. -/
def report (st : St) (c : Chunk) : Option Report :=
  if c.ignore ∨ (st.fl c.base).ind then none
  else some ⟨c.base, c.size, (st.ue c.base).bytes, (st.fl c.base).reach, (st.fl c.base).maybe⟩

/-- The primary scan: registers and non-heap memory, then the queue (drmemory/leak.c:1431-1454). -/
def primary (E : Env) (t : RB.Tree) (st : St) : Option St :=
  (E.roots.foldlM (checkPointer E t true) st).bind (walkReach E t (E.chunks.length + 1))

/-- The secondary scan (drmemory/leak.c:1456-1482). -/
def secondary (E : Env) (t : RB.Tree) (st : St) : Option St :=
  (E.chunks.foldlM (identify E t) st).bind (walkMaybe E t (E.chunks.length + 1))

/-- The scan without the reports. -/
def marks (E : Env) : Option St :=
  (build E.dbg E.chunks .nil false).bind fun r =>
    ((primary E r.1 { St.init with bad := r.2 })).bind (secondary E r.1)

/-- `leak_scan_for_leaks` (drmemory/leak.c:1362-1529): the reports, in iteration order. -/
def leakScan (E : Env) : Option (List Report) :=
  (marks E).map fun st => E.chunks.filterMap (report st)

end Verif.Leak
