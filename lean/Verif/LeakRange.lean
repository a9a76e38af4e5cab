import Verif.Leak

/-!
# The leak scan: from memory ranges to words (drmemory/leak.c:1037-1200)

Simplifications: 64-bit, definedness information present (`op_have_defined_info`), not Windows.
The callbacks are arguments; `LeakRangeProps` states what is required of them.  The properties of a
region that make the scan skip it (protection, file type, tool memory) are one flag.
-/
namespace Verif.Leak

/-- The answer of `dr_query_memory_ex` (base and size) and whether the conditions at
drmemory/leak.c:1074-1118 skip the region. -/
structure Region where
  base : Nat
  size : Nat
  skip : Bool
deriving DecidableEq, Repr

/-- What the scan of a range calls: the memory query, `cb_next_defined_ptrsz`,
`cb_end_of_defined_region`, the end of the stack-tree node holding an address (`none` unless the
process is exiting), the end of the heap region holding an address (`heap_region_bounds`), and
`leak_safe_read_heap`. -/
structure Mem where
  query : Nat → Option Region
  next : Nat → Nat → Option Nat
  endOf : Nat → Nat → Nat
  stack : Nat → Option Nat
  heapEnd : Nat → Option Nat
  read : Nat → Option Nat

/-- `ALIGN_FORWARD` without overflow. -/
def alignF (a n : Nat) : Nat := (a + (n - 1)) / n * n

/-- `query_end` (drmemory/leak.c:1072), which wraps at the top of the address space. -/
def Region.qend (r : Region) : Nat := alignF (r.base + r.size) 4096 % 2 ^ 64

/-- The inner loop over one defined range (drmemory/leak.c:1160-1196), with fuel. -/
def inner (M : Mem) (skipHeap : Bool) (dend : Nat) : Nat → Nat → Option (List Word)
  | 0, _ => none
  | n + 1, pc =>
    if pc < dend ∧ pc + 8 ≤ dend then
      match (if skipHeap then M.heapEnd pc else none) with
      | some ce => inner M skipHeap dend n ce
      | none =>
        match M.read pc with
        | some v => (inner M skipHeap dend n (pc + 8)).map (⟨pc, v, dend⟩ :: ·)
        | none => inner M skipHeap dend n (pc + 8)
    else some []

/-- The part of the outer loop after `defined_end` is known (drmemory/leak.c:1156-1197); `k` is the
rest of the outer loop. -/
def range (M : Mem) (skipHeap : Bool) (iterEnd pc : Nat) (k : Nat → Option (List Word)) :
    Option (List Word) :=
  let dend := M.endOf pc iterEnd
  (inner M skipHeap dend (dend + 1 - alignF pc 8 + 1) (alignF pc 8)).bind fun ws =>
    (k (alignF dend 8)).map (ws ++ ·)

/-- The rest of one round of the outer loop in a region that is not skipped
(drmemory/leak.c:1121-1197). -/
def round (M : Mem) (skipHeap : Bool) (stop pc qe : Nat) (k : Nat → Option (List Word)) :
    Option (List Word) :=
  let iterEnd := if qe < stop then qe else stop
  match M.next pc iterEnd with
  | none => k iterEnd
  | some p =>
    match M.stack p with
    | some e => if e ≥ iterEnd then k e else range M skipHeap iterEnd e k
    | none => range M skipHeap iterEnd p k

/-- `check_reachability_helper` (drmemory/leak.c:1041-1199), with fuel; the words handed to
`check_reachability_pointer`, in order.  `qe` is `query_end`. -/
def scanGo (M : Mem) (skipHeap : Bool) (stop : Nat) : Nat → Nat → Nat → Option (List Word)
  | 0, _, _ => none
  | n + 1, pc, qe =>
    if pc < stop then
      if pc ≥ qe then
        match M.query pc with
        | none => some []
        | some r =>
          if r.skip then
            if r.qend < pc then some [] else scanGo M skipHeap stop n r.qend r.qend
          else round M skipHeap stop pc r.qend fun p => scanGo M skipHeap stop n p r.qend
      else round M skipHeap stop pc qe fun p => scanGo M skipHeap stop n p qe
    else some []

/-- `check_reachability_helper` as called. -/
def scan (M : Mem) (skipHeap : Bool) (start stop : Nat) : Option (List Word) :=
  scanGo M skipHeap stop (stop + 1 - start + 1) start 0

/-- Everything the scan reads (drmemory/leak.c:1362-1482): `check_reachability_helper` is called for
the whole address space without heap, and for single chunks; `regs` are the registers looked at by
`check_reachability_regs` (drmemory/leak.c:1202-1235), number and value. -/
def Env.ofMem (M : Mem) (chunks : List Chunk) (regs : List (Nat × Nat)) (low : Nat)
    (isStr : Nat → Nat → Bool) (legit : Nat → Nat → Nat → Bool) (dbg : Bool) : Env where
  chunks := chunks
  roots := regs.map (fun r => ⟨r.1, r.2, 0⟩) ++ (scan M true 0 (2 ^ 64 - 1)).getD []
  words s e := (scan M false s e).getD []
  low := low
  isStr := isStr
  legit := legit
  dbg := dbg

end Verif.Leak
