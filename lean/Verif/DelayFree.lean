import Verif.RedBlack

/-!
# Delayed frees in the wrapping allocator mode (drmemory/alloc_drmem.c)

When Dr. Memory wraps the application's allocator (`-no_replace_malloc`), a call of `free` is
intercepted and `client_handle_free` chooses what the real `free` is called with: the block itself,
an older block, or NULL.  Waiting blocks sit in a circular array and, for lookups by address, in an
interval tree (`Verif.RB`).

Simplifications: one malloc routine set (one queue) and one thread (the code holds
`delay_free_lock`); callstacks, the memory pattern mode, logging and statistics are left out;
the shadow update at lines 778-781 is the range fill of `Verif.Shadow`.  A failing `ASSERT` sets
`bad` and execution goes on, as in a release build.  `none` means that a tree operation would
follow a NIL child or the search loop would not stop (shown impossible).  `dbg` selects a debug
build of the tree, as in `RB.insert`.
-/
namespace Verif.DelayFree

/-- `delay_free_t` (drmemory/alloc_drmem.c:106-118); `addr = 0` is NULL. -/
structure Ent where
  addr : Nat
  size : Nat
  aux : Nat
  rz : Bool
deriving DecidableEq, Repr

/-- `delay_free_info_t` (drmemory/alloc_drmem.c:121-133) with the tree of line 145; `bad` records
a failed `ASSERT`. -/
structure Q where
  list : List Ent
  head : Nat
  fill : Nat
  bytes : Nat
  tree : RB.Tree
  bad : Bool

/-- The options used here: `delay_frees`, `delay_frees_maxsz`, `redzone_size`
(drmemory/optionsx.h:458-463), and the kind of build. -/
structure Opts where
  delay : Nat
  maxsz : Nat
  redzone : Nat
  dbg : Bool

/-- The fields of `malloc_info_t` that are used: base, padded size, has_redzone. -/
structure Mal where
  base : Nat
  pad : Nat
  rz : Bool
deriving DecidableEq, Repr

/-- `size_t` arithmetic wraps. -/
def W : Nat := 2 ^ 64

/-- `rz_start` (drmemory/alloc_drmem.c:800); equal to `tofree` by the assertion at line 803. -/
def Mal.start (o : Opts) (m : Mal) : Nat := m.base - (if m.rz then o.redzone else 0)

/-- `tot_sz` (drmemory/alloc_drmem.c:801). -/
def Mal.tot (o : Opts) (m : Mal) : Nat := (m.pad + (if m.rz then o.redzone * 2 else 0)) % W

/-- An arbitrary entry standing for a read outside the array (shown not to be used). -/
def noEnt : Ent := ⟨0, 0, 0, false⟩

/-- `addr = NULL` (drmemory/alloc_drmem.c:844, 1005). -/
def Ent.dead (e : Ent) : Ent := ⟨0, e.size, e.aux, e.rz⟩

/-- `info->delay_free_list[idx]`. -/
def Q.at (q : Q) (i : Nat) : Ent := q.list.getD i noEnt

/-- `client_add_malloc_routine` (drmemory/alloc_drmem.c:665-683): `junk` is the uninitialised
array of `delay_frees` entries. -/
def init (junk : List Ent) : Q := ⟨junk, 0, 0, 0, .nil, false⟩

/-- `next_to_free` (drmemory/alloc_drmem.c:720-765): queue, address, auxarg. -/
def nextToFree (q : Q) (idx : Nat) : Option (Q × Nat × Nat) :=
  if (q.at idx).addr ≠ 0 then
    match RB.find (q.at idx).addr q.tree with
    | some _ => (RB.delete (q.at idx).addr q.tree).map fun t =>
        ({ q with tree := t, bytes := (q.bytes + W - (q.at idx).size) % W },
          (q.at idx).addr, (q.at idx).aux)
    | none => some ({ q with bad := true, bytes := (q.bytes + W - (q.at idx).size) % W },
          (q.at idx).addr, (q.at idx).aux)
  else some (q, 0, (q.at idx).aux)

/-- The search loop (drmemory/alloc_drmem.c:828-852).  `some (some i)`: index `i` is given up;
`some none`: nothing suitable; `none`: out of fuel. -/
def search (o : Opts) (q : Q) (tot : Nat) : Nat → Nat → Option (Option Nat)
  | 0, _ => none
  | n + 1, idx =>
    if (q.at idx).addr ≠ 0 ∧ (q.at idx).size ≥ tot then some (some idx)
    else if idx + 1 ≥ q.fill then some none
    else if (if idx + 1 ≥ o.delay then 0 else idx + 1) = q.head then some none
    else search o q tot n (if idx + 1 ≥ o.delay then 0 else idx + 1)

/-- Lines 895-912: put the block into the tree and into slot `idx`. -/
def store (o : Opts) (m : Mal) (aux idx : Nat) (q : Q) : Option Q :=
  (RB.insert o.dbg ⟨m.start o, m.tot o, idx⟩ q.tree).map fun r =>
    { q with tree := r.1, list := q.list.set idx ⟨m.start o, m.tot o, aux, m.rz⟩ }

/-- Lines 870-923: make room in a full queue, store the block and return what is to be passed to
`free`; `pass`/`paux` is the block already given up (0 if none).  On Windows `*auxarg` is replaced
only if the queue was full (lines 903-904). -/
def finish (o : Opts) (m : Mal) (aux pass paux : Nat) (q : Q) : Option (Q × Nat × Nat) :=
  if q.fill = o.delay then
    (if pass = 0 then nextToFree q q.head else some (q, pass, paux)).bind fun r =>
      (store o m aux q.head
        { r.1 with head := if q.head + 1 ≥ o.delay then 0 else q.head + 1 }).map fun q' =>
          (q', r.2.1, r.2.2)
  else
    (store o m aux q.fill { q with fill := q.fill + 1 }).map fun q' => (q', pass, aux)

/-- `client_handle_free` in wrapping mode (drmemory/alloc_drmem.c:770-932): the new queue, the
value to pass to `free` (0 = NULL) and the auxarg to pass. -/
def handleFree (o : Opts) (m : Mal) (aux : Nat) (q : Q) : Option (Q × Nat × Nat) :=
  if o.delay = 0 then some (q, m.start o, aux)
  else if m.tot o > o.maxsz then some (q, m.start o, aux)
  else if (q.bytes + m.tot o) % W > o.maxsz then
    match search o q (m.tot o) (q.fill + 1) q.head with
    | none => none
    | some none => some (q, m.start o, aux)
    | some (some i) =>
      (nextToFree { q with bytes := (q.bytes + m.tot o) % W } i).bind fun r =>
        finish o m aux r.2.1 r.2.2
          { r.1 with
            bad := r.1.bad || decide (o.maxsz < r.1.bytes)
            list := r.1.list.set i (q.at i).dead }
  else finish o m aux 0 0 { q with bytes := (q.bytes + m.tot o) % W }

/-- One round of the loop of `client_handle_heap_destroy` (drmemory/alloc_drmem.c:992-1010). -/
def destroyAt (heap : Nat) (q : Q) (i : Nat) : Option Q :=
  if (q.at i).addr ≠ 0 ∧ (q.at i).aux = heap then
    match RB.find (q.at i).addr q.tree with
    | some _ => (RB.delete (q.at i).addr q.tree).map fun t =>
        { q with tree := t, list := q.list.set i (q.at i).dead }
    | none => some { q with bad := true, list := q.list.set i (q.at i).dead }
  else some q

/-- `client_handle_heap_destroy` (drmemory/alloc_drmem.c:983-1014). -/
def heapDestroy (o : Opts) (heap : Nat) (q : Q) : Option Q :=
  if o.delay = 0 then some q
  else (List.range q.fill).foldlM (destroyAt heap) q

/-- `overlaps_delayed_free` in wrapping mode (drmemory/alloc_drmem.c:1016-1083): the bounds
reported for the freed block, without its redzones. -/
def overlaps (o : Opts) (q : Q) (start stop : Nat) : Option (Nat × Nat) :=
  if o.delay = 0 then none
  else match RB.overlapsNode start stop q.tree with
    | none => none
    | some n =>
      some (n.base + (if (q.at n.client).rz then o.redzone else 0),
        n.base + n.size - (if (q.at n.client).rz then o.redzone else 0))

/-- What the application does: free a block (with an auxarg: the Windows heap), or destroy a
heap. -/
inductive Call where
  | free (m : Mal) (aux : Nat)
  | destroy (heap : Nat)
deriving DecidableEq, Repr

/-- One call; for `free` the pair that is passed on to the real `free`. -/
def step (o : Opts) (c : Call) (q : Q) : Option (Q × Option (Nat × Nat)) :=
  match c with
  | .free m aux => (handleFree o m aux q).map fun r => (r.1, some (r.2.1, r.2.2))
  | .destroy h => (heapDestroy o h q).map fun q => (q, none)

/-- A sequence of calls, with what each of them passes on. -/
def run (o : Opts) : List Call → Q → Option (Q × List (Option (Nat × Nat)))
  | [], q => some (q, [])
  | c :: cs, q => (step o c q).bind fun r => (run o cs r.1).map fun z => (z.1, r.2 :: z.2)

end Verif.DelayFree
