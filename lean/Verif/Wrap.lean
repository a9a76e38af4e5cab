/-
The heap in wrapping mode (-no_replace_malloc): common/alloc.c puts itself around the malloc, calloc,
realloc, free and malloc_usable_size of the application's allocator, asks for more than the
application did, hands out the middle, and keeps a table of what it has handed out.

Simplifications, all of them:
* Linux, one set of routines with redzones (redzone_size, alloc.c:2522-2528, is `rz`), without
  -pattern (get_padded_size is false, alloc_drmem.c:181) and with mismatches checked;
* malloc_table (alloc.c:2856-2857) is a function from addresses.  The trees of large blocks, the
  callstacks and the text of the reports are left out;
* a call is seen before and after: `malloc`, `calloc` and `free` are the steps before, `under` and
  `underFree` what the application's allocator does, `post` the step after.  Steps of different
  threads interleave; each is one step, the lock of the table being held in it;
* a call that a heap routine makes for its own purposes is not adjusted (alloc.c:5034-5107); such
  calls are part of `under` and `underFree` (see WrapNest);
* an operator new is the malloc that it calls, with its kind recorded (alloc.c:5180-5207); an operator
  delete is the check that it makes, and the free that it calls, in one step;
* what client_handle_free does with a block, to keep it or to let another one go in its place
  (alloc_drmem.c, see DelayFree), is a choice of the event;
* addresses and sizes are numbers below 2^64; p - 4 for p < 4 is 0.
-/
namespace Verif.Wrap

/-- 2^64. -/
def W : Nat := 0x10000000000000000

/-- The end of the addresses of an application. -/
def top : Nat := 0x8000000000000000

/-- MALLOC_ALLOCATOR_* (alloc_private.h:264-270); UNKNOWN is 0. -/
inductive Kind where
  | unknown | malloc | new | newArray
deriving DecidableEq, Repr

/-- malloc_entry_t (alloc.c:2891-2906) with the flags VALID, PRE_US, HAS_REDZONE and
ALLOCATOR_CHECKED (alloc.c:2870-2884). -/
structure Entry where
  stop : Nat
  extra : Nat
  valid : Bool
  preUs : Bool
  redzone : Bool
  kind : Kind
  checked : Bool
deriving DecidableEq, Repr

/-- malloc_table (alloc.c:2856-2857). -/
abbrev Table := Nat → Option Entry

/-- Assignment at one point. -/
def upd {α : Type} (f : Nat → α) (k : Nat) (v : α) : Nat → α := fun x => if x = k then v else f x

/-- The reports: report_invalid_heap_arg (report.c:3130-3149), of which free(NULL) is a warning;
report_mismatched_heap; client_handle_alloc_failure. -/
inductive Report where
  | invalid (p : Nat)
  | nullFree
  | mismatch (p : Nat) (alloc free : Kind)
  | failure (size : Nat)
deriving DecidableEq, Repr

/-! ## Allocation -/

/-- The size asked of the allocator (handle_malloc_pre, alloc.c:5664-5682, with
size_plus_redzone_overflow, 5602-5607). -/
def grow (rz s : Nat) : Nat := if (s + 2 * rz) % W < s then s else (s + 2 * rz) % W

/-- unsigned_multiply_will_overflow on 64 bits (utils.c:514-549). -/
def mulOver (m n : Nat) : Bool :=
  let m0 := m % 2 ^ 32
  let m1 := m / 2 ^ 32 % 2 ^ 32
  let n0 := n % 2 ^ 32
  let n1 := n / 2 ^ 32 % 2 ^ 32
  let middle := (m1 * n0 + m0 * n1) % 2 ^ 64
  (m1 > 0 && n1 > 0) || middle > 2 ^ 32 - 1 || (middle + m0 * n0) % 2 ^ 64 < middle

/-- The two arguments asked of calloc (handle_calloc_pre, alloc.c:6148-6193). -/
def callocArgs (rz n s : Nat) : Nat × Nat :=
  if mulOver n s then (n, s)
  else if n = 0 ∨ s = 0 then (1, rz * 2)
  else if n < s then
    let x := (rz * 2 + n - 1) / n
    if (s + x) % W < s then (n, s) else (n, (s + x) % W)
  else
    let x := (rz * 2 + s - 1) / s
    if (n + x) % W < n then (n, s) else ((n + x) % W, s)

/-- ALIGN_FORWARD to 4, align_to_pad_size (alloc.c:5747-5752). -/
def pad4 (n : Nat) : Nat := (n + 3) / 4 * 4

/-- The entry of a new block (handle_malloc_post, alloc.c:5905-5917, handle_calloc_post, 6226-6236,
with adjust_alloc_result, 5754-5813, and malloc_add_common, 3753-3820). -/
def newEntry (rz s : Nat) (k : Kind) (r : Nat) : Entry :=
  { stop := r + rz + s, extra := r + pad4 (s + rz * 2) - (r + rz + s), valid := true, preUs := false,
    redzone := true, kind := k, checked := false }

/-- handle_malloc_post and handle_calloc_post: the table, the pointer for the application, and the
reports. -/
def allocPost (rz s : Nat) (k : Kind) (r : Nat) (tab : Table) : Table × Nat × List Report :=
  if r = 0 then (tab, 0, [.failure s])
  else (upd tab (r + rz) (some (newEntry rz s k r)), r + rz, [])

/-! ## Freeing -/

/-- malloc_alloc_entry_type (alloc.c:3974-3985): the kind, the first time. -/
def entryType (e : Entry) : Kind × Entry :=
  if e.checked then (.unknown, e) else (e.kind, { e with checked := true })

/-- malloc_alloc_type (alloc.c:3990-4001). -/
def typeAt (tab : Table) (p : Nat) : Kind × Table :=
  match tab p with
  | none => (.unknown, tab)
  | some e => ((entryType e).1, upd tab p (some (entryType e).2))

/-- The comparison at the end of handle_free_check_mismatch (alloc.c:5251-5288). -/
def compareKinds (k : Kind) (base : Nat) (how : Kind) : List Report :=
  if k ≠ .unknown ∧ k ≠ how then [.mismatch base k how] else []

/-- handle_free_check_mismatch without an entry (alloc.c:5213-5250): the addresses 4 before and 4
after are tried as well. -/
def checkAt (tab : Table) (p : Nat) (how : Kind) : Table × List Report :=
  let a := typeAt tab p
  if a.1 ≠ .unknown then (a.2, compareKinds a.1 p how)
  else
    let b := typeAt a.2 (p - 4)
    if b.1 ≠ .unknown then (b.2, compareKinds b.1 (p - 4) how)
    else
      let c := typeAt b.2 (p + 4)
      (c.2, compareKinds c.1 (p + 4) how)

/-- handle_free_check_mismatch with the entry, as handle_free_pre calls it (alloc.c:5356-5366). -/
def checkFree (tab : Table) (p : Nat) : Table × List Report :=
  match tab p with
  | some e => (upd tab p (some (entryType e).2), compareKinds (entryType e).1 p .malloc)
  | none => checkAt tab p .malloc

/-- The base of the block for the allocator (alloc.c:5372-5374; malloc_entry_is_pre_us, 3955-3960). -/
def realBase (rz p : Nat) (e : Entry) : Nat := if e.preUs && e.valid then p else p - rz

/-- What handle_free_pre leaves: the table, the reports, and the base of the block that goes to the
client, if there is one. -/
structure Freed where
  tab : Table
  reps : List Report
  gone : Option Nat

/-- An operator delete (alloc.c:6663-6677) if `how` is no malloc, and handle_free_pre
(alloc.c:5290-5488).  `inner`: the free is called by the replacement of realloc, and so is not the outer
layer (5356). -/
def freePre (rz p : Nat) (how : Kind) (inner : Bool) (tab : Table) : Freed :=
  let a := if how ≠ .malloc then checkAt tab p how else (tab, [])
  let b := if inner then (a.1, []) else checkFree a.1 p
  match a.1 p with
  | none => { tab := b.1, reps := a.2 ++ b.2 ++ [if p = 0 then .nullFree else .invalid p], gone := none }
  | some e => { tab := upd b.1 p none, reps := a.2 ++ b.2, gone := some (realBase rz p e) }

/-! ## Size queries -/

/-- MALLOC_VISIBLE (alloc.c:2886-2887) of the entry at p, if there is one (malloc_end, 4070-4081). -/
def visible (tab : Table) (p : Nat) : Bool :=
  match tab p with
  | none => false
  | some e => e.valid

/-- malloc_wrap__is_pre_us, for malloc_is_pre_us (alloc.c:4003-4020). -/
def isPreUs (tab : Table) (p : Nat) : Bool :=
  match tab p with
  | none => false
  | some e => e.preUs && e.valid

/-- handle_size_pre (alloc.c:5520-5556): the argument for the allocator, and the reports. -/
def sizePre (rz p : Nat) (tab : Table) : Nat × List Report :=
  if visible tab p then ((if p ≠ 0 ∧ isPreUs tab p = false then p - rz else p), [])
  else (p, [.invalid p])

/-- handle_size_post (alloc.c:5558-5596): the result for the application. -/
def sizePost (rz p res : Nat) (tab : Table) : Nat :=
  if res ≠ 0 ∧ isPreUs tab p = false ∧ p ≠ 0 then (res + (W - rz * 2)) % W else res

/-- malloc_wrap__size, for malloc_chunk_size (alloc.c:4083-4095), which the replacement of realloc asks. -/
def chunkSize (tab : Table) (p : Nat) : Option Nat :=
  match tab p with
  | none => none
  | some e => if e.valid then some (e.stop - p) else none

/-! ## realloc as it is (-no_replace_realloc) -/

/-- malloc_set_valid (alloc.c:3944-3953). -/
def setValid (v : Bool) (p : Nat) (tab : Table) : Table :=
  match tab p with
  | none => tab
  | some e => upd tab p (some { e with valid := v })

/-- handle_realloc_pre (alloc.c:5952-6028) for a pointer that is not NULL: the arguments for the
allocator, whether the pointer was found valid, and what is remembered of it. -/
def reallocPre (rz p n : Nat) (tab : Table) : Nat × Nat × Table × Option Entry × List Report :=
  match tab p with
  | none => (p, n, tab, none, [.invalid p])
  | some e =>
    if e.valid then
      (realBase rz p e, (if n > 0 then grow rz n else n), setValid false p tab, some e, [])
    else (p, n, tab, none, [.invalid p])

/-- handle_realloc_post (alloc.c:6060-6118) after a call that found its pointer valid; `r` is what the
allocator returned.  The flag HAS_REDZONE is taken from the old block. -/
def reallocPost (rz p n r : Nat) (old : Entry) (k : Kind) (tab : Table) : Table × Nat × List Report :=
  if r ≠ 0 then
    if n ≠ 0 then
      (upd tab (r + rz) (some
         { newEntry rz n k r with
           extra := r + (n + rz * 2) - (r + rz + n)
           redzone := old.redzone }), r + rz, [])
    else
      (upd tab r (some
         { newEntry 0 0 k r with
           preUs := true
           redzone := false }), r, [])
  else if n ≠ 0 then (setValid true p tab, 0, [.failure n])
  else (tab, 0, [])

/-! ## The allocator and the application -/

/-- A block of the application: its size, the routine it is from, its base for the allocator, and
whether it is from before the tool. -/
structure Blk where
  size : Nat
  kind : Kind
  real : Nat
  pre : Bool
deriving DecidableEq, Repr

/-- What a thread is at: nothing; a call for `size` bytes that has reached the allocator as a call for
`bytes`; one that the allocator has answered; a free that has reached the allocator. -/
inductive Pend where
  | idle
  | alloc (size : Nat) (kind : Kind) (bytes : Nat)
  | got (size : Nat) (kind : Kind) (r : Nat)
  | freeing (arg : Nat)
deriving DecidableEq, Repr

/-- The table; the blocks of the allocator, with the bytes that may be used; what the application
owns: what it was given and has not freed; what the client keeps; the threads; and whether the
allocator was ever given a pointer that it does not know. -/
structure St where
  tab : Table
  heap : Nat → Option Nat
  own : Nat → Option Blk
  held : List Nat
  pend : Nat → Pend
  bad : Bool

/-- Nothing yet. -/
def St.init : St :=
  { tab := fun _ => none, heap := fun _ => none, own := fun _ => none, held := [], pend := fun _ => .idle,
    bad := false }

/-- The events: a block from before the tool (malloc_wrap__add, alloc.c:3822-3828); calls of malloc and
calloc; the allocator answers; the call returns; a free, with the block that the client lets go of; the
allocator frees. -/
inductive Ev where
  | attach (p size u : Nat)
  | malloc (t n : Nat) (k : Kind)
  | calloc (t n s : Nat) (k : Kind)
  | under (t r u : Nat)
  | post (t : Nat)
  | free (t p : Nat) (how : Kind) (inner : Bool) (ch : Nat)
  | underFree (t : Nat)
deriving DecidableEq, Repr

/-- The entry of a block from before the tool. -/
def preEntry (p size u : Nat) : Entry :=
  { stop := p + size, extra := u - size, valid := true, preUs := true, redzone := false, kind := .unknown,
    checked := false }

/-- The allocator frees: NULL is nothing, an unknown pointer is an error. -/
def heapFree (a : Nat) (s : St) : St :=
  if a = 0 then s
  else match s.heap a with
    | some _ => { s with heap := upd s.heap a none }
    | none => { s with bad := true }

/-- A step, and what is reported.  (The pointer that `post` gives to the application is `ret`.) -/
def step (rz : Nat) (s : St) : Ev → St × List Report
  | .attach p size u =>
    ({ s with
       tab := upd s.tab p (some (preEntry p size u))
       heap := upd s.heap p (some u)
       own := upd s.own p (some ⟨size, .unknown, p, true⟩) }, [])
  | .malloc t n k => ({ s with pend := upd s.pend t (.alloc n k (grow rz n)) }, [])
  | .calloc t n m k =>
    ({ s with pend := upd s.pend t (.alloc (n * m % W) k ((callocArgs rz n m).1 * (callocArgs rz n m).2)) }, [])
  | .under t r u =>
    match s.pend t with
    | .alloc n k _ =>
      ({ s with
         heap := if r = 0 then s.heap else upd s.heap r (some u)
         pend := upd s.pend t (.got n k r) }, [])
    | _ => (s, [])
  | .post t =>
    match s.pend t with
    | .got n k r =>
      let a := allocPost rz n k r s.tab
      ({ s with
         tab := a.1
         own := if a.2.1 = 0 then s.own else upd s.own a.2.1 (some ⟨n, k, r, false⟩)
         pend := upd s.pend t .idle }, a.2.2)
    | _ => (s, [])
  | .free t p how inner ch =>
    let f := freePre rz p how inner s.tab
    match f.gone with
    | none => ({ s with tab := f.tab, pend := upd s.pend t (.freeing p) }, f.reps)
    | some r =>
      ({ s with
         tab := f.tab
         own := upd s.own p none
         held := (r :: s.held).erase ch
         pend := upd s.pend t (.freeing ch) }, f.reps)
  | .underFree t =>
    match s.pend t with
    | .freeing a => ({ heapFree a s with pend := upd s.pend t .idle }, [])
    | _ => (s, [])

/-- The pointer that a call returns to the application. -/
def ret (rz : Nat) (s : St) (t : Nat) : Nat :=
  match s.pend t with
  | .got n k r => (allocPost rz n k r s.tab).2.1
  | _ => 0

/-- Room for a block of the allocator: nothing else is there. -/
def Fresh (s : St) (r u : Nat) : Prop :=
  0 < r ∧ 0 < u ∧ r + u ≤ top ∧ ∀ r' u', s.heap r' = some u' → r' + u' ≤ r ∨ r + u ≤ r'

/-- What can happen: an allocator that fails or gives out at least what it is asked for, where nothing
else is; a client that keeps the block, or lets go of it or of one that it has kept. -/
def enabled (rz : Nat) (s : St) : Ev → Prop
  | .attach p size u => size ≤ u ∧ Fresh s p u
  | .malloc t n k => s.pend t = .idle ∧ n < W ∧ k ≠ .unknown
  | .calloc t n m k => s.pend t = .idle ∧ n < W ∧ m < W ∧ k ≠ .unknown
  | .under t r u => ∃ n k b, s.pend t = .alloc n k b ∧ (r = 0 ∨ (Fresh s r u ∧ b ≤ u))
  | .post t => ∃ n k r, s.pend t = .got n k r
  | .free t p how inner ch => s.pend t = .idle ∧ how ≠ .unknown ∧ (inner = true → how = .malloc) ∧
      (ch = 0 ∨ (freePre rz p how inner s.tab).gone = some ch ∨ ch ∈ s.held)
  | .underFree t => ∃ a, s.pend t = .freeing a

end Verif.Wrap
