/-
Model of what the shadow memory is told about the application's mappings and thread stacks on Linux:
`mmap`, `munmap`, `mremap` (common/alloc.c:4440-4452, 4780-4875; drmemory/alloc_drmem.c:1087-1204),
`mmap_walk` (drmemory/drmemory.c:745-849), `clone` (drmemory/syscall_linux.c:78-172), and the list of
process names for which checking stays on (drmemory/syscall_linux.c:176-244).

Simplifications, valid for the whole file:
* addresses are natural numbers that do not wrap; `-shadowing` is on;
* the shadow is a function from bytes to three states (the exactness of `shadow_set_range` and
  `shadow_copy_range` on the packed shadow is C09 and C11);
* the red-black tree of anonymous mappings is a list of ranges (that the tree behaves as its set of
  ranges is C15 and C19); the loop in `mmap_tree_remove` is one pass over the list;
* the list of heap regions is left out (C18).
-/

namespace Verif.Mapping

/-- The states of a byte (drmemory/shadow.h:33-56; the fourth, for bit-level tracking, never arises
here). -/
inductive Sh where
  | unaddr | undef | defined
deriving DecidableEq, Repr

/-- The shadow memory: one state for each byte. -/
abbrev Shadow := Nat → Sh

/-- drmemory/shadow.c:603-655 `shadow_set_range`. -/
def setRange (sh : Shadow) (a b : Nat) (v : Sh) : Shadow :=
  fun x => if a ≤ x ∧ x < b then v else sh x

/-- drmemory/shadow.c:660-730 `shadow_copy_range`, for ranges that are equal or disjoint (the kernel
refuses to move a mapping onto itself). -/
def copyRange (sh : Shadow) (old new n : Nat) : Shadow :=
  fun x => if new ≤ x ∧ x < new + n then sh (old + (x - new)) else sh x

/-- `PAGE_SIZE`. -/
def pg : Nat := 4096

/-- A range of the table of anonymous mappings: base and size. -/
abbrev Node := Nat × Nat

/-- The test in common/redblack.c:545-566 `rb_overlaps_node` (:553): do `[b, b+s)` and the node share
a byte?  For `s = 0`: is `b` strictly inside the node? -/
def over (b s : Nat) (n : Node) : Bool := decide (b < n.1 + n.2 ∧ n.1 < b + s)

/-- drmemory/alloc_drmem.c:273-293 `mmap_tree_add`.  One overlapping range is merged with the new one;
if the merged range still overlaps another it is not inserted (`ASSERT`, :290). -/
def treeAdd (b s : Nat) (t : List Node) : List Node :=
  match t.find? (over b s) with
  | none => (b, s) :: t
  | some n =>
    let t' := t.erase n
    let mb := min b n.1
    let me := max (b + s) (n.1 + n.2)
    if t'.any (over mb (me - mb)) then t' else (mb, me - mb) :: t'

/-- What is left of one range of the table (drmemory/alloc_drmem.c:310-320). -/
def cut (b s : Nat) (n : Node) : List Node :=
  if over b s n then
    (if n.1 < b then [(n.1, b - n.1)] else []) ++
    (if b + s < n.1 + n.2 then [(b + s, n.1 + n.2 - (b + s))] else [])
  else [n]

/-- drmemory/alloc_drmem.c:295-327 `mmap_tree_remove`: the table afterwards, and whether the range was
in it. -/
def treeRemove (b s : Nat) (t : List Node) : List Node × Bool :=
  (t.flatMap (cut b s), t.any (over b s))

/-- drmemory/alloc_drmem.c:329-341 `mmap_anon_lookup`. -/
def treeLookup (a : Nat) (t : List Node) : Option Node :=
  t.find? fun n => decide (n.1 ≤ a ∧ a < n.1 + n.2)

/-- The answer of `dr_query_memory_ex`: the range around the address, whether nothing in it may be
accessed (`prot == DR_MEMPROT_NONE`, also the answer for free memory) and whether it belongs to an
image (`type == DR_MEMTYPE_IMAGE`). -/
structure Piece where
  base : Nat
  size : Nat
  noprot : Bool
  image : Bool
deriving DecidableEq, Repr

/-- What the tool asks the core: `dr_query_memory_ex` (`none` when it fails) and `dr_lookup_module`
(the end of the module). -/
structure Sys where
  query : Nat → Option Piece
  modEnd : Nat → Option Nat

/-- The loop of `mmap_walk` (drmemory/drmemory.c:819-846), `n` rounds at most: `stop` is the end of the
module, `lim` is `start+size` unless the size is zero.  The shadow and where the walk ended; `none` if
the rounds do not suffice. -/
def walkLoop (y : Sys) (stop : Nat) (lim : Option Nat) (add : Bool) :
    Nat → Nat → Shadow → Option (Shadow × Nat)
  | 0, _, _ => none
  | n + 1, pc, sh =>
    if pc < stop ∧ (∀ l ∈ lim, pc < l) then
      match y.query pc with
      | none => some (sh, pc)
      | some p =>
        if p.noprot then
          walkLoop y stop lim add n (p.base + p.size)
            (if add then sh else setRange sh pc (pc + p.size) .unaddr)
        else
          walkLoop y stop lim add n (p.base + p.size)
            (setRange sh pc (p.base + p.size) (if add then .defined else .unaddr))
    else some (sh, pc)

/-- The end of the walk (drmemory/drmemory.c:808-813): of the module, or one page on. -/
def walkStop (y : Sys) (start : Nat) : Nat := (y.modEnd start).getD (start + pg)

/-- drmemory/drmemory.c:745-849 `mmap_walk` (Linux part from :801); every round advances, so as many
rounds as bytes suffice. -/
def walk (y : Sys) (start size : Nat) (add : Bool) (sh : Shadow) : Option Shadow :=
  (walkLoop y (walkStop y start) (if size = 0 then none else some (start + size)) add
    (walkStop y start - start + 1) start sh).map (·.1)

/-- The state: the shadow memory and the table of anonymous mappings (`mmap_tree`). -/
structure St where
  sh : Shadow
  tab : List Node

/-- `result > 0 || result < -PAGE_SIZE` (common/alloc.c:4786, 4850), for the 64-bit result taken as a
natural number. -/
def mapOk (r : Nat) : Bool :=
  decide ((0 < r ∧ r < 2 ^ 63) ∨ (2 ^ 63 ≤ r ∧ r < 2 ^ 64 - pg))

/-- After a successful `mmap` (common/alloc.c:4787-4811, drmemory/alloc_drmem.c:1110-1131). -/
def mmapPost (y : Sys) (anon inHeap : Bool) (b s : Nat) (st : St) : Option St :=
  if anon then
    some
      { sh := if inHeap then st.sh else setRange st.sh b (b + s) .defined
        tab := treeAdd b s st.tab }
  else (walk y b s true st.sh).map fun sh => { st with sh := sh }

/-- `mmap` (common/alloc.c:4782-4828): nothing happens if it failed. -/
def mmap (y : Sys) (anon inHeap : Bool) (s r : Nat) (st : St) : Option St :=
  if mapOk r then mmapPost y anon inHeap r s st else some st

/-- Before `munmap` (common/alloc.c:4440-4448, drmemory/alloc_drmem.c:1149-1153). -/
def munmapPre (y : Sys) (b s : Nat) (st : St) : Option St :=
  let t := treeRemove b s st.tab
  if t.2 then
    some
      { sh := setRange st.sh b (b + s) .unaddr
        tab := t.1 }
  else
    (walk y b s false st.sh).map fun sh =>
      { sh := sh
        tab := t.1 }

/-- After a failed `munmap` (common/alloc.c:4830-4838, drmemory/alloc_drmem.c:1160-1179).  A failed
query leaves `info` as it was (`ASSERT`, :4837): not modelled, `none`. -/
def munmapFail (y : Sys) (b s : Nat) (st : St) : Option St :=
  match y.query b with
  | none => none
  | some p =>
    if p.image then (walk y b s true st.sh).map fun sh => { st with sh := sh }
    else
      some
        { sh := setRange st.sh b (b + s) .defined
          tab := treeAdd b s st.tab }

/-- `munmap` from before to after (common/alloc.c:4440-4448, 4829-4842): `y` as seen before the call,
`ok` whether the kernel did it (`result >= 0`), `y'` as seen afterwards. -/
def munmap (y y' : Sys) (ok : Bool) (b s : Nat) (st : St) : Option St :=
  (munmapPre y b s st).bind fun st' => if ok then some st' else munmapFail y' b s st'

/-- After a successful `mremap` (common/alloc.c:4851-4864, drmemory/alloc_drmem.c:1183-1203). -/
def mremapPost (image : Bool) (ob os nb ns : Nat) (st : St) : St :=
  let shrink := decide (ns < os)
  let sh := copyRange st.sh ob nb (if shrink then ns else os)
  let sh :=
    if shrink then setRange sh (ob + ns) (ob + os) .unaddr
    else setRange sh (nb + os) (nb + ns) (if image then .defined else .undef)
  let t := treeRemove ob os st.tab
  { sh := sh
    tab := if t.2 then treeAdd nb ns t.1 else t.1 }

/-- `mremap` (common/alloc.c:4844-4875): nothing happens if it failed.  A failed query is not modelled
(`none`). -/
def mremap (y : Sys) (ob os ns r : Nat) (st : St) : Option St :=
  if mapOk r then (y.query r).map fun p => mremapPost p.image ob os r ns st else some st

/-! ## Thread stacks -/

/-- `BEYOND_TOS_REDZONE_SIZE` on 64-bit x86 (drmemory/stack.h:50-54). -/
def redzone : Nat := 128

/-- `MIN_SWAP_THRESHOLD` (drmemory/stack.c:70). -/
def minThresh : Nat := 2048

/-- Is the aligned dword around `a` wholly unaddressable? -/
def dwUnaddr (sh : Shadow) (a : Nat) : Bool :=
  (List.range 4).all fun i => decide (sh (a / 4 * 4 + i) = .unaddr)

/-- drmemory/shadow.c:894-934 `shadow_prev_dword` for unaddressable dwords, `n` blocks at most; `blk`
is the number of bytes a shadow block describes.  In a block shared by many addresses all dwords are
alike, so its case (:910-913) is the search itself. -/
def prevDword (blk : Nat) (sh : Shadow) : Nat → Nat → Nat → Option Nat
  | 0, _, _ => none
  | n + 1, pc, stop =>
    if stop < pc then
      match (List.range ((pc - pc / blk * blk) / 4 + 1)).find? fun k => dwUnaddr sh (pc - 4 * k) with
      | some k => if stop < pc - 4 * k then some (pc - 4 * k) else none
      | none => prevDword blk sh n (pc / blk * blk - 1) stop
    else none

/-- What `handle_clone` asks of the rest of the tool: is the address in a heap region, the large
allocation around it (`malloc_large_lookup`), the size of the allocation starting at an address
(`malloc_chunk_size`, `none` for -1), `dr_query_memory`, the size of a shadow block, the options
`-check_stack_bounds` and `-stack_swap_threshold`. -/
structure Cfg where
  inHeap : Nat → Bool
  large : Nat → Option Node
  chunk : Nat → Option Nat
  query : Nat → Option Node
  blk : Nat
  bounds : Bool
  thresh : Nat

/-- The bounds of the new stack (drmemory/syscall_linux.c:97-149); the base zero stands for none
(:150). -/
def stackOf (c : Cfg) (st : St) (sp : Nat) : Option Node :=
  if c.inHeap sp then
    match c.large sp with
    | some n => some n
    | none =>
      match prevDword c.blk st.sh (c.thresh + 1) sp (sp - c.thresh) with
      | none => none
      | some pc =>
        match c.chunk (pc + 1) with
        | some sz => if 0 < sz then some (pc + 1, sz) else none
        | none => none
  else
    match treeLookup sp st.tab with
    | some n => some n
    | none => c.query (sp - 1)

/-- The shadow after the stack's bounds are known (drmemory/syscall_linux.c:155-165). -/
def markStack (sh : Shadow) (base sp : Nat) : Shadow :=
  let sh := setRange sh base sp .unaddr
  let rz := if sp - redzone < base then sp - base else redzone
  setRange sh (sp - rz) sp .undef

/-- drmemory/syscall_linux.c:78-172 `handle_clone`, with `check_stack_size_vs_threshold`
(drmemory/stack.c:72-97): the state and the stack swap threshold.  `vm` is `CLONE_VM`.  The call is
made before the system call, and nothing follows it if the system call fails (:280-295). -/
def clone (c : Cfg) (vm : Bool) (sp : Nat) (st : St) : St × Nat :=
  if vm && sp != 0 then
    match stackOf c st sp with
    | some n =>
      if n.1 ≠ 0 ∧ c.bounds then
        ({ st with sh := markStack st.sh n.1 sp },
          if n.2 < c.thresh ∧ minThresh < c.thresh then minThresh else c.thresh)
      else (st, c.thresh)
    | none => (st, c.thresh)
  else (st, c.thresh)

/-! ## Process names -/

/-- `PRCTL_NAME_SZ` (drmemory/syscall_linux.c:174). -/
def nameSz : Nat := 16

/-- The name as read (drmemory/syscall_linux.c:184-189): sixteen bytes up to the first zero. -/
def nameOf (bytes : List Char) : List Char := (bytes.take nameSz).takeWhile (· ≠ Char.ofNat 0)

/-- The loop over the list (drmemory/syscall_linux.c:191-206): does an entry begin the name
(`strncmp` with the length of the entry)? -/
def onList : Nat → List Char → List Char → Bool
  | 0, _, _ => false
  | n + 1, s, nm =>
    if s = [] then false
    else
      let e := s.takeWhile (· ≠ ',')
      if e.isPrefixOf nm then true else onList n (s.drop (e.length + 1)) nm

/-- `PR_SET_NAME` and `PR_GET_NAME` of the Linux headers. -/
def prSetName : Nat := 15

/-- drmemory/syscall_linux.c:228-244 `handle_pre_prctl` with `check_prctl_allowlist` (:176-226): is
checking switched off?  `name` is what `safe_read` of sixteen bytes gives. -/
def prctlOff (list : List Char) (req : Nat) (name : Option (List Char)) : Bool :=
  if req = prSetName ∧ list ≠ [] then
    match name with
    | none => false
    | some bytes => !onList (list.length + 1) list (nameOf bytes)
  else false

end Verif.Mapping
