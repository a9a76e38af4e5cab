import Verif.Modules

/-!
# Packed callstacks of common/callstack.c

* A `modname_info_t *` is the module's path (see `Modules.lean`); its `index` field is found in
  `Names.tbl`.  The other fields are left out.
* The contents of a `syscall_loc_t` are a number; they are copied and compared as a whole.
* The frame walk itself (`print_callstack`) is in `Walk.lean`; here the list of addresses it hands to
  `address_to_frame` is an argument of `record`, and the number of frames is taken to fit the
  `ushort num_frames`.  `first_is_retaddr` takes part in none of the functions below.
* `none` as a result stands for undefined behaviour: following a `NULL` entry of `modname_array` or
  a signed overflow.
-/
namespace Verif.Cs
open Verif.RB Verif.Regions

/-- `MAX_MODOFFS_STORED` (common/callstack.c:182). -/
def maxOffs : Nat := 0xffffff

/-- `MAX_MODNAMES_STORED`, `UCHAR_MAX` (common/callstack.c:219). -/
def maxNames : Nat := 255

/-- `modname_table` (path to `index`, -1 for none), `modname_array` and `modname_array_end`
(common/callstack.c:211-222). -/
structure Names where
  tbl : List (Nat × Int) := []
  arr : Nat → Option Nat := fun _ => none
  last : Nat := 1

/-- The loop that gives the module one entry per 16M (common/callstack.c:2760-2781).  The flag says
that the array is full and the index becomes -1. -/
def fill (path sz : Nat) (arr : Nat → Option Nat) (last : Nat) : (Nat → Option Nat) × Nat × Bool :=
  if h : last ≥ maxNames then (arr, last, true)
  else
    let arr := fun i => if i = last then some path else arr i
    if sz ≤ maxOffs then (arr, last + 1, false)
    else fill path (sz - maxOffs) arr (last + 1)
  termination_by maxNames - last

/-- `add_new_module` (common/callstack.c:2724-2794). -/
def addNewModule (m : Mod) (n : Names) : Names :=
  match n.tbl.lookup m.path with
  | some _ => n
  | none =>
    let r := fill m.path (sub64 m.stop m.start) n.arr n.last
    { tbl := (m.path, if r.2.2 then -1 else (n.last : Int)) :: n.tbl, arr := r.1, last := r.2.1 }

/-- `frame_loc_t` (common/callstack.c:107-115): an address or the contents of `*sysloc`. -/
inductive Loc
  | addr (a : Nat)
  | sys (s : Nat)
  deriving DecidableEq, Repr

/-- `packed_frame_t` (common/callstack.c:120-141). -/
structure PFrame where
  loc : Loc
  modoffs : Nat
  idx : Nat
  deriving DecidableEq, Repr

/-- The field `modname` of a full frame: `NULL`, `&MODNAME_INFO_SYSCALL` or a module. -/
inductive MName
  | null
  | sys
  | mod (path : Nat)
  deriving DecidableEq, Repr

/-- `full_frame_t` (common/callstack.c:169-177). -/
structure FFrame where
  loc : Loc
  modoffs : Nat
  modname : MName
  deriving DecidableEq, Repr

/-- The frame array (`NULL` is `none`) of either kind (`is_packed`, common/callstack.c:184-200). -/
inductive Frames
  | packed (l : Option (List PFrame))
  | full (l : Option (List FFrame))
  deriving DecidableEq, Repr

/-- `packed_callstack_t` without the reference count (common/callstack.c:184-200). -/
structure Pcs where
  frames : Frames
  firstSys : Bool
  deriving DecidableEq, Repr

/-- The loop splitting an offset into array index and remainder (common/callstack.c:906-915). -/
def split (sz : Nat) (idx : Int) : Nat × Int :=
  if sz > maxOffs then
    if idx + 1 = maxNames then (sz - maxOffs, idx) else split (sz - maxOffs) (idx + 1)
  else (sz, idx)
  termination_by sz
  decreasing_by unfold maxOffs; unfold maxOffs at *; omega

/-- The packed frame of an address (common/callstack.c:893-917 and 943-947); `r` is the answer of
`module_lookup`.  The stores truncate to 24 and 8 bits. -/
def packFrame (n : Names) (pc : Nat) (r : Option (Nat × Nat)) : PFrame :=
  match r with
  | some (start, path) =>
    let q := split (sub64 pc start) ((n.tbl.lookup path).getD 0)
    ⟨.addr pc, q.1 % 2 ^ 24, (q.2 % 256).toNat⟩
  | none => ⟨.addr pc, maxOffs, maxNames⟩

/-- The full frame of an address (common/callstack.c:919-922 and 948-951). -/
def fullFrame (pc : Nat) (r : Option (Nat × Nat)) : FFrame :=
  match r with
  | some (start, path) => ⟨.addr pc, sub64 pc start, .mod path⟩
  | none => ⟨.addr pc, 0, .null⟩

/-- `address_to_frame` filling a packed callstack (common/callstack.c:872-956) on each address of a
list in turn: the frames appended to the given one, as (pc, module start and name).  An address
outside all modules is left out if its `skip_non_module` is set. -/
def walk : List (Nat × Bool) → Tr → Tr × List (Nat × Option (Nat × Nat))
  | [], s => (s, [])
  | (pc, skip) :: rest, s =>
    let q := moduleLookup pc s
    let w := walk rest q.1
    match q.2 with
    | some (start, _, info) => (w.1, (pc, some (start, info)) :: w.2)
    | none => (w.1, if skip then w.2 else (pc, none) :: w.2)

/-- A frame array, `NULL` if empty (common/callstack.c:2167-2191). -/
def nonNull {α : Type} (l : List α) : Option (List α) := if l.isEmpty then none else some l

/-- `packed_callstack_record` (common/callstack.c:2112-2193).  `sys` is the system call of the first
frame, if any; `junk` is the uninitialised `modoffs` of the system-call frame; the first element of
`pcs` is `loc_to_pc(loc)` if there is a non-system-call location. -/
def record (junk : Nat) (sys : Option Nat) (pcs : List (Nat × Bool)) (n : Names) (s : Tr) :
    Tr × Pcs :=
  let w := walk pcs s
  if n.last < maxNames then
    let l := w.2.map fun (pc, r) => packFrame n pc r
    match sys with
    | some x => (w.1, ⟨.packed (nonNull (⟨.sys x, junk, 0⟩ :: l)), true⟩)
    | none => (w.1, ⟨.packed (nonNull l), false⟩)
  else
    let l := w.2.map fun (pc, r) => fullFrame pc r
    match sys with
    | some x => (w.1, ⟨.full (nonNull (⟨.sys x, junk, .sys⟩ :: l)), true⟩)
    | none => (w.1, ⟨.full (nonNull l), false⟩)

/-- What `packed_callstack_frame_modinfo` delivers: `false` for a system call, else the name and
the offset. -/
inductive Dec
  | sys
  | mod (name : Option Nat) (offs : Nat)
  deriving DecidableEq, Repr

/-- `packed_callstack_frame_modinfo`, full frames (common/callstack.c:2212-2219). -/
def decFull (f : FFrame) : Option Dec :=
  match f.modname with
  | .sys => some .sys
  | .mod p => some (.mod (some p) f.modoffs)
  | .null => some (.mod none f.modoffs)

/-- `packed_callstack_frame_modinfo`, packed frames (common/callstack.c:2220-2240).  The product
`(idx - start_idx) * MAX_MODOFFS_STORED` is computed in `int`. -/
def decPacked (n : Names) (f : PFrame) : Option Dec :=
  if f.idx = 0 then some .sys
  else if f.modoffs < maxOffs then
    (n.arr f.idx).bind fun path =>
    (n.tbl.lookup path).bind fun start =>
    if start < f.idx then
      if ((f.idx : Int) - start) * maxOffs < 2 ^ 31 then
        some (.mod (some path) (f.modoffs + (((f.idx : Int) - start) * maxOffs).toNat))
      else none
    else some (.mod (some path) f.modoffs)
  else some (.mod none 0)

/-- `PCS_FRAME_LOC` and `packed_callstack_frame_modinfo` for every frame. -/
def decode (n : Names) (p : Pcs) : List (Loc × Option Dec) :=
  match p.frames with
  | .packed l => (l.getD []).map fun f => (f.loc, decPacked n f)
  | .full l => (l.getD []).map fun f => (f.loc, decFull f)

/-- `PCS_FRAME_LOC` of every frame (common/callstack.c:203-204). -/
def Pcs.locs (p : Pcs) : List Loc :=
  match p.frames with
  | .packed l => (l.getD []).map PFrame.loc
  | .full l => (l.getD []).map FFrame.loc

/-- `packed_callstack_hash` (common/callstack.c:2468-2478): the exclusive or of the low halves of
the addresses, without the first frame of a system-call stack. -/
def hash (p : Pcs) : UInt32 :=
  (if p.firstSys then p.locs.tail else p.locs).foldl (init := 0) fun h l =>
    match l with
    | .addr a => h ^^^ UInt32.ofNat a
    | .sys _ => h

/-- One turn of the comparison loop (common/callstack.c:2500-2523). -/
def cmpFrame (a b : Loc × Option Dec) : Option Bool :=
  match a.2, b.2 with
  | some .sys, some .sys => some (decide (a.1 = b.1))
  | some (.mod i1 o1), some (.mod i2 o2) => some (decide (a.1 = b.1 ∧ i1 = i2 ∧ o1 = o2))
  | some _, some _ => some false
  | _, _ => none

/-- The comparison loop. -/
def cmpFrames : List (Loc × Option Dec) → List (Loc × Option Dec) → Option Bool
  | a :: as, b :: bs =>
    match cmpFrame a b with
    | some true => cmpFrames as bs
    | r => r
  | _, _ => some true

/-- `PCS_FRAMES(pcs) == NULL` (common/callstack.c:205). -/
def Pcs.isNull (p : Pcs) : Bool :=
  match p.frames with
  | .packed l => l.isNone
  | .full l => l.isNone

/-- `num_frames`. -/
def Pcs.num (p : Pcs) : Nat :=
  match p.frames with
  | .packed l => (l.getD []).length
  | .full l => (l.getD []).length

/-- `packed_callstack_cmp` (common/callstack.c:2480-2526).  `memcmp` on frames without padding
compares all fields. -/
def cmp (n : Names) (p q : Pcs) : Option Bool :=
  if p.isNull then some q.isNull
  else if q.isNull then some false
  else if p.num ≠ q.num then some false
  else if p.firstSys = false ∧ q.firstSys = false then
    match p.frames, q.frames with
    | .packed a, .packed b => some (decide (a = b))
    | .full a, .full b => some (decide (a = b))
    | _, _ => cmpFrames (decode n p) (decode n q)
  else cmpFrames (decode n p) (decode n q)

/-- `packed_callstack_clone` (common/callstack.c:2429-2466).  `z` says whether an allocation of size
0 is `NULL`. -/
def clone (z : Bool) (p : Pcs) : Pcs :=
  match p.frames with
  | .packed l => { p with frames := .packed (if z ∧ (l.getD []).isEmpty then none else some (l.getD [])) }
  | .full l => { p with frames := .full (if z ∧ (l.getD []).isEmpty then none else some (l.getD [])) }

end Verif.Cs
