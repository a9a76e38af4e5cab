import Verif.UmbraRange

/-!
# Two-bit shadow memory (drmemory/shadow.c)

Built on the Umbra model.  64-bit: there are no shared ("special") shadow blocks, so a block is
either allocated or not.  Only the 2-bits-per-byte mode is modelled (`MAP_4B_TO_1B` false).
All addresses lie in supported application segments (never `NOT_SHADOW`).
-/
namespace Verif.Shadow

open Verif.Umbra

/-- Dr. Memory's map on 64-bit: scale down 4X, default `SHADOW_DWORD_UNADDRESSABLE`,
create on touch (drmemory/shadow.c:255-289), 64 KB shadow blocks and therefore 256 KB application
blocks (umbra/umbra_64.c:856-901). -/
def dm : Cfg := { B := 262144, m := 1, g := 4, dflt := 0x55, onTouch := true }

/-- `SHADOW_UNADDRESSABLE`, `SHADOW_UNDEFINED`, `SHADOW_DEFINED`, `SHADOW_DEFINED_BITLEVEL`
(drmemory/shadow.h:53-56). -/
def UNADDRESSABLE : UInt32 := 1
@[inherit_doc UNADDRESSABLE] def UNDEFINED : UInt32 := 3
@[inherit_doc UNADDRESSABLE] def DEFINED : UInt32 := 0
@[inherit_doc UNADDRESSABLE] def BITLEVEL : UInt32 := 2

/-- The part of `umbra_shadow_memory_info_t` that matters: application block number and whether
the type was `NOT_ALLOC`; `none` after `umbra_shadow_memory_info_init`
(umbra/umbra.h, umbra/umbra_64.c:1394-1439). -/
abbrev Info := Option (Nat × Bool)

/-- Refresh the info unless it already covers the address (drmemory/shadow.c:362-370);
a stale allocation flag is kept, as in the code. -/
def fetch (s : St) (info : Info) (addr : Nat) : Nat × Bool :=
  match info with
  | some (k, al) => if k * dm.B ≤ addr ∧ addr < k * dm.B + dm.B then (k, al)
                    else (addr / dm.B, s.ex (addr / dm.B))
  | none => (addr / dm.B, s.ex (addr / dm.B))

/-- The `w`-th little-endian `uint` of the shadow of block `k` (type `bitmap_t`). -/
def word (mem : Nat → UInt8) (k w : Nat) : UInt32 :=
  let b := fun j => (mem (scale dm (k * dm.B) + 4 * w + j)).toUInt32
  b 0 ||| (b 1 <<< 8) ||| (b 2 <<< 16) ||| (b 3 <<< 24)

/-- Store a little-endian `uint`. -/
def putWord (mem : Nat → UInt8) (k w : Nat) (v : UInt32) : Nat → UInt8 :=
  let p := scale dm (k * dm.B) + 4 * w
  fun t => if t = p then v.toUInt8
           else if t = p + 1 then (v >>> 8).toUInt8
           else if t = p + 2 then (v >>> 16).toUInt8
           else if t = p + 3 then (v >>> 24).toUInt8
           else mem t

/-- `BITMAPx2_SHIFT(i)` (drmemory/shadow.c:57). -/
def bmShift (i : Nat) : UInt32 := UInt32.ofNat ((i % 16) * 2)

/-- `bitmapx2_get` on a word (drmemory/shadow.c:63-69). -/
def get2 (w : UInt32) (i : Nat) : UInt32 := (w >>> bmShift i) &&& 3

/-- `set_2bits_inline` (drmemory/shadow.c:72-80). -/
def set2bits (orig val shift : UInt32) : UInt32 :=
  (orig &&& (((0xfffffffc ||| val) <<< shift) ||| ~~~(0xffffffff <<< shift))) ||| (val <<< shift)

/-- `shadow_get_byte` (drmemory/shadow.c:357-381). -/
def getByte (s : St) (info : Info) (addr : Nat) : Info × UInt32 :=
  let (k, al) := fetch s info addr
  (some (k, al),
   if al then
     let idx := addr - k * dm.B
     get2 (word s.mem k (idx / 16)) idx
   else UNADDRESSABLE)

/-- `shadow_set_byte` (drmemory/shadow.c:451-511) for 64-bit.  A creation failure is the
`dr_abort` of line 495. -/
def setByte (s : St) (info : Info) (addr : Nat) (val : UInt32) : Res (St × Info) := do
  let (k, al) := fetch s info addr
  let (s, al, nop) ←
    if al then pure (s, true, false)
    else if val = (getByte s (some (k, al)) addr).2 then pure (s, al, true)
    else do
      let s ← create dm (k * dm.B) dm.B dm.dflt s
      pure (s, s.ex (addr / dm.B), false)
  if nop then pure (s, some (k, al))
  else
    let idx := addr - k * dm.B
    let w := word s.mem k (idx / 16)
    pure ({ s with mem := putWord s.mem k (idx / 16) (set2bits w val (bmShift idx)) },
          some (k, al))

/-- The byte-wise loops of `shadow_set_range` (drmemory/shadow.c:625-632, 645-653), `n` bytes
from `pc`. -/
def setBytes (val : UInt32) : Nat → Nat → St → Info → Res (St × Info)
  | 0, _, s, info => pure (s, info)
  | n + 1, pc, s, info => do
    let (s, info) ← setByte s info pc val
    setBytes val n (pc + 1) s info

/-- `ALIGN_FORWARD(x, 4)` on a 64-bit pointer. -/
def alignFwd4 (x : Nat) : Nat := (x + 3) % top / 4 * 4

/-- `ALIGN_BACKWARD(x, 4)`. -/
def alignBack4 (x : Nat) : Nat := x / 4 * 4

/-- `shadow_value_byte_2_dword` (drmemory/shadow.c:221-234). -/
def byte2dword (val : UInt32) : UInt8 :=
  if val = UNADDRESSABLE then 0x55
  else if val = UNDEFINED then 0xff
  else if val = DEFINED then 0x00
  else if val = BITLEVEL then 0xaa
  else 0x55

/-- `shadow_set_range` (drmemory/shadow.c:603-655). -/
def setRange (s : St) (start stop : Nat) (val : UInt32) : Res St :=
  if start ≥ stop then pure s
  else do
    let aStart := alignFwd4 start
    let aEnd := alignBack4 stop
    let (s, info) ← setBytes val (min aStart stop - start) start s none
    let s ← if aEnd > aStart then do
        let (s, _) ← Umbra.setRange dm aStart (aEnd - aStart) (byte2dword val) s
        pure s
      else pure s
    if aEnd ≥ aStart then do
      let (s, _) ← setBytes val (stop - aEnd) aEnd s info
      pure s
    else pure s

/-- Reading `n` consecutive bytes with one info (drmemory/shadow.c:688-689, 704-705, 709-710). -/
def getBytes (s : St) : Nat → Nat → Info → Info × List UInt32
  | 0, _, info => (info, [])
  | n + 1, pc, info =>
    let (info, v) := getByte s info pc
    let (info, vs) := getBytes s n (pc + 1) info
    (info, v :: vs)

/-- Writing consecutive bytes (drmemory/shadow.c:690-691, 721-723, 727-728). -/
def putBytes : List UInt32 → Nat → St → Info → Res (St × Info)
  | [], _, s, info => pure (s, info)
  | v :: vs, pc, s, info => do
    let (s, info) ← setByte s info pc v
    putBytes vs (pc + 1) s info

/-- `shadow_copy_range` (drmemory/shadow.c:660-730).  The loop counters are `uint`; the model is
for sizes below 2^32, where they do not wrap. -/
def copyRange (s : St) (old new size : Nat) : Res St := do
  let head := old % 4
  if head ≠ new % 4 then
    let (_, temp) := getBytes s size old none
    let (s, _) ← putBytes temp new s none
    pure s
  else
    let oldEnd := old + size
    let tail := oldEnd % 4
    let (info, headVal) := getBytes s (if head ≠ 0 then 4 - head else 0) old none
    let oldEnd := if tail ≠ 0 then alignBack4 oldEnd else oldEnd
    let (_, tailVal) := getBytes s tail oldEnd info
    let oldPc := alignFwd4 old
    let s ← if oldEnd > oldPc then do
        let (s, _) ← Umbra.copy dm oldPc (alignFwd4 new) (oldEnd - oldPc) s
        pure s
      else pure s
    let (s, info) ← putBytes headVal new s none
    let (s, _) ← putBytes tailVal (alignBack4 (new + size)) s info
    pure s

/-- `shadow_set_non_matching_range` (drmemory/shadow.c:732-752). -/
def setNonMatching (val valNot : UInt32) : Nat → Nat → St → Info → Res (St × Info)
  | 0, _, s, info => pure (s, info)
  | n + 1, pc, s, info => do
    let (info, v) := getByte s info pc
    let (s, info) ← if v ≠ valNot then setByte s info pc val else pure (s, info)
    setNonMatching val valNot n (pc + 1) s info

/-- `dqword_to_val` (drmemory/shadow.c:754-765); `none` is `UINT_MAX`. -/
def dqwordToVal (d : UInt32) : Option UInt32 :=
  if d = 0x55555555 then some UNADDRESSABLE
  else if d = 0xffffffff then some UNDEFINED
  else if d = 0x00000000 then some DEFINED
  else if d = 0xaaaaaaaa then some BITLEVEL
  else none

/-- What `shadow_check_range` hands back: the result and, when false, `*bad_start`, `*bad_state`
and `*bad_end`. -/
structure Check where
  res : Bool
  badStart : Option Nat
  badState : Option UInt32
  badEnd : Option Nat
  deriving DecidableEq, Repr

/-- Value and increment of one round of the `shadow_check_range` loop
(drmemory/shadow.c:801-817). -/
def checkVal (s : St) (info : Info) (pc : Nat) : Info × UInt32 × Nat :=
  let (info, val) := getByte s info pc
  if pc % 16 ≠ 0 then (info, val, 1)
  else
    let (info, val) := getByte s info pc
    match dqwordToVal val with
    | none =>
      let (info, val) := getByte s info pc
      (info, val, 1)
    | some val => (info, val, 16)

/-- The `shadow_check_range` loop (drmemory/shadow.c:800-836).  `bad` is `none` while `res` is
true, else the bad start and value; `wantEnd` is `bad_end != NULL`; `last` is `val` from the
previous round.  The fuel bounds the number of rounds. -/
def checkGo (s : St) (stop : Nat) (expect : UInt32) (wantEnd : Bool) :
    Nat → Nat → Info → Option (Nat × UInt32) → UInt32 → Option Check
  | 0, _, _, _, _ => none
  | f + 1, pc, info, bad, last =>
    if pc < stop then
      let (info, val, incr) := checkVal s info pc
      match bad with
      | some (b, bv) =>
        if val ≠ bv ∨ ¬ wantEnd then
          -- `break`; the test after the loop can still fire when `bad_end` is wanted
          some { res := false, badStart := some b, badState := some bv,
                 badEnd := if wantEnd then some pc else none }
        else checkGo s stop expect wantEnd f (pc + incr) info bad val
      | none =>
        if val ≠ expect then
          checkGo s stop expect wantEnd f (pc + incr) info (some (pc, val)) val
        else checkGo s stop expect wantEnd f (pc + incr) info none val
    else
      match bad with
      | none => some { res := true, badStart := none, badState := none, badEnd := none }
      | some (b, bv) =>
        some { res := false, badStart := some b, badState := some bv,
               badEnd := if last = bv ∧ wantEnd then some pc else none }

/-- `shadow_check_range` (drmemory/shadow.c:786-837). -/
def checkRange (s : St) (start size : Nat) (expect : UInt32) (wantEnd : Bool) : Option Check :=
  checkGo s (start + size) expect wantEnd (size + 1) start none none 0

/-- `shadow_check_range_backward` (drmemory/shadow.c:846-871): `none` when all bytes match, else
`*bad_addr`.  `n` counts the remaining rounds of `while (pc > start-size)`. -/
def checkBack (s : St) (expect : UInt32) : Nat → Nat → Info → Option Nat
  | 0, _, _ => none
  | n + 1, pc, info =>
    let (info, v) := getByte s info pc
    if v ≠ expect then some pc else checkBack s expect n (pc - 1) info

/-- `shadow_save_region` (drmemory/shadow.c:554-579): the saved two-bit values; the private bitmap
is the list of values (each stored and read back with the same bit operations). -/
def saveRegion (s : St) (start size : Nat) : List UInt32 := (getBytes s size start none).2

/-- `shadow_restore_region` (drmemory/shadow.c:582-592). -/
def restoreRegion (s : St) (start : Nat) (saved : List UInt32) : Res St := do
  let (s, _) ← putBytes saved start s none
  pure s

/-- `shadow_get_dword` (drmemory/shadow.c:386-410) with a fresh info. -/
def getDword (s : St) (addr : Nat) : UInt32 :=
  let k := addr / dm.B
  if s.ex k then
    let idx := alignBack4 addr - k * dm.B
    (word s.mem k (idx / 16) >>> bmShift idx) &&& 0xff
  else 0x55

/-- `shadow_get_qword` (drmemory/shadow.c:413-437) with a fresh info; the value for a missing
block is `SHADOW_DWORD_UNADDRESSABLE`. -/
def getQword (s : St) (addr : Nat) : UInt32 :=
  let k := addr / dm.B
  if s.ex k then
    let idx := addr / 8 * 8 - k * dm.B
    (word s.mem k (idx / 16) >>> bmShift idx) &&& 0xffff
  else 0x55

end Verif.Shadow
