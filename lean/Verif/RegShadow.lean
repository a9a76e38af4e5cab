import Verif.Shadow

/-!
# The shadow of the registers  (C67)

Model of the part of drmemory/shadow.c that keeps, for each thread, two bits for every byte of
every register (shadow.c:1482-1965), and of the functions of drmemory/slowpath.c and
slowpath_x86.c that check a source register and write a destination register.

The general purpose registers and the flags have their bits in thread-local slots; the SSE, AVX
and MMX registers in a block that the last slot points at.

Simplifications: the thread-local slots and the block are functions from offsets to bytes (so a
read past the end of the block is a read of a byte that belongs to nobody; see `auxSize`).  The
pointer to the block is not modelled as bytes.  Registers are given by class and number (numbers
as in DynamoRIO: 0 = xax, 1 = xcx, 2 = xdx, 3 = xbx, 4 = xsp, ...); `reg_is_gpr`,
`reg_to_pointer_sized` and `reg_get_size` are DynamoRIO's and are taken from its documentation
(in particular `reg_is_xmm` holds for ymm registers too).  Built with `TOOL_DR_MEMORY`, x86, and
`MAP_4B_TO_1B` false (shadow.h:41-47: `-check_uninitialized`).
-/

namespace Verif.RegShadow

open Verif.Shadow (set2bits)

/-- A register of the application (DynamoRIO's `reg_id_t`). -/
inductive Reg where
  /-- al, cl, dl, bl, and with 64 bits spl, bpl, sil, dil, r8l, ... -/
  | low8 (n : Nat)
  /-- ah, ch, dh, bh -/
  | high8 (n : Nat)
  | r16 (n : Nat)
  | r32 (n : Nat)
  | r64 (n : Nat)
  | xmm (n : Nat)
  | ymm (n : Nat)
  | mm (n : Nat)
deriving DecidableEq

/-- `NUM_XMM_REGS` (shadow.c:1486-1490). -/
def numXmm (x64 : Bool) : Nat := if x64 then 16 else 8

/-- Number of general purpose registers with a slot (shadow.c:1513-1536). -/
def numGpr (x64 : Bool) : Nat := if x64 then 16 else 8

/-- `NUM_MMX_REGS` (shadow.c:1491). -/
def numMm : Nat := 8

/-- `sizeof(shadow_reg_type_t)` (shadow.c:1502-1506). -/
def gsz (x64 : Bool) : Nat := if x64 then 2 else 1

/-- `offsetof(shadow_registers_t, eflags)` (shadow.c:1509-1542). -/
def eflagsOff (x64 : Bool) : Nat := numGpr x64 * gsz x64

/-- `offsetof(shadow_registers_t, in_heap_routine)` (shadow.c:1544). -/
def inheapOff (x64 : Bool) : Nat := eflagsOff x64 + gsz x64

/-- `offsetof(shadow_registers_t, aux)` (shadow.c:1545-1549): after the padding, aligned to the
size of a pointer. -/
def auxOff (x64 : Bool) : Nat :=
  let p := if x64 then 8 else 4
  let o := inheapOff x64 + 1 + (if x64 then 4 else 2)
  (o + (p - 1)) / p * p

/-- `sizeof(shadow_registers_t)` (shadow.c:1509-1554). -/
def tlsSize (x64 : Bool) : Nat := auxOff x64 + (if x64 then 8 else 4)

/-- `offsetof(shadow_aux_registers_t, ymmh)` (shadow.c:1493-1500). -/
def ymmhOff (x64 : Bool) : Nat := 4 * numXmm x64

/-- `offsetof(shadow_aux_registers_t, mm)` (shadow.c:1493-1500). -/
def mmOff (x64 : Bool) : Nat := 8 * numXmm x64

/-- `sizeof(shadow_aux_registers_t)` (shadow.c:1493-1500). -/
def auxSize (x64 : Bool) : Nat := mmOff x64 + 2 * numMm

/-- An address: an offset in the thread's slots or in the block. -/
inductive Loc where
  | tls (off : Nat)
  | aux (off : Nat)
deriving DecidableEq

/-- `addr + n` for a `byte *addr`. -/
def Loc.plus : Loc → Nat → Loc
  | .tls o, n => .tls (o + n)
  | .aux o, n => .aux (o + n)

/-- The bytes of one thread: its slots and the block they point at. -/
structure File where
  tls : Nat → UInt8
  aux : Nat → UInt8

/-- `*addr`. -/
def File.get (f : File) : Loc → UInt8
  | .tls o => f.tls o
  | .aux o => f.aux o

/-- `*addr = v`. -/
def File.set (f : File) : Loc → UInt8 → File
  | .tls o, v => { f with tls := fun k => if k = o then v else f.tls k }
  | .aux o, v => { f with aux := fun k => if k = o then v else f.aux k }

/-- `reg_is_gpr` (DynamoRIO). -/
def isGpr : Reg → Bool
  | .low8 _ | .high8 _ | .r16 _ | .r32 _ | .r64 _ => true
  | _ => false

/-- `reg_is_8bit_high` (slowpath_x86.c:79-83). -/
def is8high : Reg → Bool
  | .high8 _ => true
  | _ => false

/-- `reg_offs_in_dword` (slowpath_x86.c:91-98). -/
def offsInDword (r : Reg) : Nat := if is8high r then 1 else 0

/-- `opnd_size_in_bytes(reg_get_size(reg))` (DynamoRIO). -/
def regSize : Reg → Nat
  | .low8 _ | .high8 _ => 1
  | .r16 _ => 2
  | .r32 _ => 4
  | .r64 _ | .mm _ => 8
  | .xmm _ => 16
  | .ymm _ => 32

/-- `reg_to_pointer_sized(reg) - DR_REG_START_GPR` for a general purpose register; the number of
the register for the others. -/
def regNum : Reg → Nat
  | .low8 n | .high8 n | .r16 n | .r32 n | .r64 n | .xmm n | .ymm n | .mm n => n

/-- `reg_shadow_addr` (shadow.c:1779-1808), except for `REG_NULL`. -/
def regAddr (x64 : Bool) : Reg → Loc
  | .xmm n => .aux (4 * n)
  | .ymm n => .aux (ymmhOff x64 + 4 * n)
  | .mm n => .aux (mmOff x64 + 2 * n)
  | r => .tls (regNum r * gsz x64)

/-- `*(ushort *)addr`. -/
def get16 (f : File) (a : Loc) : Nat := (f.get a).toNat + 256 * (f.get (a.plus 1)).toNat

/-- `*(uint *)addr`. -/
def get32 (f : File) (a : Loc) : Nat := get16 f a + 65536 * get16 f (a.plus 2)

/-- `get_shadow_register_common` (shadow.c:1809-1838), and so `get_shadow_register`
(shadow.c:1845-1851) and `get_thread_shadow_register` (shadow.c:1856-1863). -/
def getReg (x64 : Bool) (f : File) (r : Reg) : Nat :=
  let a := regAddr x64 r
  match r with
  | .xmm _ | .ymm _ | .mm _ => get32 f a
  | .high8 _ => ((f.get a &&& 0xc) >>> 2).toNat
  | .low8 _ => (f.get a &&& 0x3).toNat
  | .r16 _ => (f.get a &&& 0xf).toNat
  | .r32 _ => (f.get a).toNat
  | .r64 _ => get16 f a

/-- `register_shadow_set_byte` (shadow.c:1865-1879).  The loop moves `addr` on by one for every
eight bits of the shift. -/
def setByte (x64 : Bool) (f : File) (r : Reg) (bytenum val : Nat) : File :=
  let shift := bytenum * 2
  let a := (regAddr x64 r).plus (shift / 8)
  f.set a (set2bits (f.get a).toUInt32 (UInt32.ofNat val) (UInt32.ofNat (shift % 8))).toUInt8

/-- `register_shadow_set_dword` (shadow.c:1881-1889). -/
def setDword (x64 : Bool) (f : File) (r : Reg) (val : Nat) : File :=
  f.set (regAddr x64 r) (UInt8.ofNat val)

/-- `register_shadow_set_qword` (shadow.c:1892-1900; 64-bit only). -/
def setQword (x64 : Bool) (f : File) (r : Reg) (val : Nat) : File :=
  let a := regAddr x64 r
  (f.set a (UInt8.ofNat val)).set (a.plus 1) (UInt8.ofNat (val / 256))

/-- `register_shadow_set_high_dword` (shadow.c:1902-1910; 64-bit only). -/
def setHighDword (x64 : Bool) (f : File) (r : Reg) (val : Nat) : File :=
  f.set ((regAddr x64 r).plus 1) (UInt8.ofNat val)

/-- `register_shadow_set_ptrsz` (shadow.c:1913-1921). -/
def setPtrsz (x64 : Bool) (f : File) (r : Reg) (val : Nat) : File :=
  if x64 then setQword x64 f r val else setDword x64 f r val

/-- `register_shadow_set_dqword` (shadow.c:1923-1931). -/
def setDqword (x64 : Bool) (f : File) (r : Reg) (val : Nat) : File :=
  let a := regAddr x64 r
  (((f.set a (UInt8.ofNat val)).set (a.plus 1) (UInt8.ofNat (val / 256))).set (a.plus 2)
    (UInt8.ofNat (val / 65536))).set (a.plus 3) (UInt8.ofNat (val / 16777216))

/-- `get_shadow_eflags` (shadow.c:1933-1939): a value of type `shadow_reg_type_t`. -/
def getEflags (x64 : Bool) (f : File) : Nat :=
  if x64 then get16 f (.tls (eflagsOff x64)) else (f.tls (eflagsOff x64)).toNat

/-- `set_shadow_eflags` (shadow.c:1941-1947): the value is cut to a byte and widened again. -/
def setEflags (x64 : Bool) (f : File) (val : Nat) : File :=
  let g := f.set (.tls (eflagsOff x64)) (UInt8.ofNat val)
  if x64 then g.set (.tls (eflagsOff x64 + 1)) 0 else g

/-- `get_shadow_inheap` (shadow.c:1949-1956). -/
def getInheap (x64 : Bool) (f : File) : Nat := (f.tls (inheapOff x64)).toNat

/-- `set_shadow_inheap` (shadow.c:1958-1965). -/
def setInheap (x64 : Bool) (f : File) (val : Nat) : File :=
  f.set (.tls (inheapOff x64)) (UInt8.ofNat val)

/-- `is_shadow_register_defined` (shadow.c:1970-1979). -/
def isDefined (val : Nat) : Bool := val == 0

/-- `sizeof(void*)`. -/
def ptrSize (x64 : Bool) : Nat := if x64 then 8 else 4

/-- `register_shadow_mark_defined` (slowpath.c:420-435). -/
def markDefined (x64 : Bool) (f : File) (r : Reg) (sz : Nat) : File :=
  if sz = ptrSize x64 ∧ isGpr r then setPtrsz x64 f r 0
  else if sz = 4 ∧ isGpr r then setDword x64 f r 0
  else (List.range sz).foldl (fun f i => setByte x64 f r i 0) f

/-- The shadow that `check_register_defined` looks at (slowpath.c:1834-1839): that of the whole
register, or of its `sz` low bytes when the operand is smaller. -/
def checkedShadow (x64 : Bool) (f : File) (r : Reg) (sz : Nat) : Nat :=
  if sz < regSize r then getReg x64 f r % 2 ^ (sz * 2) else getReg x64 f r

/-- `check_register_defined` (slowpath.c:1829-1859) for a register other than the flags: whether
`report_undefined_read` is called, and the registers afterwards.  `exc` stands for
`check_undefined_reg_exceptions`: `some g` when there is an exception, which leaves `g`. -/
def checkReg (x64 : Bool) (f : File) (r : Reg) (sz : Nat) (exc : Option File) : Bool × File :=
  if isDefined (checkedShadow x64 f r sz) then (false, f)
  else match exc with
    | some g => (false, g)
    | none => (true, markDefined x64 f r sz)

/-- The check of the flags (slowpath.c:1834-1851). -/
def checkEflags (x64 : Bool) (f : File) (exc : Option File) : Bool × File :=
  if isDefined (getEflags x64 f) then (false, f)
  else match exc with
    | some g => (false, g)
    | none => (true, setEflags x64 f 0)

/-- `instr_zeroes_ymmh` of a destination (slowpath_x86.c:2019-2034): a VEX-encoded instruction
that writes an xmm register clears the upper half of the ymm register; the code marks it
defined. -/
def zeroYmmh (x64 : Bool) (f : File) : Reg → File
  | .xmm n => (List.range 16).foldl (fun f i => setByte x64 f (.ymm n) (16 + i) 0) f
  | _ => f

/-- The writes of `assign_register_shadow` for a destination register that needs no shift
(slowpath.c:407-417 and, for 64 bits, slowpath_x86.c:2035-2040): `vals` are the shadows of the
bytes of the result, `sz` is the size of the operand. -/
def assign (x64 : Bool) (f : File) (r : Reg) (sz : Nat) (vals : Nat → Nat) : File :=
  let f := if x64 ∧ sz = 4 ∧ isGpr r then setHighDword x64 f r 0 else f
  let f := setByte x64 f r (offsInDword r) (vals 0)
  (List.range (sz - 1)).foldl (fun f i => setByte x64 f r (i + 1) (vals (i + 1))) f

/-- `memset(sr, v, sizeof(*sr)); memset(sr->aux, v, sizeof(*sr->aux));` on what `f` held before. -/
def memset2 (x64 : Bool) (f : File) (v : UInt8) : File :=
  { tls := fun k => if k < tlsSize x64 then v else f.tls k
    aux := fun k => if k < auxSize x64 then v else f.aux k }

/-- `shadow_registers_thread_init` (shadow.c:1652-1710) on Linux: `late` is
`first_thread || !first_bb`.  The block has just been allocated. -/
def threadInit (x64 : Bool) (late : Bool) (f : File) : File :=
  let g :=
    if late then setEflags x64 (memset2 x64 f 0) 0
    else
      let g := memset2 x64 f 0xff
      -- `sr->eflags = init_shadow;`
      let g := setEflags x64 g 0xff
      let g := setPtrsz x64 g (.r64 4) 0
      setPtrsz x64 g (.r64 0) 0
  setInheap x64 g 0

/-- The address and size (in bytes of shadow) that the fast path uses for a register
(`opnd_create_shadow_reg_slot`, shadow.c:1562-1582; for SSE and MMX registers the block's address
plus `get_shadow_xmm_offs`, shadow.c:1598-1615), and the number of the byte within the first
shadow byte (`oi->offs`, fastpath_x86.c:917-927). -/
def fastSlot (x64 : Bool) : Reg → Loc
  | .xmm n => .aux (0 + 4 * n)
  | .ymm n => .aux (ymmhOff x64 + 4 * n)
  | .mm n => .aux (mmOff x64 + 2 * n)
  | r => .tls (regNum r * gsz x64)

/-- The size of the operand of `opnd_create_shadow_reg_slot` for a general purpose register
(shadow.c:1574): all of the register's bits with 32 bits; with 64 bits only for a 64-bit one. -/
def fastSize (x64 : Bool) : Reg → Nat
  | .r64 _ => gsz x64
  | _ => if x64 then 1 else gsz x64

/-- `opnd_create_shadow_reg_slot_high_dword` (shadow.c:1585-1595; 64-bit only). -/
def fastHigh (x64 : Bool) (r : Reg) : Loc := .tls (regNum r * gsz x64 + 1)

end Verif.RegShadow
