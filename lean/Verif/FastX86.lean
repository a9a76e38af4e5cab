import Verif.ShadowTables

/-!
The inlined x86 fast path of Dr. Memory for one application instruction with at most one
memory operand of 1, 2 or 4 bytes (C61): the code generator
`/repo/drmemory/fastpath_x86.c` and a machine for the code it emits.

Modelled: `TOOL_DR_MEMORY`, 32-bit, `check_uninitialized`, `loads_use_table`,
`stores_use_table` and whole-block spills (all defaults).  Not modelled: operands wider than
4 bytes and xmm registers, push/pop, two memory operands (`mem2mem`, `load2x`), cmovcc,
sharing of a translation between instructions (`use_shared`), the heap-routine exception
(`check_ignore_unaddr`), operands that are always checked one by one
(`always_check_definedness`: cmpxchg, leave, a shift by %cl), instructions that read flags and
have neither a source nor a destination, and saving and restoring of the scratch registers
and flags.
-/

namespace Verif.FastX86

/-- A 32-bit register of the family a, b, c, d by its parts (bits 16-31, 8-15, 0-7). -/
structure R where
  top : BitVec 16
  h : BitVec 8
  l : BitVec 8
deriving DecidableEq, Repr

/-- The number in a register. -/
def R.num (r : R) : Nat := r.top.toNat * 65536 + r.h.toNat * 256 + r.l.toNat

/-- The three scratch registers `mi->reg1`, `mi->reg2`, `mi->reg3`, picked in spill.c:654-830
from a, b, c, d.  `r3` is ecx whenever the code below uses %cl
(fastpath_x86.c:3132, spill.c:704-716). -/
inductive Role where
  | r1 | r2 | r3
deriving DecidableEq, Repr

/-- 8-bit operands of the emitted code: low and high byte of a scratch register, the shadow
byte `[reg1]`, the shadow slots of the application registers and of eflags (one byte each
in 32-bit), constants. -/
inductive Opnd where
  | lo (r : Role)
  | hi (r : Role)
  | cell
  | slot (g : Fin 8)
  | flags
  | imm (v : BitVec 8)
deriving DecidableEq, Repr

/-- The register an operand lives in. -/
def Opnd.role : Opnd → Option Role
  | .lo r | .hi r => some r
  | .cell => some .r1
  | _ => none

/-- The operand is in memory for the processor. -/
def Opnd.isMem : Opnd → Bool
  | .cell | .slot _ | .flags => true
  | _ => false

/-- x86 has no instruction with two operands in memory, or with a constant as destination. -/
def Opnd.pairOk (d s : Opnd) : Bool :=
  !(d.isMem && s.isMem) && (match d with | .imm _ => false | _ => true)

/-- The tables of shadow.c used by the emitted code. -/
inductive Tbl where
  | byteDefined | wordDefined | byteAddrNotBit | wordAddrNotBit | dwordAddrNotBit
  | twoToDword | fourToDword
deriving DecidableEq, Repr

/-- Their contents, see `ShadowTables`. -/
def Tbl.list : Tbl → List Nat
  | .byteDefined => ShadowTables.byteDefined
  | .wordDefined => ShadowTables.wordDefined
  | .byteAddrNotBit => ShadowTables.byteAddrNotBit
  | .wordAddrNotBit => ShadowTables.wordAddrNotBit
  | .dwordAddrNotBit => ShadowTables.dwordIsAddrNotBit
  | .twoToDword => ShadowTables.twoToDword
  | .fourToDword => ShadowTables.fourToDword

/-- A shift count: a constant or %cl. -/
inductive Cnt where
  | imm (n : Nat)
  | cl
deriving DecidableEq, Repr

/-- Jump targets: the slow path, the end of a comparison with the application value, and the
two labels of `add_dst_shadow_write`. -/
inductive Lbl where
  | slow | src2Defined | preserve | skip
deriving DecidableEq, Repr

/-- The emitted instructions. -/
inductive Ins where
  | mov (d s : Opnd)
  | movzx (r : Role) (s : Opnd)
  /-- `movzx r32, r16` -/
  | movzx16 (d s : Role)
  | and (d s : Opnd)
  | or (d s : Opnd)
  /-- `and r32, imm32` -/
  | andR (r : Role) (v : R)
  /-- `shl r32, 8` -/
  | shlR8 (r : Role)
  | shl (d : Opnd) (c : Cnt)
  | shr (d : Opnd) (c : Cnt)
  | sar (d : Opnd) (c : Cnt)
  | rol (d : Opnd) (c : Cnt)
  | ror (d : Opnd) (c : Cnt)
  | dec (d : Opnd)
  | cmp (a b : Opnd)
  | test (a b : Opnd)
  /-- `cmp byte [table + disp + base + index], 1` -/
  | cmpTbl (t : Tbl) (disp : Nat) (base : Role) (index : Option Role)
  /-- `mov d, byte [table + r]` -/
  | movTbl (d : Opnd) (t : Tbl) (r : Role)
  | xchg (a b : Role)
  /-- The address of the memory operand, `insert_lea` -/
  | lea (r : Role)
  /-- `shadow_gen_translation_addr(reg1, reg2)` -/
  | xlate
  /-- Compares the application value of the first source with 0 or ~0 -/
  | cmpApp
  | jcc (eq : Bool) (l : Lbl)
  | label (l : Lbl)
  /-- An instruction with a null operand, which cannot be encoded -/
  | bad
deriving DecidableEq, Repr

/-- What the emitted code sees of the application: the address of the memory operand, the
address of the shadow byte of an address (C59), what the translation leaves in its scratch
register, and whether the first source of and/test has the value 0 (or: ~0). -/
structure Env where
  addr : R
  xl : R → R
  junk : R
  appval : Bool

/-- The machine: scratch registers, zero flag, the shadow of the eight application registers,
of eflags and of memory; `wild` is set by a table access out of bounds or by an instruction
that cannot be encoded. -/
structure St where
  r1 : R
  r2 : R
  r3 : R
  zf : Bool
  slots : Fin 8 → BitVec 8
  flags : BitVec 8
  mem : R → BitVec 8
  wild : Bool

/-- Read of a scratch register. -/
def St.reg (s : St) : Role → R
  | .r1 => s.r1
  | .r2 => s.r2
  | .r3 => s.r3

/-- Write of a scratch register. -/
def St.setReg (s : St) (r : Role) (v : R) : St :=
  match r with
  | .r1 => { s with r1 := v }
  | .r2 => { s with r2 := v }
  | .r3 => { s with r3 := v }

/-- Read of an operand. -/
def St.get (s : St) : Opnd → BitVec 8
  | .lo r => (s.reg r).l
  | .hi r => (s.reg r).h
  | .cell => s.mem s.r1
  | .slot g => s.slots g
  | .flags => s.flags
  | .imm v => v

/-- Write of an operand. -/
def St.set (s : St) (o : Opnd) (v : BitVec 8) : St :=
  match o with
  | .lo r => s.setReg r { s.reg r with l := v }
  | .hi r => s.setReg r { s.reg r with h := v }
  | .cell => { s with mem := fun p => if p = s.r1 then v else s.mem p }
  | .slot g => { s with slots := fun k => if k = g then v else s.slots k }
  | .flags => { s with flags := v }
  | .imm _ => { s with wild := true }

/-- The value of an index register, if there is one. -/
def St.idx (s : St) : Option Role → Nat
  | some r => (s.reg r).num
  | none => 0

/-- A shift count: x86 uses the low five bits. -/
def St.count (s : St) : Cnt → Nat
  | .imm n => n % 32
  | .cl => s.r3.l.toNat % 32

/-- The instruction can be encoded. -/
def Ins.ok : Ins → Bool
  | .mov d x | .and d x | .or d x | .cmp d x | .test d x => d.pairOk x
  | .movzx _ x => (match x with | .imm _ => false | _ => true)
  | .movTbl d _ _ => !d.isMem && (match d with | .imm _ => false | _ => true)
  | .shl d _ | .shr d _ | .sar d _ | .rol d _ | .ror d _ | .dec d =>
    (match d with | .imm _ => false | _ => true)
  | .bad => false
  | _ => true

/-- One instruction other than a jump, if it can be encoded. -/
def exec (e : Env) (s : St) : Ins → St
  | .mov d x => s.set d (s.get x)
  | .movzx r x => s.setReg r ⟨0, 0, s.get x⟩
  | .movzx16 d x => s.setReg d { s.reg x with top := 0 }
  | .and d x => { s.set d (s.get d &&& s.get x) with zf := s.get d &&& s.get x == 0 }
  | .or d x => { s.set d (s.get d ||| s.get x) with zf := s.get d ||| s.get x == 0 }
  | .andR r v =>
    s.setReg r ⟨(s.reg r).top &&& v.top, (s.reg r).h &&& v.h, (s.reg r).l &&& v.l⟩
  | .shlR8 r =>
    s.setReg r ⟨((s.reg r).top <<< 8) ||| (s.reg r).h.zeroExtend 16, (s.reg r).l, 0⟩
  | .shl d c => s.set d (s.get d <<< s.count c)
  | .shr d c => s.set d (s.get d >>> s.count c)
  | .sar d c => s.set d ((s.get d).sshiftRight (s.count c))
  | .rol d c => s.set d ((s.get d).rotateLeft (s.count c))
  | .ror d c => s.set d ((s.get d).rotateRight (s.count c))
  | .dec d => s.set d (s.get d - 1)
  | .cmp a b => { s with zf := s.get a == s.get b }
  | .test a b => { s with zf := s.get a &&& s.get b == 0 }
  | .cmpTbl t disp b i =>
    match t.list[disp + (s.reg b).num + s.idx i]? with
    | some v => { s with zf := v == 1 }
    | none => { s with wild := true }
  | .movTbl d t r =>
    match t.list[(s.reg r).num]? with
    | some v => s.set d (BitVec.ofNat 8 v)
    | none => { s with wild := true }
  | .xchg a b => (s.setReg a (s.reg b)).setReg b (s.reg a)
  | .lea r => s.setReg r e.addr
  | .xlate => { s with r1 := e.xl s.r1, r2 := e.junk }
  | .cmpApp => { s with zf := e.appval }
  | .jcc _ _ | .label _ => s
  | .bad => { s with wild := true }

/-- How the emitted code ends. -/
inductive Out where
  /-- falls through to `fastpath_restore` -/
  | done (s : St)
  /-- jumps to the slow path -/
  | slow (s : St)
  /-- a jump without a target -/
  | lost

/-- The emitted code.  All jumps go forward; with `some l` the code is skipped up to the
label `l`. -/
def run (e : Env) : List Ins → Option Lbl → St → Out
  | [], none, s => .done s
  | [], some .slow, s => .slow s
  | [], some _, _ => .lost
  | i :: is, some l, s => if i = .label l then run e is none s else run e is (some l) s
  | i :: is, none, s =>
    match i with
    | .jcc eq l => run e is (if s.zf = eq then some l else none) s
    | i => run e is none (if i.ok then exec e s i else { s with wild := true })

/-! ### The generator -/

/-- An application operand: memory or an application register; `hi` tells whether it is one of
ah, bh, ch, dh.  The size is kept apart. -/
inductive App where
  | mem
  | reg (g : Fin 8) (hi : Bool)
deriving DecidableEq, Repr

/-- Opcode classes: those of `needs_shadow_op`, fastpath_x86.c:1534-1545, with a constant count,
movzx and movsx, and the rest (among them rol and ror by a multiple of 8, for which nothing
is done to the shadow). -/
inductive Op where
  | plain | movzx | movsx
  | shl (n : Nat) | shr (n : Nat) | sar (n : Nat)
deriving DecidableEq, Repr

/-- The opcodes of `needs_shadow_op`, fastpath_x86.c:1534-1545. -/
def Op.shadowOp : Op → Bool
  | .shl _ | .shr _ | .sar _ => true
  | _ => false

/-- A shift by a constant that is no multiple of 8. -/
def Op.odd : Op → Bool
  | .shl n | .shr n | .sar n => n % 8 != 0
  | _ => false

/-- The application instruction: `mi->src[].app` and `mi->dst[].app` as collected by
`opnd_ok_for_fastpath`, fastpath_x86.c:339-382 (constants dropped, memory first), all sources of
size `srcSz` and destinations of size `dstSz`; `icd` is `instr_check_definedness`
(slowpath_x86.c:379-412), `rf` and `wf` tell whether arithmetic flags are read and written,
`always` is `mi->bb->mark_defined || result_is_always_defined`, `bases` are the addressing
registers not yet known to be defined (fastpath_x86.c:1867-1919), `early` tells whether the
memory operand uses a scratch register of the block (fastpath_x86.c:3078-3084), and `andor` whether
the opcode is and, test or or (`instr_needs_all_srcs_and_vals`, slowpath_x86.c:1534-1543). -/
structure App1 where
  op : Op
  s0 : Option App
  s1 : Option App
  s2 : Option App
  d0 : Option App
  d1 : Option (Fin 8 × Bool)
  srcSz : Nat
  dstSz : Nat
  icd : Bool
  rf : Bool
  wf : Bool
  always : Bool
  bases : List (Fin 8)
  early : Bool
  andor : Bool
deriving DecidableEq, Repr

/-- `opnd_same` of a source and the first destination. -/
def App1.same (I : App1) (a : Option App) : Bool :=
  a == I.d0 && (a.isNone || I.srcSz == I.dstSz)

/-- `mi->store` and `mi->load`, fastpath_x86.c:355-359. -/
def App1.store (I : App1) : Bool := I.d0 == some .mem
def App1.load (I : App1) : Bool := I.s0 == some .mem && !I.store

/-- `mi->opsz`, fastpath_x86.c:785-817. -/
def App1.opsz (I : App1) : Nat :=
  if I.d0.isSome then I.dstSz
  else if I.wf then (if I.s0.isSome then I.srcSz else 1)
  else 0

/-- `mi->src_opsz` before the adjustment for movzx, fastpath_x86.c:789-805. -/
def App1.srcOpsz0 (I : App1) : Nat :=
  if I.s0.isSome then I.srcSz else if I.rf then I.opsz else 0

/-- `mi->memsz`: the size of the memory operand. -/
def App1.memsz (I : App1) : Nat :=
  if I.store then I.dstSz else if I.load then I.srcSz else 0

/-- movzx and movsx. -/
def App1.ext (I : App1) : Bool := I.op == .movzx || I.op == .movsx

/-- movzx or movsx to 4 bytes, fastpath_x86.c:877-879. -/
def App1.ext4 (I : App1) : Bool := I.ext && I.opsz == 4 && (I.srcOpsz0 == 1 || I.srcOpsz0 == 2)

/-- `mi->src_opsz`, with the adjustment for movzx to 2 bytes, fastpath_x86.c:886-887. -/
def App1.srcOpsz (I : App1) : Nat := if I.ext && !I.ext4 then I.opsz else I.srcOpsz0

/-- `mi->memoffs` is not yet known, fastpath_x86.c:855-862. -/
def App1.offsNull (I : App1) : Bool := (I.load || I.store) && decide (I.opsz < 4)

/-- `mi->need_offs`, fastpath_x86.c:876-901. -/
def App1.needOffs (I : App1) : Bool :=
  I.ext4 || ((I.d0.isSome || (I.load && I.wf && !I.icd)) &&
    (decide (I.memsz < 4) && I.offsNull))

/-- `mi->need_offs_early`, fastpath_x86.c:3074-3090. -/
def App1.needEarly (I : App1) : Bool :=
  !I.needOffs && decide (I.memsz < 4) && I.offsNull && I.load && I.early

/-- `is_alu`, fastpath_x86.c:331-337. -/
def App1.alu (I : App1) : Bool :=
  (I.store && I.same I.s0) || (!I.store && I.same I.s1)

/-- The offset operand of a source when definedness checks are chosen: constant for a register,
not known for memory (fastpath_x86.c:917-945). -/
def offs0 : Option App → Option Bool
  | some (.reg _ h) => some h
  | _ => none

/-- The number of sources with a shadow operand, `set_shadow_opnds`. -/
def App1.nsrc (I : App1) : Nat :=
  (if I.s0.isSome then 1 else 0) + (if I.s1.isSome then 1 else 0) + (if I.s2.isSome then 1 else 0)

/-- `mi->check_definedness`, fastpath_x86.c:772-773, 880-888, 1026-1100 and 1115-1168. -/
def App1.chk (I : App1) : Bool :=
  I.icd || I.andor || I.op.odd || (I.ext && !I.ext4) ||
  (I.s0.isSome && decide (I.srcOpsz < I.opsz) && !I.ext) ||
  (decide (I.opsz < 4) && decide (2 ≤ I.nsrc) &&
    (if I.alu then I.s2.isSome && offs0 I.s0 != offs0 I.s2
     else I.s1.isSome && offs0 I.s1 != offs0 I.s0))

/-- Eflags are a source to be propagated, fastpath_x86.c:1178-1202. -/
def App1.flagSrc (I : App1) : Bool :=
  !I.chk && I.rf && decide (4 ≤ I.opsz) && (I.s0.isNone || I.s1.isNone || I.s2.isNone)

/-- `mi->check_eflags_defined` and eflags are read, fastpath_x86.c:1177-1198 and 3344-3345. -/
def App1.checkFlags (I : App1) : Bool := I.rf && !I.flagSrc

/-- `mi->num_to_propagate` as set in `set_shadow_opnds` and for eflags. -/
def App1.nprop0 (I : App1) : Nat := I.nsrc + (if I.flagSrc then 1 else 0)

/-- `mark_defined`, fastpath_x86.c:3177-3192. -/
def App1.markDefined (I : App1) : Bool :=
  I.always || (I.s0.isNone && !I.rf) ||
  (!I.load && I.nprop0 == 0 && I.d0.isSome)

/-- `mi->zero_rest_of_offs`, fastpath_x86.c:3493-3502. -/
def App1.zeroRest (I : App1) : Bool :=
  (I.load || I.store) && ((decide (I.memsz < 4) && !I.markDefined && I.chk) ||
    (decide (I.memsz < 4) && I.needOffs))

/-- An offset operand (`opnd_info_t.offs`): null, a constant, or the register of `mi->memoffs`. -/
inductive Offs where
  | null
  | const (n : Nat)
  | reg (o : Opnd)
deriving DecidableEq, Repr

/-- `opnd_info_t` without the fields for xmm registers. -/
structure Info where
  app : Option App
  shadow : Option Opnd
  offs : Offs
deriving DecidableEq, Repr

/-- A register operand, `set_reg_shadow_opnds`, fastpath_x86.c:917-922 and slowpath_x86.c:91-98. -/
def Info.ofReg (g : Fin 8) (hi : Bool) : Info :=
  ⟨some (.reg g hi), some (.slot g), .const (if hi then 1 else 0)⟩

/-- No operand. -/
def Info.none : Info := ⟨Option.none, Option.none, .null⟩

/-- `reg_to_pointer_sized` of the register holding the offset. -/
def Offs.role : Offs → Option Role
  | .reg (.lo r) | .reg (.hi r) => some r
  | _ => Option.none

/-- The operand of the high byte of the register of an 8-bit operand. -/
def Opnd.hiOf : Opnd → Opnd
  | .lo r | .hi r => .hi r
  | o => o

/-- The merge of partial bytes in `insert_shadow_op`, fastpath_x86.c:1580-1596 and 1633-1649. -/
def mergePartial (f : Opnd → Cnt → Ins) (n : Nat) (reg scratch : Opnd) : List Ins :=
  [.mov scratch reg, f reg (.imm (((n - 1) / 8 + 1) * 2)), f scratch (.imm (n / 8 * 2)),
    .or reg scratch]

/-- `insert_shadow_op`, fastpath_x86.c:1552-1654, on the shadow in `reg`; `sz` is the size of the
destination. -/
def shadowOp (op : Op) (sz : Nat) (reg scratch : Opnd) : List Ins :=
  let clamp := fun n => if n > sz * 8 then sz * 8 else n
  match op with
  | .shl n =>
    if clamp n % 8 = 0 then [.shl reg (.imm (clamp n / 8 * 2))]
    else mergePartial .shl (clamp n) reg scratch
  | .shr n =>
    if clamp n % 8 = 0 then [.shr reg (.imm (clamp n / 8 * 2))]
    else mergePartial .shr (clamp n) reg scratch
  | .sar n =>
    if clamp n % 8 = 0 then
      (List.replicate (clamp n / 8) [.mov scratch reg, .sar reg (.imm 2), .or reg scratch]).flatten
    else mergePartial .shr (clamp n) reg scratch
  | _ => []

/-- `write_shadow_eflags`, fastpath_x86.c:1686-1730, for an 8-bit value. -/
def writeFlags (I : App1) (v : Opnd) : List Ins := if I.wf then [.mov .flags v] else []

/-- `add_check_datastore`, fastpath_x86.c:2236-2257. -/
def checkDatastore (I : App1) (src dst : Opnd) (l : Lbl) : List Ins :=
  if I.store then [.cmp dst src, .jcc true l] else []

/-- `subdword_get_shift_value`, fastpath_x86.c:2260-2274; `none` is a null operand. -/
def getShift (memoffs : Option Opnd) (ofnum : Nat) : List Ins :=
  (match memoffs with | some o => [Ins.mov (.lo .r3) o] | none => [Ins.bad]) ++
  (if ofnum = 1 then [.dec (.lo .r3), .and (.lo .r3) (.imm 3)] else []) ++
  [.shl (.lo .r3) (.imm 1)]

/-- The constant of `subdword_zero_rest_of_dword`, fastpath_x86.c:2285-2287. -/
def keepMask (ofnum sz : Nat) : BitVec 8 :=
  if sz = 1 then (if ofnum = 1 then 0x0c else 0x03) else 0x0f

/-- The constant with the bits of the destination clear, fastpath_x86.c:2603, 2805, 2913. -/
def restMask (ofnum sz : Nat) : BitVec 8 :=
  if sz = 1 then (if ofnum = 1 then 0xf3 else 0xfc) else 0xf0

/-- An instruction on an operand that may be null. -/
def on (o : Option Opnd) (f : Opnd → Ins) : List Ins :=
  match o with
  | some o => [f o]
  | none => [.bad]

/-- `add_dst_shadow_write`, fastpath_x86.c:2360-2936, for operands of at most 4 bytes.  `memoffs`
is `mi->memoffs`, `scratch` the low byte of a scratch register. -/
def addDst (I : App1) (memoffs : Offs) (dst src : Info) (srcSz dstSz : Nat) (scratch : Role)
    (flags alu preserve : Bool) : List Ins :=
  match src.shadow with
  | none => [.bad]
  | some sh =>
  -- 2412-2415
  (match sh with | .lo _ | .hi _ => shadowOp I.op I.dstSz sh (.lo scratch) | _ => []) ++
  if srcSz = 4 then
    -- 2419-2457
    (if flags then writeFlags I sh else []) ++
    (match dst.shadow with
     | some d => checkDatastore I sh d .skip ++ [.mov d sh]
     | none => []) ++ [.label .skip]
  else match (generalizing := false) sh, dst.offs with
  | .imm 0, .const ofnum =>
    -- 2487-2504
    (if flags then writeFlags I sh else []) ++
    (match dst.shadow with
     | some d => checkDatastore I sh d .skip ++
        [.and d (.imm (~~~((BitVec.ofNat 8 (2 ^ (dstSz * 2) - 1)) <<< (ofnum * 2))))]
     | none => []) ++ [.label .skip]
  | _, _ =>
    -- 2505-2944
    let constOffs : Bool := match dst.offs, src.offs with
      | .reg _, _ => false
      | _, .const _ => true
      | _, _ => false
    let scr : Opnd := .lo scratch
    let swap : List Ins := if scratch = .r3 then [] else [.xchg .r3 scratch]
    -- 2526-2588
    let ofsrc := match src.offs with | .const n => n | _ => 0
    let ofdst := match dst.offs with | .const n => n | _ => 0
    let shiftby : Option Cnt :=
      if constOffs then
        (if srcSz = 2 ∨ ofsrc = ofdst then none else if ofsrc = 1 then some (.imm 2)
         else some (.imm 6))
      else some .cl
    let mo : Option Opnd :=
      if constOffs then none
      else match memoffs with
        | .reg o => if scratch ≠ .r3 ∧ o.role = some scratch then some (.hi .r3) else some o
        | _ => none
    let op1 : Option Opnd := if constOffs then some scr else mo
    -- 2554, 2578-2584: not set in the remaining case
    let op2 : Option Opnd :=
      if constOffs then some (.hi scratch)
      else if scratch = .r3 then some (.hi .r3)
      else match memoffs with
        | .reg o => if o.role = some scratch then some (.hi scratch) else none
        | _ => none
    let isReg : Bool := shiftby == some .cl
    (if constOffs then [] else swap) ++
    (if sh = .imm 0 ∧ !alu then
      -- 2590-2627
      (if flags then writeFlags I sh else []) ++
      (match dst.shadow with | some d => checkDatastore I sh d .skip | none => []) ++
      (match dst.offs with
       | .const ofnum => on dst.shadow (fun d => .and d (.imm (restMask ofnum dstSz)))
       | _ =>
        getShift mo ofsrc ++ on op1 (fun o => .mov o (.imm (restMask 0 dstSz))) ++
        on op1 (fun o => .rol o .cl) ++
        (match dst.shadow, op1 with | some d, some o => [.and d o] | _, _ => [.bad]))
    else if srcSz ≠ dstSz then
      -- 2628-2685
      (if isReg then getShift mo ofdst else []) ++
      let o := if preserve then op1 else some sh
      (if preserve then on op1 (fun o => .mov o sh) else []) ++
      (match shiftby with | some c => on o (fun o => .shr o c) | none => []) ++
      on o (fun o => .and o (.imm (keepMask ofdst srcSz))) ++
      (if I.op = .movsx then
        (match o with
         | some o => (match o.role with
            | some r => [.movzx r o,
                .movTbl o (if srcSz = 1 then .twoToDword else .fourToDword) r]
            | none => [.bad])
         | none => [.bad]) else []) ++
      (if flags then (match o with | some o => writeFlags I o | none => [.bad]) else []) ++
      (match dst.shadow, o with
       | some d, some o => checkDatastore I o d .preserve ++ [.mov d o]
       | _, _ => [.bad])
    else if (match dst.offs with | .reg _ => false | _ => true) then
      -- 2686-2835
      (if isReg then getShift mo ofdst else []) ++
      (if preserve then on op1 (fun o => .mov o sh) else []) ++
      (match shiftby with
       | some c => if preserve then on op1 (fun o => .ror o c) else [.ror sh c]
       | none => []) ++
      let o := if alu && !preserve then some sh else op1
      (if !alu && !preserve then on op1 (fun o => .mov o sh) else []) ++
      on o (fun o => .and o (.imm (keepMask ofdst dstSz))) ++
      (if alu then
        (match dst.shadow, op2, o with
         | some d, some p, some o => [.mov p d, .or o p, .or d o, .and o (.imm (keepMask ofdst dstSz))]
         | _, _, _ => [.bad]) else []) ++
      (if flags then (match o with | some o => writeFlags I o | none => [.bad]) else []) ++
      (match dst.shadow, o with
       | some d, some o => checkDatastore I o d .preserve
       | _, _ => []) ++
      (if alu then []
       else match dst.shadow, o with
       | some d, some o =>
        [.or d o] ++
        (if preserve then
          [.mov o sh] ++ (match shiftby with | some c => [.ror o c] | none => []) ++
          [.or o (.imm (restMask ofdst dstSz)), .and d o]
         else [.or sh (.imm (restMask ofdst dstSz)), .and d sh])
       | none, _ => []
       | _, _ => [.bad])
    else match src.offs with
    | .const ofnum =>
      -- 2836-2922
      getShift mo ofnum ++
      (if alu then
        (match dst.shadow, op1 with
         | some d, some o => [.mov o d, .shr o .cl, .or o sh]
         | _, _ => [.bad])
       else on op1 (fun o => .mov o sh)) ++
      on op1 (fun o => .and o (.imm (keepMask ofnum srcSz))) ++
      on op1 (fun o => .shl o .cl) ++
      (if flags then (match op1 with | some o => writeFlags I o | none => [.bad]) else []) ++
      (match dst.shadow, op1 with
       | some d, some o => checkDatastore I o d .preserve ++
          (if alu then [.or d o]
           else [.or d o] ++
            (if preserve then
              [.mov o sh, .or o (.imm (restMask ofnum srcSz)), .rol o .cl, .and d o]
             else [.or sh (.imm (restMask ofnum srcSz)), .rol sh .cl, .and d sh]))
       | none, _ => []
       | _, _ => [.bad])
    | _ => [.bad]) ++
    -- 2927-2943
    [.label .preserve] ++
    (match mo with
     | some o => if preserve then [.mov o (.lo .r3), .shr o (.imm 1)] else []
     | none => []) ++
    [.label .skip] ++
    (match memoffs with | .const _ => [] | _ => swap)

/-- `add_dstX2_shadow_write`, fastpath_x86.c:2939-2961. -/
def addDst2 (I : App1) (memoffs : Offs) (d0 d1 src : Info) (srcSz dstSz : Nat) (scratch : Role)
    (flags alu : Bool) : List Ins :=
  (if d0.shadow.isSome || (flags && I.wf) then
    addDst I memoffs d0 src srcSz dstSz scratch flags alu d1.shadow.isSome else []) ++
  (if d1.shadow.isSome then
    addDst I memoffs d1 src srcSz dstSz scratch flags alu false else [])

/-- `mi->memoffs` after the table lookup, fastpath_x86.c:2185-2192 and 2228. -/
def App1.memoffs (I : App1) : Offs :=
  if I.load || I.store then
    if I.needOffs || I.needEarly then
      (if !I.needOffs && I.zeroRest then .reg (.hi .r3)
       else if I.load then .reg (.hi .r1) else .reg (.hi .r2))
    else if I.zeroRest then .reg (.hi .r1)
    else if I.offsNull then .null else .const 0
  else .const 0

/-- `add_shadow_table_lookup` from the translation on, fastpath_x86.c:2131-2220. -/
def lookup2 (I : App1) : List Ins :=
  (if I.needOffs || I.needEarly then [.movzx16 .r3 .r1] else []) ++
  [.xlate] ++
  (if I.load then [.movzx .r2 .cell] else []) ++
  (if I.needOffs || I.needEarly then
    (match I.memoffs with
     | .reg o => [.mov o (.lo .r3)] ++
        (if I.zeroRest then
          (match o.role with | some r => [.andR r ⟨0, 3, 0⟩] | none => [.bad])
         else [.and o (.imm 3)])
     | _ => [.bad])
   else if I.zeroRest then
    -- `and r1, 3`; `shl r1, 8`
    [.lea .r1, .andR .r1 ⟨0, 0, 3⟩, .shlR8 .r1]
   else [])

/-- `add_shadow_table_lookup`, fastpath_x86.c:2062-2222, as called in
fastpath_x86.c:3517-3523. -/
def lookup (I : App1) : List Ins :=
  (if I.memsz > 1 then
    [.test (.lo .r1) (.imm (if I.memsz = 4 then 3 else 1)), .jcc false .slow] else []) ++
  lookup2 I

/-- `insert_check_defined`, fastpath_x86.c:1438-1532, of a source with application operand `app`
and shadow `sh`. -/
def checkDefined (I : App1) (app : App) (sh : Opnd) : List Ins :=
  let full := match sh with
    | .lo _ | .hi _ => [Ins.test sh sh]
    | _ => [Ins.cmp sh (.imm 0)]
  if I.srcOpsz < 4 && I.zeroRest then
    match sh with
    | .lo r =>
      (match I.memoffs.role with
       | some i => [.cmpTbl (if I.memsz = 1 then .byteDefined else .wordDefined) 0 r (some i)]
       | none => full)
    | _ =>
      let base := if I.store then (if I.needOffs then Role.r3 else .r2) else .r1
      let t := if I.srcOpsz = 1 then Tbl.byteDefined else .wordDefined
      (match app with
       | .reg _ hi => [.movzx base sh, .cmpTbl t (if hi then 256 else 0) base none]
       | .mem => (match I.memoffs.role with
          | some i => [.movzx base sh, .cmpTbl t 0 base (some i)]
          | none => [.bad]))
  else full

/-- The shadow operands of sources and destinations, `set_shadow_opnds`,
fastpath_x86.c:944-1018, with the offset of memory operands (fastpath_x86.c:3618-3625) and
eflags as a source (fastpath_x86.c:1184-1198). -/
def App1.info (I : App1) : Option App → Info
  | some .mem => ⟨some .mem, some (if I.store then .cell else .lo .r2), I.memoffs⟩
  | some (.reg g h) => .ofReg g h
  | none => .none

/-- The operand for eflags as a source. -/
def flagInfo : Info := ⟨none, some .flags, .const 0⟩

/-- The three sources before any check. -/
def App1.srcs (I : App1) : Info × Info × Info :=
  let a := I.info I.s0
  let b := I.info I.s1
  let c := I.info I.s2
  if I.flagSrc then
    if I.s0.isNone then (flagInfo, b, c)
    else if I.s1.isNone then (a, flagInfo, c)
    else (a, b, flagInfo)
  else (a, b, c)

/-- Checks of definedness, fastpath_x86.c:3645-3757; in emitted order first, second, third
source.  `check_appval` lets an undefined second source pass. -/
def checks (I : App1) : List Ins :=
  if I.chk && !I.markDefined then
    (match I.s0 with
     | some a =>
      (if I.s1.isSome && I.s1 == I.s0 then []
       else (match (I.info I.s0).shadow with
        | some sh => checkDefined I a sh ++ [.jcc false .slow]
        | none => [.bad]))
     | none => []) ++
    (match I.s1 with
     | some b => (match (I.info I.s1).shadow with
        | some sh => checkDefined I b sh ++
          (if I.andor && I.srcOpsz == 4 && I.s1 != I.s0 then
            [.jcc true .src2Defined, .cmpApp, .jcc false .slow, .label .src2Defined]
           else [.jcc false .slow])
        | none => [.bad])
     | none => []) ++
    (match I.s2 with
     | some c => (match (I.info I.s2).shadow with
        | some sh => checkDefined I c sh ++ [.jcc false .slow]
        | none => [.bad])
     | none => [])
  else []

/-- The memory source has been checked, fastpath_x86.c:3726 and 3748. -/
def App1.checkedMem (I : App1) : Bool := I.chk && !I.markDefined && I.load && !(I.s1 == I.s0)

/-- The table for addressability, fastpath_x86.c:3839-3868 and 3966-3997. -/
def addrTbl (I : App1) (base : Role) : List Ins :=
  if I.memsz < 4 && I.needOffs then
    (match I.memoffs.role with
     | some i =>
      [.cmpTbl (if I.memsz = 1 then .byteAddrNotBit else .wordAddrNotBit) 0 base (some i)]
     | none => [.bad])
  else [.cmpTbl .dwordAddrNotBit 0 base none]

/-- The register used for the check of a store, fastpath_x86.c:3953-3960. -/
def App1.storeScratch (I : App1) : Role := if I.needOffs then .r3 else .r2

/-- Checks of addressability, fastpath_x86.c:3812-4013. -/
def addrChecks (I : App1) : List Ins :=
  if I.load then
    (if I.checkedMem then [] else addrTbl I .r2 ++ [.jcc false .slow])
  else if I.store then
    [.movzx I.storeScratch .cell] ++ addrTbl I I.storeScratch ++ [.jcc false .slow]
  else []

/-- `load_reg_shadow_val`, fastpath_x86.c:2302-2345: the emitted code and the operand that holds
the value. -/
def loadShadow (target : Opnd) (i : Info) : List Ins × Info :=
  match i.shadow with
  | some sh => if sh = target then ([], i) else ([.mov target sh], { i with shadow := some target })
  | none => ([.bad], i)

/-- The sources left to propagate, with the shadow of the memory operand of a store replaced by
the register it has been loaded into (fastpath_x86.c:3963-3965). -/
def App1.psrcs (I : App1) : Info × Info × Info :=
  let f := fun i : Info =>
    if I.store && i.shadow == some .cell then { i with shadow := some (.lo I.storeScratch) } else i
  let (a, b, c) := I.srcs
  (f a, b, c)

/-- The shadow operand of the second destination. -/
def App1.info1 (I : App1) : Info :=
  match I.d1 with
  | some (g, h) => Info.ofReg g h
  | none => Info.none

/-- The scratch register for the propagation, fastpath_x86.c:4091-4105; `a` is the first source. -/
def App1.scratch (I : App1) (a : Info) : Role :=
  if (I.info I.d0).shadow == some .cell ||
    (!(I.chk && !I.markDefined) && a.shadow == some (.lo .r2)) then .r2
  else .r1

/-- Nothing to propagate: the destinations become defined, fastpath_x86.c:4131-4148. -/
def propZero (I : App1) (scratch : Role) : List Ins :=
  let sz := if I.chk && decide (I.opsz < 4) then 4 else I.opsz
  addDst2 I I.memoffs (I.info I.d0) I.info1 ⟨none, some (.imm 0), .const 0⟩ sz sz scratch true false

/-- One source to propagate, fastpath_x86.c:4149-4161. -/
def propOne (I : App1) (scratch : Role) (a : Info) : List Ins :=
  let l := loadShadow (.lo scratch) a
  let d0 := if !I.op.shadowOp && I.same I.s0 then ⟨(I.info I.d0).app, none, .const 0⟩ else I.info I.d0
  l.1 ++ addDst2 I I.memoffs d0 I.info1 l.2 I.srcOpsz I.opsz .r3 true false

/-- `merge_src_shadows` of the third source, fastpath_x86.c:4190-4197 and 4236-4249. -/
def orThird (scratch : Role) (c : Info) : List Ins :=
  match c.shadow with
  | some o => [.or (.lo scratch) o]
  | none => []

/-- Several sources to propagate, fastpath_x86.c:4162-4247. -/
def propMany (I : App1) (scratch : Role) (a b c : Info) : List Ins :=
  let alu := decide (I.opsz < 4) && I.alu
  let a' := if alu && I.store then b else a
  let b' := if alu && I.store then a else b
  let l := loadShadow (.lo scratch) a'
  l.1 ++
  (if alu then [] else on b'.shadow (fun o => .or (.lo scratch) o)) ++
  orThird scratch c ++
  addDst2 I I.memoffs (I.info I.d0) I.info1 l.2 I.srcOpsz I.opsz .r3 true alu

/-- Combining the sources and writing the destinations, fastpath_x86.c:4088-4256. -/
def propagate (I : App1) : List Ins :=
  let (a, b, c) := I.psrcs
  let n := if I.markDefined || I.chk then 0 else I.nprop0
  if n = 0 then propZero I (I.scratch a)
  else if n = 1 then propOne I (I.scratch a) a
  else propMany I (I.scratch a) a b c

/-- `instrument_fastpath`, fastpath_x86.c:3016-4441, as far as modelled. -/
def fastpath (I : App1) : List Ins :=
  let mem := I.load || I.store
  (if mem then [.lea .r1] else []) ++
  (if I.checkFlags then [.cmp .flags (.imm 0), .jcc false .slow] else []) ++
  (if mem then I.bases.flatMap fun g => [.cmp (.slot g) (.imm 0), .jcc false .slow] else []) ++
  (if mem then lookup I else []) ++
  checks I ++ addrChecks I ++ propagate I

end Verif.FastX86
