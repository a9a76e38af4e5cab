import Verif.Define

/-
Model of the reasons for which a use of an undefined value is not reported:
`result_is_always_defined` (drmemory/slowpath_x86.c:418-468), the exceptions for registers,
`check_undefined_reg_exceptions` with `is_rawmemchr_uninit`, `is_strrchr_uninit` and
`is_strlen_uninit` (drmemory/slowpath_x86.c:470-683), and the exception for memory, which is the
copy of a value through a floating-point register, `check_undefined_exceptions` with
`check_mem_copy_via_nongpr` (drmemory/slowpath_x86.c:685-922), its completion in
`slow_path_with_mc` (drmemory/slowpath.c:848-862) and its cancellation in
`event_restore_state` (drmemory/spill.c:539-546).

Simplified: an instruction is a record of what the code asks DynamoRIO about it; code that
cannot be decoded ends the list of instructions; operands with a segment register are left out.
Only release builds are modelled, so the assertions are not there.
-/

namespace Verif.Uninit

open Verif.Define (Sh)

/-! ### Results that do not depend on the operands -/

/-- The opcodes that slowpath_x86.c:452-463 names. -/
inductive Opc where
  | and_ | test | or_ | xor | pxor | xorps | xorpd | psubq | subps | subpd | other
deriving DecidableEq, Repr

/-- A source operand: an immediate, or a register or memory operand with a number that is the
same for operands that `opnd_same` takes for the same. -/
inductive Src where
  | imm (v : Int)
  | loc (id : Nat)
deriving DecidableEq, Repr

/-- The opcodes that clear their destination when both sources are the same,
slowpath_x86.c:461-462. -/
def Opc.clearsSelf : Opc → Bool
  | .xor | .pxor | .xorps | .xorpd | .psubq | .subps | .subpd => true
  | _ => false

/-- `result_is_always_defined`, slowpath_x86.c:418-468; `listed` is
`module_is_on_check_uninit_blocklist` with the test of the option. -/
def alwaysDefined (natively listed : Bool) (op : Opc) (s0 s1 : Src) : Bool :=
  (!natively && listed) ||
  (decide (op = .and_) && decide (s0 = .imm 0)) ||
  (decide (op = .test) && decide (s1 = .imm 0)) ||
  (decide (op = .or_) && decide (s0 = .imm (-1))) ||
  (op.clearsSelf && decide (s0 = s1))

/-! ### Registers -/

/-- The registers that matter here; `flags` is `REG_EFLAGS`. -/
inductive Reg where
  | eax | ecx | edx | ebx | esp | ebp | esi | edi | st (n : Nat) | flags
deriving DecidableEq, Repr

/-- What is asked about the opcode of the instruction that uses the value,
slowpath_x86.c:495, 511-512, 607, 646-647. -/
inductive Use where
  | xor | jnb | jz | cbr | other
deriving DecidableEq, Repr

/-- `instr_is_cbr` (slowpath_x86.c:607). -/
def Use.isCbr : Use → Bool
  | .jnb | .jz | .cbr => true
  | _ => false

/-- The surroundings: a byte of code if it can be read; the register that is the first source of
the instruction at an address, if there is one (slowpath_x86.c:572-574); the platform; whether
option -check_uninit_non_moves or -check_uninit_all is on (slowpath_x86.c:489-490). -/
structure Env where
  code : Nat → Option Nat
  src0 : Nat → Option Reg
  isUnix : Bool
  nonMoves : Bool

/-- The shadow registers: two bits for each byte, zero for defined (shadow.h:53-56). -/
abbrev Regs := Reg → Nat

/-- `register_shadow_set_ptrsz` and `set_shadow_eflags` with the value for defined. -/
def define (s : Regs) (r : Reg) : Regs := fun x => if x = r then 0 else s x

/-- `safe_read` and `memcmp`: these bytes are there and can be read. -/
def bytesAt (code : Nat → Option Nat) : Nat → List Nat → Bool
  | _, [] => true
  | a, b :: bs => decide (code a = some b) && bytesAt code (a + 1) bs

/-- The bytes that end `skip` bytes before the instruction. -/
def Env.before (e : Env) (pc skip : Nat) (bs : List Nat) : Bool :=
  decide (bs.length + skip ≤ pc) && bytesAt e.code (pc - skip - bs.length) bs

/-- `RAWMEMCHR_PATTERN_NONMOVES`, slowpath_x86.c:491. -/
def rawShort : List Nat := [0xbf, 0xff, 0xfe, 0xfe, 0xfe]

/-- `RAWMEMCHR_PATTERN`, slowpath_x86.c:507-508. -/
def rawLong : List Nat := [0xbf, 0xff, 0xfe, 0xfe, 0xfe, 0x31, 0xd1, 0x01, 0xcf]

/-- `STR_ROUTINE_PATTERN`, slowpath_x86.c:557-558. -/
def strRoutine : List Nat := [0xff, 0xfe, 0xfe, 0xfe, 0x01]

/-- `STRRCHR_PATTERN_1`, slowpath_x86.c:599-600. -/
def strrchr1 : List Nat := [0x81, 0xcf, 0xff, 0xfe, 0xfe, 0xfe, 0x47]

/-- `STRRCHR_PATTERN_2`, slowpath_x86.c:601-602. -/
def strrchr2 : List Nat := [0x81, 0xca, 0xff, 0xfe, 0xfe, 0xfe, 0x42]

/-- `STRLEN_PATTERN`, slowpath_x86.c:642-643. -/
def strlenCode : List Nat :=
  [0xfe, 0xfe, 0xfe, 0xf7, 0xd2, 0x21, 0xd0, 0x25, 0x80, 0x80, 0x80, 0x80]

/-- `(val & 0x3) == 0`, slowpath_x86.c:524, 575, 616. -/
def lowDefined (v : Nat) : Bool := decide (v % 4 = 0)

/-- `is_rawmemchr_uninit`, slowpath_x86.c:472-534. -/
def Env.rawmemchr (e : Env) (s : Regs) (pc : Nat) (reg : Reg) (u : Use) : Bool × Regs :=
  if e.nonMoves then
    if reg = .ecx ∧ u = .xor ∧ e.before pc 0 rawShort then (true, define s .ecx) else (false, s)
  else
    if reg = .flags ∧ u = .jnb ∧ e.before pc 0 rawLong ∧ lowDefined (s .ecx) then
      (true, define s .flags)
    else (false, s)

/-- The first half of `is_strrchr_uninit`, slowpath_x86.c:560-586. -/
def Env.strAdd (e : Env) (s : Regs) (pc : Nat) (reg : Reg) (u : Use) : Bool × Regs :=
  if reg = .flags ∧ u = .jnb ∧ e.before pc 1 strRoutine then
    match e.src0 (pc - 2) with
    | some r => if lowDefined (s r) then (true, define s .flags) else (false, s)
    | none => (false, s)
  else (false, s)

/-- The second half of `is_strrchr_uninit`, slowpath_x86.c:605-624, `matched` being the outcome
of the first. -/
def Env.strOr (e : Env) (matched : Bool) (s : Regs) (pc : Nat) (reg : Reg) (u : Use) :
    Bool × Regs :=
  if reg = .flags ∧ u.isCbr ∧ (e.before pc 0 strrchr1 ∨ e.before pc 0 strrchr2) then
    let val := if e.before pc 0 strrchr2 then s .edx else s .edi
    if lowDefined val then (true, define s .flags) else (matched, s)
  else (matched, s)

/-- `is_strrchr_uninit`, slowpath_x86.c:536-625. -/
def Env.strrchr (e : Env) (s : Regs) (pc : Nat) (reg : Reg) (u : Use) : Bool × Regs :=
  let r := e.strAdd s pc reg u
  e.strOr r.1 r.2 pc reg u

/-- `is_strlen_uninit`, slowpath_x86.c:628-655. -/
def Env.strlen (e : Env) (pc : Nat) (reg : Reg) (u : Use) : Bool :=
  decide (reg = .flags) && decide (u = .jz) && e.before pc 0 strlenCode

/-- `check_undefined_reg_exceptions`, slowpath_x86.c:660-683; `pc` is `none` for a system
call. -/
def Env.checkReg (e : Env) (s : Regs) (pc : Option Nat) (reg : Reg) (u : Use) : Bool × Regs :=
  match pc with
  | none => (false, s)
  | some pc =>
    if e.isUnix then
      let r := e.rawmemchr s pc reg u
      if r.1 then r
      else
        let r2 := e.strrchr r.2 pc reg u
        if r2.1 then r2 else (e.strlen pc reg u, r2.2)
    else (e.strlen pc reg u, s)

/-! ### Copies through floating-point registers -/

/-- A base-disp memory operand and its size. -/
structure Mem where
  base : Option Reg
  index : Option Reg
  scale : Nat
  disp : Int
  size : Nat
deriving DecidableEq, Repr

/-- An operand. -/
inductive Opnd where
  | reg (r : Reg)
  | mem (m : Mem)
  | other
deriving DecidableEq, Repr

/-- An instruction: its length; whether it is a cti, a system call, of a known opcode
(slowpath_x86.c:785); for OP_fld the destination (slowpath_x86.c:689, 768); for OP_fstp with a
register source and a memory destination these two (slowpath_x86.c:704-707); the registers that
`instr_writes_to_reg` names; the sources and the destinations. -/
structure Ins where
  len : Nat
  cti : Bool
  sys : Bool
  valid : Bool
  fld : Option Reg
  fstp : Option (Reg × Mem)
  writes : List Reg
  srcs : List Opnd
  dsts : List Opnd
deriving DecidableEq, Repr

/-- `NONGPR_MEMCOPY_MAX_DISTANCE`, slowpath_x86.c:772. -/
def maxDistance : Nat := 128

/-- The first pass, slowpath_x86.c:777-796, over the instructions from `pc` on, with those
passed so far: the instructions before the store, its operand and its address.  `next_pc` is
compared with the address of the instruction just looked at. -/
def findStore (x : Reg) : List Ins → Nat → List Ins → Option (List Ins × Mem × Nat)
  | [], _, _ => none
  | i :: rest, pc, pre =>
    if i.cti ∨ i.sys ∨ ¬ i.valid then none
    else
      match i.fstp with
      | some (r, m) =>
        if r = x then some (pre, m, pc)
        else if pc + i.len < pc + maxDistance then findStore x rest (pc + i.len) (pre ++ [i])
        else none
      | none =>
        if pc + i.len < pc + maxDistance then findStore x rest (pc + i.len) (pre ++ [i])
        else none

/-- `opnd_get_reg_used` of a memory operand. -/
def Mem.regs (m : Mem) : List Reg := m.base.toList ++ m.index.toList

/-- `allow_base_write`, slowpath_x86.c:813. -/
def Mem.allowBase (m : Mem) : Bool := decide (m.regs.length = 1)

/-- A write to a register of the store that is allowed, slowpath_x86.c:839-847: the source that
becomes `overlap_write`. -/
def overlapOf (m : Mem) (i : Ins) (ov : Option Opnd) : Option Opnd :=
  match ov, i.srcs, i.dsts with
  | none, [s], [.reg d] => if m.allowBase ∧ some d = m.base then some s else none
  | _, _, _ => none

/-- The loop over the registers of the store, slowpath_x86.c:824-849: the value of
`overlap_write` afterwards, or `none` for giving up. -/
def scanRegs (m : Mem) (i : Ins) : List Reg → Option Opnd → Option (Option Opnd)
  | [], ov => some ov
  | r :: rs, ov =>
    if r ∈ i.writes then
      match overlapOf m i ov with
      | none => none
      | some s => scanRegs m i rs (some s)
    else scanRegs m i rs ov

/-- The second pass, slowpath_x86.c:816-850: `overlap_write` and `writes_ebp`. -/
def scan (m : Mem) : List Ins → Option Opnd → Bool → Option (Option Opnd × Bool)
  | [], ov, ebp => some (ov, ebp)
  | i :: rest, ov, ebp =>
    match scanRegs m i m.regs ov with
    | none => none
    | some ov' => scan m rest ov' (ebp || decide (Reg.ebp ∈ i.writes))

/-- `reg_get_value`, with zero for no register. -/
def val (ρ : Reg → Nat) : Option Reg → Nat
  | none => 0
  | some r => ρ r

/-- `opnd_compute_address` with addresses of `w` bits. -/
def addrOf (w : Nat) (ρ : Reg → Nat) (m : Mem) : Nat :=
  (((val ρ m.base + val ρ m.index * m.scale : Nat) + m.disp) % ((2 ^ w : Nat) : Int)).toNat

/-- `reg_set_value`. -/
def setReg (ρ : Reg → Nat) (r : Reg) (v : Nat) : Reg → Nat := fun x => if x = r then v else ρ x

/-- The address of the store, slowpath_x86.c:852-872; zero is `NULL`. -/
def predict (w : Nat) (ρ : Reg → Nat) (rd : Nat → Option Nat) (m : Mem) (ov : Option Opnd)
    (ebp : Bool) : Nat :=
  match ov with
  | none => addrOf w ρ m
  | some (.mem s) =>
    if s.base = some .ebp ∧ s.index = none ∧ ¬ ebp then
      match rd (addrOf w ρ s), m.base with
      | some v, some b => addrOf w (setReg ρ b v) m
      | _, _ => 0
    else 0
  | some _ => 0

/-- The fields of `cls_drmem_t` for a copy that has begun (client_per_thread.h:59-62);
`source` zero is none. -/
structure Cpt where
  source : Nat
  dest : Nat
  prev : Sh
  pc : Nat
deriving DecidableEq, Repr

/-- The shadow memory and these fields. -/
structure St where
  sh : Nat → Sh
  cpt : Cpt

/-- `shadow_set_byte`. -/
def setSh (sh : Nat → Sh) (a : Nat) (v : Sh) : Nat → Sh := fun x => if x = a then v else sh x

/-- What the copy exception looks at: option -fpxmm_mem2mem_prop, the address width, the
registers, the words of memory, and the instructions from the one in question on. -/
structure Site where
  prop : Bool
  w : Nat
  ρ : Reg → Nat
  rd : Nat → Option Nat
  is : List Ins

/-- slowpath_x86.c:761-877: the address of the store and of its destination. -/
def Site.target (t : Site) (pc sz : Nat) : Option (Nat × Nat) :=
  match t.is with
  | [] => none
  | l :: rest =>
    match l.fld with
    | none => none
    | some x =>
      match findStore x rest (pc + l.len) [l] with
      | none => none
      | some (pre, m, spc) =>
        match scan m pre none false with
        | none => none
        | some (ov, ebp) =>
          let a := predict t.w t.ρ t.rd m ov ebp
          if a = 0 ∨ m.size ≠ sz then none else some (spc, a)

/-- `check_mem_copy_via_nongpr`, slowpath_x86.c:729-902, for byte `idx` of the reference, at
`addr`; `pc` is `none` for a system call. -/
def Site.copy (t : Site) (s : St) (pc : Option Nat) (addr sz idx : Nat) : Bool × St :=
  if s.cpt.source ≠ 0 then (true, s)
  else if t.prop = false then (false, s)
  else
    match pc with
    | none => (false, s)
    | some pc =>
      if addr = 0 then (false, s)
      else
        match t.target pc sz with
        | none => (false, s)
        | some (spc, a) =>
          (true,
            { sh := setSh s.sh a .bitlevel
              cpt :=
                { source := addr - idx
                  dest := a
                  prev := s.sh a
                  pc := spc } })

/-- `check_undefined_exceptions`, slowpath_x86.c:904-922. -/
def Site.checkMem (t : Site) (s : St) (pushpop write : Bool) (pc : Option Nat)
    (addr sz idx : Nat) : Bool × St :=
  if pushpop = false ∧ write = false then t.copy s pc addr sz idx else (false, s)

/-- The completion at a store in the slow path, slowpath.c:848-862: `comb.movs_addr`, from which
the definedness is copied. -/
def atStore (s : St) (pc : Nat) : Option Nat × St :=
  if s.cpt.source ≠ 0 ∧ s.cpt.pc = pc then
    (some s.cpt.source,
      { sh := setSh s.sh s.cpt.dest s.cpt.prev
        cpt :=
          { s.cpt with
            source := 0 } })
  else (none, s)

/-- The cancellation when a thread is moved, spill.c:539-546.  The `info` passed to
`shadow_set_byte` (shadow.c:453-463) is not initialised: when the address lies in the range that
happens to be in it, the shadow is written through whatever else is in it, `none` here. -/
def relocate (gbase gsize : Nat) (s : St) : Option St :=
  if s.cpt.source ≠ 0 then
    if gbase ≤ s.cpt.dest ∧ s.cpt.dest < gbase + gsize then none
    else some
      { sh := setSh s.sh s.cpt.dest s.cpt.prev
        cpt :=
          { s.cpt with
            source := 0 } }
  else some s

end Verif.Uninit
