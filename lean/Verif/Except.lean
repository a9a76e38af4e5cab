import Verif.MemRef

/-
Model of the exceptions made for accesses to unaddressable memory,
drmemory/alloc_drmem.c:1663-2501 (`check_unaddressable_exceptions` and the patterns it
looks for, x86 build), with the table of stack probes that the fast path consults
(drmemory/fastpath_x86.c:3223-3241) and the walk over a Windows allocation
(drmemory/drmemory.c:745-800).

Instructions are what the decoder delivers: an opcode, two sources and a destination.
Addresses are natural numbers.  What the tool asks its surroundings (decoding, safe
reads, heap regions, modules, the thread's state) is in `Env`; the ARM build, the
macOS module names, the logging and the statistics are not modelled.
-/

namespace Verif.Except

open Verif.Define (Sh)

/-- The shadow memory. -/
abbrev Shadow := Nat → Sh

/-- Registers as the code names them; in a 64-bit build `eax` is still the 32-bit
register, and the 64-bit ones (but r11) are `other`. -/
inductive Reg where
  | null | eax | ecx | edx | ebx | esp | esi | r11
  | other (n : Nat)
deriving DecidableEq, Repr

/-- The opcodes the code looks for.  `invalid` is an instruction that is decoded but not
valid, `prefetch` is `instr_is_prefetch`, `call` is `instr_is_call`. -/
inductive Op where
  | test | movLd | movSt | movImm | or | cmp | xchg | jmp | jmpShort | add | sub | xor | lea
  | push | call | prefetch | invalid
  | other (n : Nat)
deriving DecidableEq, Repr

/-- Operands.  `mem` is `opnd_is_base_disp`; `abs` are the other memory references. -/
inductive Opnd where
  | none
  | reg (r : Reg) (size : Nat)
  | mem (base index : Reg) (scale : Nat) (disp : Int)
  | imm (v : Int)
  | pc (a : Nat)
  | abs (a : Nat)
deriving DecidableEq, Repr

/-- A decoded instruction. -/
structure Instr where
  op : Op
  src0 : Opnd := .none
  src1 : Opnd := .none
  dst : Opnd := .none
deriving DecidableEq, Repr

/-- Where the access comes from (`app_loc_t`, drmemory/report.h). -/
inductive Loc where
  | pc (a : Nat)
  | syscall
deriving DecidableEq, Repr

/-- What the code asks.  `decode` is `safe_decode` (common/utils.c:147-160): `none` if the
bytes cannot be read, else the instruction and where the next one starts.  `read8`,
`read32` and `readPtr` are `safe_read`.  `junk` is what `opnd_get_immed_int` delivers for an
operand that is no immediate.  `alloc` is `allocation_size` (base and size), `mark` is
`mmap_walk` with `add`. -/
structure Env where
  x64 : Bool
  windows : Bool
  decode : Nat → Option (Instr × Nat)
  read8 : Nat → Option Nat
  read32 : Nat → Option Nat
  readPtr : Nat → Option Nat
  junk : Opnd → Int
  ea : Opnd → Nat
  readable : Nat → Bool
  inHeap : Nat → Bool
  inHeapRoutine : Bool
  inSeh : Bool
  leaveCrit : Nat
  inTool : Nat → Bool
  modName : Nat → Option (Option (List Char))
  tlsSlots : Nat
  tlsExp : Option Nat
  tlsBits : Nat → Nat
  expBits : Nat → Nat
  checkPrefetch : Bool
  shadowing : Bool
  defineUnknown : Bool
  checkStackBounds : Bool
  highUser : Nat
  alloc : Nat → Option (Nat × Nat)
  mark : Nat → Nat → Shadow → Shadow

/-- `sizeof(void*)`. -/
def Env.ptr (e : Env) : Nat := if e.x64 then 8 else 4

/-- A comparison of a `ptr_int_t` with an unsigned 32-bit constant, as C makes it: in a
64-bit build both are 64 bits wide, else the value is taken modulo 2^32. -/
def Env.eqConst (e : Env) (v : Int) (k : Nat) : Bool :=
  if e.x64 then decide (v = (k : Int)) else decide (v % 4294967296 = (k : Int))

/-- `opnd_get_immed_int`. -/
def Env.immed (e : Env) : Opnd → Int
  | .imm v => v
  | o => e.junk o

/-- `opnd_is_immed_int`. -/
def isImm : Opnd → Bool
  | .imm _ => true
  | _ => false

/-- `opnd_is_reg`. -/
def isReg : Opnd → Bool
  | .reg _ _ => true
  | _ => false

/-- `opnd_is_reg` and `opnd_get_reg` is `r`. -/
def isTheReg (r : Reg) : Opnd → Bool
  | .reg q _ => decide (q = r)
  | _ => false

/-- `opnd_is_reg` and `opnd_get_size` is `OPSZ_PTR`. -/
def Env.isPtrReg (e : Env) : Opnd → Bool
  | .reg _ n => decide (n = e.ptr)
  | _ => false

/-- A base and a displacement out of `ds`, without an index: the tests of
`opnd_is_base_disp`, `opnd_get_base`, `opnd_get_index`, `opnd_get_scale` and
`opnd_get_disp`, e.g. alloc_drmem.c:1918-1922. -/
def isMem (b : Reg) (ds : List Int) : Opnd → Bool
  | .mem base index scale disp =>
    decide (base = b) && decide (index = .null) && decide (scale = 0) && ds.contains disp
  | _ => false

/-- `opnd_is_memory_reference`. -/
def isMemory : Opnd → Bool
  | .mem _ _ _ _ => true
  | .abs _ => true
  | _ => false

/-- The instruction after a probe `test [base],eax`, alloc_drmem.c:1893-1908. -/
def afterProbe (base : Reg) (n : Instr) : Bool :=
  match n.op with
  | .cmp => isTheReg .eax n.src0 && isImm n.src1
  | .movLd => isTheReg base n.src0 && isTheReg .esp n.dst
  | .movSt => isTheReg base n.src0 && isTheReg .esp n.dst
  | .xchg => isTheReg .esp n.src0
  | .jmp => true
  | .jmpShort => true
  | _ => false

/-- A byte read before the instruction is `b`: `safe_read(pc-1, ...) && prev_byte == b`. -/
def Env.prevByte (e : Env) (pc b : Nat) : Bool := decide (e.read8 (pc - 1) = some b)

/-- `is_alloca_pattern`, alloc_drmem.c:1764-1972. -/
def Env.alloca (e : Env) (pc next : Nat) (i : Instr) : Bool :=
  match i.op, i.src0 with
  | .test, .mem base index scale disp =>
    -- 1881-1915
    if index = .null ∧ scale = 0 ∧ disp = 0 ∧ isTheReg .eax i.src1 then
      match e.decode next with
      | none => false
      | some (n, _) => afterProbe base n
    else false
  | .movLd, s =>
    -- 1917-1931
    isMem .eax [0] s && isTheReg .eax i.dst && e.prevByte pc 0x94
  | .or, s =>
    -- 1933-1947
    isMem .ecx [0] i.dst && isImm s && decide (e.immed s = 0)
  | .movSt, s =>
    -- 1949-1963
    e.x64 && isMem .r11 [0] i.dst && isImm s && decide (e.immed s = 0) && e.prevByte pc 0xff
  | _, _ => false

/-- `is_strlen_pattern`, alloc_drmem.c:1974-2073.  `none`: the tool faults, for the four
bytes at `next` are read with no guard (2026). -/
def Env.strlen (e : Env) (pc next addr : Nat) (i : Instr) : Option Bool :=
  if addr % 4 ≠ 0 ∧ i.op = .movLd ∧ isMem .ecx [0, -4] i.src0 ∧ isTheReg .eax i.dst then
    match e.read32 next with
    | none => none
    | some raw =>
      match e.decode next with
      | none => some false
      | some (n, _) =>
        some (decide (n.op ≠ .invalid) &&
          (decide (raw = 0x3274c084) ||
            (decide (n.op = .movImm) && isImm n.src0 && e.eqConst (e.immed n.src0) 0x7efefeff &&
              isTheReg .edx n.dst)))
  else if addr % 4 ≠ 0 ∧ i.op = .movLd ∧ isMem .esi [0] i.src0 ∧
      (isTheReg .eax i.dst ∨ isTheReg .edx i.dst) then
    match e.read32 (pc - 4) with
    | none => some false
    | some raw => some (decide (raw = 0x7efefeff) || decide (raw = 0xc233fff0))
  else some false

/-- `lea eax,[ecx+0xfefefeff]`, alloc_drmem.c:2131-2137; the displacement is an `int` and
compared as an unsigned number. -/
def isMagicLea (n : Instr) : Bool :=
  decide (n.op = .lea) && isTheReg .eax n.dst &&
    match n.src0 with
    | .mem base index scale disp =>
      decide (base = .ecx) && decide (index = .null) && decide (scale = 0) &&
        decide (disp % 4294967296 = 0xfefefeff)
    | _ => false

/-- `is_strcpy_pattern`, alloc_drmem.c:2075-2146. -/
def Env.strcpy (e : Env) (next addr : Nat) (i : Instr) : Bool :=
  if addr % 4 ≠ 0 ∧ i.op = .movLd ∧ isMem .ebx [0] i.src0 ∧ isTheReg .ecx i.dst then
    match e.decode next with
    | none => false
    | some (n, next2) =>
      if n.op = .invalid then false
      else
        match e.decode next2 with
        | none => false
        | some (m, _) => isMagicLea m
  else false

/-- The instruction with the magic constant, alloc_drmem.c:1747-1752. -/
def Env.isMagic (e : Env) (n : Instr) : Bool :=
  (decide (n.op = .movImm) || decide (n.op = .add)) &&
    (e.eqConst (e.immed n.src0) 0xfefefeff || e.eqConst (e.immed n.src0) 0x7efefeff) &&
    isReg n.dst

/-- The `xor` that is skipped, alloc_drmem.c:1719-1728: the instruction to look at next and
where the one after it starts, `none` if it cannot be decoded. -/
def Env.skipXor (e : Env) (n : Instr × Nat) : Option (Instr × Nat) :=
  if n.1.op = .xor ∧ isReg n.1.src0 ∧ e.isPtrReg n.1.dst then e.decode n.2 else some n

/-- The `add` and `sub` that are skipped, alloc_drmem.c:1729-1746. -/
def Env.skipAddSub (e : Env) (n : Instr × Nat) : Option (Instr × Nat) :=
  if n.1.op = .add ∧ isImm n.1.src0 ∧ e.isPtrReg n.1.dst then
    match e.decode n.2 with
    | none => none
    | some m => if m.1.op = .sub ∧ isReg m.1.src0 ∧ e.isPtrReg m.1.dst then e.decode m.2 else some m
  else some n

/-- `is_rawmemchr_pattern`, alloc_drmem.c:1663-1762. -/
def Env.rawmemchr (e : Env) (next addr : Nat) (i : Instr) : Bool :=
  match e.decode next with
  | none => false
  | some n =>
    if addr % 4 ≠ 0 ∧ i.op = .movLd ∧ e.isPtrReg i.dst then
      match e.skipXor n with
      | none => false
      | some n =>
        match e.skipAddSub n with
        | none => false
        | some n => e.isMagic n.1
    else false

/-- `sizeof(RTL_CRITICAL_SECTION)`. -/
def Env.critSize (e : Env) : Nat := if e.x64 then 40 else 24

/-- `is_heap_seh`, alloc_drmem.c:2171-2229: whether it matches, and
`cpt->heap_critsec` afterwards. -/
def Env.heapSeh (e : Env) (crit next addr : Nat) (i : Instr) : Bool × Nat :=
  if ¬ e.inSeh ∨ ¬ e.inHeap addr then (false, crit)
  else if crit ≤ addr ∧ addr < crit + e.critSize then (true, crit)
  else if i.op = .push ∧ isMemory i.src0 then
    match e.decode next with
    | none => (false, crit)
    | some (n, _) =>
      if n.op = .call ∧ n.src0 = .pc e.leaveCrit then
        match e.readPtr (e.ea i.src0) with
        | none => (false, crit)
        | some c => (true, c)
      else (false, crit)
  else (false, crit)

/-- The state: the shadow memory, `ignore_unaddr_table` (drmemory/instru.c:61),
`cpt->heap_critsec` and the ranges for which a warning was given. -/
structure St where
  sh : Shadow
  table : List Nat
  crit : Nat
  warned : List Nat

/-- `hashtable_add` of `add_alloca_exception`, alloc_drmem.c:2236-2255. -/
def St.addProbe (s : St) (pc : Nat) : St :=
  if pc ∈ s.table then s else { s with table := pc :: s.table }

/-- The patterns tried one after the other, alloc_drmem.c:2274-2307: the match, whether
unreadable memory is allowed, and the state. -/
def Env.patterns (e : Env) (s : St) (pc next addr : Nat) (i : Instr) : Option (Bool × Bool × St) :=
  if e.alloca pc next i then some (true, true, s.addProbe pc)
  else
    match e.strlen pc next addr i with
    | none => none
    | some true => some (true, false, s)
    | some false =>
      if e.strcpy next addr i then some (true, false, s)
      else if e.rawmemchr next addr i then some (true, false, s)
      else if i.op = .prefetch then
        -- 2149-2169
        some (true, true, if e.checkPrefetch then { s with warned := s.warned ++ [addr] } else s)
      else if e.windows then
        let r := e.heapSeh s.crit next addr i
        some (r.1, false, { s with crit := r.2 })
      else some (false, false, s)

/-- `is_ok_unaddressable_pattern`, alloc_drmem.c:2257-2327.  No pattern sets
`now_addressable`, so 2320-2324 are never reached. -/
def Env.okPattern (e : Env) (s : St) (loc : Loc) (addr : Nat) : Option (Bool × St) :=
  match loc with
  | .syscall => some (false, s)
  | .pc pc =>
    match e.decode pc with
    | none => some (false, s)
    | some (i, next) =>
      match e.patterns s pc next addr i with
      | none => none
      | some (m, unreadableOk, s') =>
        if m ∧ ¬ unreadableOk ∧ ¬ e.readable addr then some (false, s') else some (m, s')

/-- `TLS_EXPANSION_BITMAP_SLOTS`, common/windefs.h:467. -/
def expSlots : Nat := 1024

/-- `(Buffer[slot/32] & (1 << (slot % 32))) != 0`, alloc_drmem.c:2442 and 2448. -/
def bitSet (buf : Nat → Nat) (slot : Nat) : Bool :=
  decide (buf (slot / 32) &&& (1 <<< (slot % 32)) ≠ 0)

/-- The test for the thread's slots, alloc_drmem.c:2429-2461: `none` if the address is not
taken for one of them, else the result. -/
def Env.tls (e : Env) (addr : Nat) : Option Bool :=
  if e.tlsSlots ≤ addr ∧ addr < e.tlsSlots + 64 * e.ptr then
    some (bitSet e.tlsBits ((addr - e.tlsSlots) / e.ptr))
  else
    match e.tlsExp with
    | none => none
    | some x =>
      if x ≤ addr ∧ addr < x + expSlots then some (bitSet e.expBits ((addr - x) / e.ptr)) else none

/-- `is_loader_exception`, alloc_drmem.c:2329-2375 (Linux).  `none`: the place is a system
call, for which `loc_to_pc` (drmemory/instru.c:1374-1380) reads the wrong member of a
union. -/
def Env.loader (e : Env) (loc : Loc) (addr : Nat) : Option Bool :=
  if e.inTool addr then
    match loc with
    | .syscall => none
    | .pc pc =>
      match e.modName pc with
      | none => some false
      | some none => some false
      | some (some n) =>
        some ("ld-linux".toList.isPrefixOf n || e.inTool pc || "libgcc_s.so".toList.isPrefixOf n)
  else some false

/-- The last resort, alloc_drmem.c:2469-2500: an unknown region is marked as defined. -/
def Env.unknown (e : Env) (s : St) (addr : Nat) (onStack : Bool) : Bool × St :=
  if e.shadowing ∧ e.defineUnknown ∧ ¬ e.inHeap addr ∧ (¬ e.checkStackBounds ∨ ¬ onStack) ∧
      (¬ e.windows ∨ addr < e.highUser) then
    match e.alloc addr with
    | none => (false, s)
    | some (base, sz) =>
      if 0 < sz ∧ base ≠ 0 then (true, { s with sh := e.mark base sz s.sh }) else (false, s)
  else (false, s)

/-- alloc_drmem.c:2467-2500. -/
def Env.rest (e : Env) (s : St) (loc : Loc) (addr : Nat) (onStack : Bool) : Option (Bool × St) :=
  match e.okPattern s loc addr with
  | none => none
  | some (true, s') => some (true, s')
  | some (false, s') => some (e.unknown s' addr onStack)

/-- `check_unaddressable_exceptions`, alloc_drmem.c:2377-2501: whether the access is
excused, and the state afterwards; `none` if the tool itself does something undefined. -/
def Env.check (e : Env) (s : St) (loc : Loc) (addr : Nat) (onStack : Bool) : Option (Bool × St) :=
  if e.inHeap addr ∧ e.inHeapRoutine then some (true, s)
  else if e.windows then
    match e.tls addr with
    | some ok => some (ok, s)
    | none => e.rest s loc addr onStack
  else
    match e.loader loc addr with
    | none => none
    | some true => some (true, s)
    | some false => e.rest s loc addr onStack

/-- A basic block is built and the instruction at `pc` is instrumented,
drmemory/fastpath_x86.c:3223-3241: whether unaddressable accesses are ignored there, and
the table afterwards. -/
def Env.build (e : Env) (t : List Nat) (pc next : Nat) (i : Instr) : Bool × List Nat :=
  if pc ∈ t then
    if e.alloca pc next i then (true, t) else (false, t.filter (· ≠ pc))
  else (false, t)

/-- A piece of a Windows allocation: whether it is only reserved, and its size. -/
structure Piece where
  reserved : Bool
  size : Nat
deriving DecidableEq, Repr

/-- `shadow_set_range`. -/
def setRange (sh : Shadow) (a b : Nat) (v : Sh) : Shadow :=
  fun x => if a ≤ x ∧ x < b then v else sh x

/-- The loop of `mmap_walk`, drmemory/drmemory.c:774-799, with `add`; the list is what the
queries from `pc` on deliver while they stay in the allocation. -/
def winLoop (lim : Nat) : List Piece → Nat → Nat → Nat → Shadow → Shadow
  | [], mb, me, _, sh => if me > mb then setRange sh mb me .defined else sh
  | p :: ps, mb, me, pc, sh =>
    if pc < lim then
      if p.reserved then
        winLoop lim ps (me + p.size) (me + p.size) (pc + p.size) (setRange sh mb me .defined)
      else winLoop lim ps mb (me + p.size) (pc + p.size) sh
    else if me > mb then setRange sh mb me .defined else sh

/-- `mmap_walk` on Windows from the base of an allocation with the given pieces,
drmemory/drmemory.c:749-800. -/
def winWalk (base size : Nat) (ps : List Piece) (sh : Shadow) : Shadow :=
  match ps with
  | [] => sh
  | p :: rest =>
    if p.reserved then winLoop (base + size) (p :: rest) base base base sh
    else winLoop (base + size) rest base (base + p.size) (base + p.size) sh

end Verif.Except
