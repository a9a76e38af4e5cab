/-!
# C63: scratch registers and flags spilled over a whole basic block

In shadow mode Dr. Memory picks two scratch registers per basic block, saves them to
thread-local slots at their first use by the instrumentation, and restores them only where the
application reads them and at the end of the block; the arithmetic flags are treated in the same
way (PR 489221).  Registers and flags that a look ahead finds dead are not saved at all.  This
file models the generator (/repo/drmemory/spill.c:885-1157, 1395-1688, 1770-1781,
/repo/drmemory/fastpath_x86.c:140-205) and a machine for the code it emits.

Simplifications.  Values of registers are split into the low byte, the second byte (al and ah of
eax) and the rest.  The code that the instrumentation of an instruction consists of besides the
spills is one step that may do what its marks allow (`BodyOk`, SpillThms).  The search for the
place of a spill (spill.c:1459-1483, 1490-1515) is replaced by what it achieves: registers are
spilled before the flags, both before everything else of the instruction's instrumentation.
Sharing of translations (`-share_xl8`, off by default) and instructions expanded to loops are
left out.
-/

namespace Verif.Spill

/-- A register value: low byte, second byte, the rest. -/
structure W where
  al : Nat
  ah : Nat
  hi : Nat
deriving DecidableEq

/-- Overflow flag; 0 to 4 are carry, parity, auxiliary carry, zero and sign. -/
def OF : Nat := 5

/-- State of the application: registers, flags 0 to 5, and memory (anything else). -/
structure A (μ : Type) where
  reg : Nat → W
  flag : Nat → Bool
  mem : μ

/-- The machine: the state of the application and the spill slots. -/
structure M (μ : Type) where
  reg : Nat → W
  flag : Nat → Bool
  mem : μ
  slot : Nat → W

/-- `SPILL_SLOT_1` for the first scratch register (/repo/drmemory/spill.c:1284). -/
def s1 : Nat := 1
/-- `SPILL_SLOT_2` for the second scratch register (/repo/drmemory/spill.c:1293). -/
def s2 : Nat := 2
/-- `SPILL_SLOT_EFLAGS_EAX` (/repo/drmemory/spill.h:49). -/
def sE : Nat := 3
/-- `SPILL_SLOT_5` for eax while it is used to move flags (/repo/drmemory/spill.c:1010). -/
def s5 : Nat := 5

/-- The register eax. -/
def eax : Nat := 0

/-- What the instrumentation of an instruction asks for: a scratch register
(`mark_scratch_reg_used`) or the flags (`mark_eflags_used`; the argument tells whether the place
of the save is the application instruction itself, whose opcode is looked at). -/
inductive Mark where
  | r1
  | r2
  | fl (atApp : Bool)
deriving DecidableEq

/-- An application instruction together with its instrumentation. -/
structure Ins (μ : Type) where
  /-- `instr_reads_from_reg` -/
  reads : Nat → Bool
  /-- `instr_writes_to_reg` with `DR_QUERY_INCLUDE_ALL` -/
  may : Nat → Bool
  /-- `instr_writes_to_reg` with `DR_QUERY_DEFAULT`: conditional writes not counted -/
  must : Nat → Bool
  /-- `instr_writes_to_exact_reg`: the whole register -/
  exact : Nat → Bool
  /-- flags read -/
  fReads : Nat → Bool
  /-- flags written, `DR_QUERY_INCLUDE_ALL` -/
  fMay : Nat → Bool
  /-- flags written, `DR_QUERY_DEFAULT` -/
  fMust : Nat → Bool
  cti : Bool
  cmov : Bool
  jcc : Bool
  /-- `result_is_always_defined(inst, true)` and the first source has four bytes or more
  (/repo/drmemory/spill.c:1561-1567) -/
  skip : Bool
  /-- `bi->eflags_defined` after the instrumentation of this instruction -/
  flagsDefined : Bool
  /-- `bi->added_instru` is set by this instruction -/
  added : Bool
  /-- what the instrumentation asks for, in order -/
  marks : List Mark
  /-- the instrumentation itself -/
  body : M μ → M μ
  /-- what the instruction does -/
  sem : A μ → A μ

/-! ## The machine -/

/-- The emitted instructions: store to a slot, load from a slot, exchange with eax, and the four
instructions that move flags (/repo/drmemory/spill.c:899-931). -/
inductive Op (μ : Type) where
  | store (slot r : Nat)
  | load (r slot : Nat)
  | xchg (r : Nat)
  | lahf
  | seto
  | addAl
  | sahf
  | body (f : M μ → M μ)
  | app (f : A μ → A μ)

/-- Replace one entry of a table. -/
def upd {α : Type} (f : Nat → α) (k : Nat) (v : α) : Nat → α := fun x => if x = k then v else f x

/-- A Boolean as a number. -/
def b2n (b : Bool) : Nat := if b then 1 else 0

/-- The byte that `lahf` stores: SF ZF 0 AF 0 PF 1 CF. -/
def pack (c p a z s : Bool) : Nat :=
  b2n c + 2 + 4 * b2n p + 16 * b2n a + 64 * b2n z + 128 * b2n s

/-- The bit of that byte that holds a flag. -/
def bitOf : Nat → Nat
  | 0 => 0
  | 1 => 2
  | 2 => 4
  | 3 => 6
  | _ => 7

/-- The flags after `add $0x7f,%al` and `sahf`, or after `sahf` alone: from the second byte, and
overflow from the addition (it overflows for 1 to 127). -/
def unpack (v : W) (f : Nat) : Bool :=
  if f < 5 then v.ah.testBit (bitOf f) else decide (1 ≤ v.al % 256 ∧ v.al % 256 < 128)

/-- One emitted instruction. -/
def step {μ : Type} (m : M μ) : Op μ → M μ
  | .store k r => { m with slot := upd m.slot k (m.reg r) }
  | .load r k => { m with reg := upd m.reg r (m.slot k) }
  | .xchg r => { m with reg := upd (upd m.reg eax (m.reg r)) r (m.reg eax) }
  | .lahf =>
    { m with reg := upd m.reg eax { m.reg eax with
        ah := pack (m.flag 0) (m.flag 1) (m.flag 2) (m.flag 3) (m.flag 4) } }
  | .seto => { m with reg := upd m.reg eax { m.reg eax with al := b2n (m.flag OF) } }
  | .addAl =>
    { m with
      reg := upd m.reg eax { m.reg eax with al := ((m.reg eax).al % 256 + 127) % 256 }
      flag := upd m.flag OF (unpack (m.reg eax) OF) }
  | .sahf => { m with flag := fun f => if f < 5 then unpack (m.reg eax) f else m.flag f }
  | .body f => f m
  | .app f =>
    let a := f { reg := m.reg, flag := m.flag, mem := m.mem }
    { m with reg := a.reg, flag := a.flag, mem := a.mem }

/-- A sequence of emitted instructions. -/
def exec {μ : Type} (ops : List (Op μ)) (m : M μ) : M μ := ops.foldl step m

/-! ## Looking ahead -/

/-- What the look ahead finds out about the flags. -/
inductive AF where
  /-- `EFLAGS_WRITE_6`: all written before any is read -/
  | allDead
  /-- `EFLAGS_WRITE_OF`: the overflow flag is written before it is read -/
  | ofDead
  | other
deriving DecidableEq

/-- The flag is written already or by this instruction. -/
def wrote {μ : Type} (w : Nat → Bool) (i : Ins μ) : Nat → Bool := fun f => w f || i.fMust f

/-- The six flags. -/
def six : List Nat := [0, 1, 2, 3, 4, 5]

/-- The part of `get_aflags_and_reg_liveness` that is about flags
(/repo/drmemory/fastpath_x86.c:164-205); `w` are the flags written so far. -/
def aflagsFrom {μ : Type} (w : Nat → Bool) : List (Ins μ) → AF
  | [] => if w OF then .ofDead else .other
  | i :: rest =>
    if six.any (fun f => i.fReads f && !w f) then .other
    else if six.all (wrote w i) then .allDead
    else if i.cti then (if wrote w i OF then .ofDead else .other)
    else aflagsFrom (wrote w i) rest

/-- Liveness of the flags before a sequence of instructions. -/
def aflags {μ : Type} (l : List (Ins μ)) : AF := aflagsFrom (fun _ => false) l

/-- The part that is about registers (/repo/drmemory/fastpath_x86.c:186-200): is it
`LIVE_DEAD`? -/
def dead {μ : Type} (r : Nat) : List (Ins μ) → Bool
  | [] => false
  | i :: rest =>
    if i.cti then false
    else if i.reads r then false
    else if i.exact r && i.must r then true
    else dead r rest

/-! ## The generator -/

/-- The scratch registers of the block (`pick_bb_scratch_regs`, /repo/drmemory/spill.c:1180-1316). -/
structure Cfg where
  r1 : Nat
  r2 : Nat

/-- The fields of `bb_info_t` that change from instruction to instruction. -/
structure Bi where
  used1 : Bool
  used2 : Bool
  eflagsUsed : Bool
  added : Bool

/-- At the start of a block. -/
def Bi.init : Bi := { used1 := false, used2 := false, eflagsUsed := false, added := false }

/-- Is eax free, so that flags can be moved through it
(/repo/drmemory/spill.c:1000-1002, 1123-1126)? -/
def eaxFree (c : Cfg) (eaxDead av1 av2 : Bool) : Bool :=
  eaxDead || (c.r1 == eax && av1) || (c.r2 == eax && av2)

/-- Put eax away: into a free scratch register or a slot (/repo/drmemory/spill.c:1017-1029). -/
def putAway {μ : Type} (c : Cfg) (av1 av2 : Bool) : List (Op μ) :=
  if av1 then [.xchg c.r1] else if av2 then [.xchg c.r2] else [.store s5 eax]

/-- Get eax back. -/
def getBack {μ : Type} (c : Cfg) (av1 av2 : Bool) : List (Op μ) :=
  if av1 then [.xchg c.r1] else if av2 then [.xchg c.r2] else [.load eax s5]

/-- `save_aflags_if_live` (/repo/drmemory/spill.c:990-1100), `eflags_used` being set. -/
def saveFlags {μ : Type} (c : Cfg) (eaxDead av1 av2 : Bool) (af : AF) : List (Op μ) :=
  if af = .allDead then []
  else
    let free := eaxFree c eaxDead av1 av2
    (if free then [] else putAway c av1 av2) ++ [.lahf] ++
      (if af = .ofDead then [] else [.seto]) ++ [.store sE eax] ++
      (if free then [] else getBack c av1 av2)

/-- `restore_aflags_if_live` (/repo/drmemory/spill.c:1102-1157), `eflags_used` being set. -/
def restoreFlags {μ : Type} (c : Cfg) (eaxDead av1 av2 : Bool) (af : AF) : List (Op μ) :=
  let free := eaxFree c eaxDead av1 av2
  (if free then [] else putAway c av1 av2) ++ [.load eax sE] ++
    (if af = .ofDead then [] else [.addAl]) ++ [.sahf] ++
    (if free then [] else getBack c av1 av2)

/-- The code at the top of an instruction's instrumentation: spilled registers, then flags. -/
structure Top (μ : Type) where
  spills : List (Op μ)
  flags : List (Op μ)

/-- `mark_scratch_reg_used` and `mark_eflags_used` (/repo/drmemory/spill.c:1456-1516), for
an instruction `i` followed by `rest`. -/
def mark {μ : Type} (c : Cfg) (i : Ins μ) (rest : List (Ins μ)) (p : Top μ × Bi) :
    Mark → Top μ × Bi
  | .r1 =>
    if p.2.used1 then p
    else ({ p.1 with spills :=
              (if dead c.r1 (i :: rest) then [] else [.store s1 c.r1]) ++ p.1.spills },
          { p.2 with used1 := true })
  | .r2 =>
    if p.2.used2 then p
    else ({ p.1 with spills :=
              (if dead c.r2 (i :: rest) then [] else [.store s2 c.r2]) ++ p.1.spills },
          { p.2 with used2 := true })
  | .fl atApp =>
    if p.2.eflagsUsed || aflags (i :: rest) == .allDead then p
    else ({ p.1 with flags :=
              (saveFlags c (dead eax (i :: rest)) false (p.2.used2 && !(i.cmov && atApp))
                (aflags (i :: rest))) },
          { p.2 with eflagsUsed := true })

/-- All marks of an instruction. -/
def marks {μ : Type} (c : Cfg) (i : Ins μ) (rest : List (Ins μ)) (b : Bi) : Top μ × Bi :=
  i.marks.foldl (mark c i rest)
    ({ spills := [], flags := [] }, { b with added := b.added || i.added })

/-- Before the instruction reads, or writes a part of, a scratch register its value is restored
(/repo/drmemory/spill.c:1568-1623). -/
def needsReg {μ : Type} (i : Ins μ) (r : Nat) : Bool :=
  i.reads r || (i.may r && !i.exact r) || (i.may r && !i.must r)

/-- `instr_needs_eflags_restore` (/repo/drmemory/spill.c:1518-1529). -/
def needsFlags {μ : Type} (i : Ins μ) (af : AF) : Bool :=
  six.any i.fReads || (six.any i.fMay && af != .allDead)

/-- `insert_spill_global` to restore (/repo/drmemory/spill.c:885-897). -/
def restoreReg {μ : Type} (used isDead : Bool) (r slot : Nat) : List (Op μ) :=
  if used && !isDead then [.load r slot] else []

/-- The first half of `fastpath_pre_app_instr`, for an instruction that is not the last
(/repo/drmemory/spill.c:1551-1624). -/
def preApp {μ : Type} (c : Cfg) (i : Ins μ) (rest : List (Ins μ)) (b : Bi) :
    List (Op μ) × Bi :=
  let nf := needsFlags i (aflags (i :: rest))
  ((if nf && b.eflagsUsed then
      restoreFlags c (dead eax (i :: rest)) (b.used1 && !i.cmov) (b.used2 && !i.cmov)
        (aflags (i :: rest))
    else []) ++
   (if !i.skip && needsReg i c.r1 then
      restoreReg b.used1 (dead c.r1 (i :: rest)) c.r1 s1 else []) ++
   (if !i.skip && needsReg i c.r2 then
      restoreReg b.used2 (dead c.r2 (i :: rest)) c.r2 s2 else []),
   { b with eflagsUsed := b.eflagsUsed && !nf })

/-- Is the next instruction a conditional move? -/
def nextCmov {μ : Type} : List (Ins μ) → Bool
  | [] => false
  | j :: _ => j.cmov

/-- Is the next instruction a conditional jump? -/
def nextJcc {μ : Type} : List (Ins μ) → Bool
  | [] => false
  | j :: _ => j.jcc

/-- Write a changed scratch register to its slot (/repo/drmemory/spill.c:1642-1647, 1669-1674). -/
def saveReg {μ : Type} (writes isDead : Bool) (r slot : Nat) : List (Op μ) :=
  if writes && !isDead then [.store slot r] else []

/-- The second half of `fastpath_pre_app_instr`: the code after the instruction
(/repo/drmemory/spill.c:1625-1687). -/
def postApp {μ : Type} (c : Cfg) (i : Ins μ) (rest : List (Ins μ)) (b : Bi) :
    List (Op μ) × Bi :=
  let u1 := b.used1 || (i.may c.r1 && !dead c.r1 rest)
  let u2 := b.used2 || (i.may c.r2 && !dead c.r2 rest)
  let wf := six.any i.fMay && aflags rest != .allDead
  let skipSave := i.flagsDefined && nextJcc rest
  (saveReg (i.may c.r1) (dead c.r1 rest) c.r1 s1 ++
   saveReg (i.may c.r2) (dead c.r2 rest) c.r2 s2 ++
   (if wf && !skipSave && b.eflagsUsed then
      saveFlags c (dead eax rest) (u1 && !nextCmov rest) (u2 && !nextCmov rest) (aflags rest)
    else []),
   { b with used1 := u1, used2 := u2, eflagsUsed := b.eflagsUsed && !(wf && skipSave) })

/-- The end of `fastpath_bottom_of_bb`: everything is restored before the last instruction
(/repo/drmemory/spill.c:1770-1779). -/
def bottom {μ : Type} (c : Cfg) (i : Ins μ) (b : Bi) : List (Op μ) :=
  if b.added then
    (if b.eflagsUsed then
       restoreFlags c (dead eax [i]) false (b.used2 && !i.cmov) (aflags [i])
     else []) ++
    restoreReg b.used1 (dead c.r1 [i]) c.r1 s1 ++
    restoreReg b.used2 (dead c.r2 [i]) c.r2 s2
  else []

/-- The code of a block. -/
def gen {μ : Type} (c : Cfg) : Bi → List (Ins μ) → List (Op μ)
  | _, [] => []
  | b, [i] =>
    let t := marks c i [] b
    t.1.spills ++ t.1.flags ++ [.body i.body] ++ bottom c i t.2 ++ [.app i.sem]
  | b, i :: j :: rest =>
    let t := marks c i (j :: rest) b
    let p := preApp c i (j :: rest) t.2
    let q := postApp c i (j :: rest) p.2
    t.1.spills ++ t.1.flags ++ [.body i.body] ++ p.1 ++ [.app i.sem] ++ q.1 ++
      gen c q.2 (j :: rest)

/-- The block without instrumentation. -/
def runApp {μ : Type} : List (Ins μ) → A μ → A μ
  | [], a => a
  | i :: rest, a => runApp rest (i.sem a)

end Verif.Spill
