/-!
# C62: definedness checks left out within a basic block

When Dr. Memory instruments a basic block it remembers, while it walks over the
instructions, which registers have already been checked as part of an address and
whether the arithmetic flags are known to be defined.  Later instructions of the same block
then go without the check (`bb_info_t.addressable`, `bb_info_t.eflags_defined`,
/repo/drmemory/fastpath.h:170-180).  This file models

* the walk itself: which checks are put in front of which instruction
  (/repo/drmemory/instru.c:1196-1283, /repo/drmemory/fastpath_x86.c:1867-1919, 3347-3402,
  3815-3823), and
* what the instrumented block does when it runs: the inlined checks, the jump to the slow
  path, the reports made there and the marking of a reported register as defined
  (/repo/drmemory/slowpath.c:1758-1786, 1832-1858, 676-845).

The reference is the same instrumentation with no check left out.

Simplifications.  A shadow register is one bit (the whole register is defined or it is not:
both the inlined comparison with `SHADOW_DEFINED` and `is_shadow_register_defined` look at all
of it).  What an instruction writes to its destinations is left open (an arbitrary function of
the state), as are all checks other than those of address registers and flags.  Options are the
defaults: `-check_uninitialized`, no `-leave_uninit`.  Reports inside one instruction are
listed with the address registers first.
-/

namespace Verif.BlockChecks

/-- How an instruction writes the six arithmetic flags (`instr_get_eflags`, tested against
`EFLAGS_WRITE_6` with `TESTALL`/`TESTANY`, /repo/drmemory/fastpath_x86.c:3819-3823). -/
inductive FlagWr where
  | no
  | part
  | all
deriving DecidableEq, Repr

/-- An instruction of a block, as far as the walk looks at it. -/
structure Ins where
  /-- Destinations in the order in which they are decoded; `some r` is general register `r`
  (/repo/drmemory/instru.c:1200-1224). -/
  dsts : List (Option Nat)
  /-- `opc_is_push` (/repo/drmemory/slowpath_x86.c:101-109). -/
  push : Bool
  /-- `opc_is_pop` (/repo/drmemory/slowpath_x86.c:111-118). -/
  pop : Bool
  /-- `instr_ok_for_instrument_fastpath` and `adjust_opnds_for_fastpath` both succeed
  (/repo/drmemory/instru.c:1260, /repo/drmemory/fastpath_x86.c:3055). -/
  fast : Bool
  /-- Base and index registers of the memory operands, in the order of the checks
  (/repo/drmemory/fastpath_x86.c:3396-3402). -/
  bases : List Nat
  /-- `opc_is_cmovcc` or `opc_is_fcmovcc` (/repo/drmemory/fastpath_x86.c:3372). -/
  cmov : Bool
  /-- `instr_is_jcc` (/repo/drmemory/instru.c:1248). -/
  jcc : Bool
  /-- `instr_check_definedness` (/repo/drmemory/slowpath_x86.c:380-412). -/
  checks : Bool
  /-- Reads one of the arithmetic flags (`EFLAGS_READ_6`). -/
  readsFlags : Bool
  /-- The flags are checked inline and not propagated (`mi->check_eflags_defined`,
  /repo/drmemory/fastpath_x86.c:1177-1202). -/
  inlineFlags : Bool
  /-- Which flags it writes. -/
  flagWr : FlagWr
  /-- The general registers whose shadow the propagation writes
  (`assign_register_shadow`, /repo/drmemory/slowpath.c:866-871 and
  /repo/drmemory/slowpath_x86.c:1970-1995: the stack pointer of a push or pop is left out). -/
  wr : List Nat

/-- What the walk remembers (`bb_info_t`, /repo/drmemory/fastpath.h:170-180). -/
structure Gen where
  addressable : Nat → Bool
  eflagsDefined : Bool

/-- The state at the start of a block: `bb_info_t` is zeroed
(/repo/drmemory/instru.c:956-957). -/
def Gen.init : Gen := { addressable := fun _ => false, eflagsDefined := false }

/-- The instrumentation in front of one instruction. -/
structure Code where
  /-- anything at all -/
  present : Bool
  /-- inlined code with a slow path behind it, or always the slow path -/
  fast : Bool
  /-- the inlined comparison of the shadow of the flags -/
  checkFlags : Bool
  /-- the inlined comparisons of shadow registers, in order -/
  checkRegs : List Nat

/-- Set one entry of a table. -/
def upd (f : Nat → Bool) (r : Nat) (b : Bool) : Nat → Bool := fun x => if x = r then b else f x

/-- The loop over the destinations: a written register is no longer known to be checked, except
by a push and except the second and later destinations of a pop
(/repo/drmemory/instru.c:1200-1224).  `k` is the index of the first destination of the list. -/
def clearDsts (push pop : Bool) : Nat → List (Option Nat) → (Nat → Bool) → (Nat → Bool)
  | _, [], a => a
  | k, none :: ds, a => clearDsts push pop (k + 1) ds a
  | k, some r :: ds, a =>
    clearDsts push pop (k + 1) ds
      (if !(push || (pop && decide (0 < k))) then upd a r false else a)

/-- `add_addressing_register_checks` over the registers of the memory operands
(/repo/drmemory/fastpath_x86.c:1867-1919): the registers that are compared, and the table
afterwards. -/
def addrChecks : List Nat → (Nat → Bool) → List Nat × (Nat → Bool)
  | [], a => ([], a)
  | r :: rs, a =>
    if a r then addrChecks rs a
    else
      let p := addrChecks rs (upd a r true)
      (r :: p.1, p.2)

/-- The update of `eflags_defined` at the end of the inlined code
(/repo/drmemory/fastpath_x86.c:3815-3823). -/
def flagsAfter (i : Ins) (b : Bool) : Bool :=
  if i.checks && i.flagWr == .all then true
  else if i.flagWr != .no then false
  else b

/-- The instrumentation of one instruction (/repo/drmemory/instru.c:1196-1283). -/
def gen (g : Gen) (i : Ins) : Code × Gen :=
  let a := clearDsts i.push i.pop 0 i.dsts g.addressable
  if g.eflagsDefined && i.jcc then
    ({ present := false, fast := false, checkFlags := false, checkRegs := [] },
     { g with addressable := a })
  else if i.fast then
    let p := addrChecks i.bases a
    ({ present := true, fast := true, checkFlags := i.readsFlags && i.inlineFlags,
       checkRegs := p.1 },
     { addressable := p.2, eflagsDefined := flagsAfter i g.eflagsDefined })
  else
    ({ present := true, fast := false, checkFlags := false, checkRegs := [] },
     { g with addressable := a })

/-- The same instruction with every check made: the reference. -/
def genAll (i : Ins) : Code :=
  { present := true, fast := i.fast, checkFlags := i.readsFlags && i.inlineFlags,
    checkRegs := i.bases }

/-- The shadow of the registers and of the flags: is it defined? -/
structure St where
  reg : Nat → Bool
  flags : Bool

/-- A report of the use of an undefined value. -/
inductive Rep where
  | addr (r : Nat)
  | flags
  | other (n : Nat)
deriving DecidableEq, Repr

/-- What is particular to one execution of an instruction: everything the model leaves open. -/
structure Dyn where
  /-- the condition of a conditional move holds -/
  cond : Bool
  /-- another inlined check leads to the slow path -/
  other : St → Bool
  /-- other reports made by the slow path -/
  reports : St → List Nat
  /-- the registers these reports mark as defined (/repo/drmemory/slowpath.c:1850-1853) -/
  marks : St → List Nat
  /-- the new shadow of a written register -/
  newReg : St → Nat → Bool
  /-- the new shadow of the flags -/
  newFlags : St → Bool

/-- The shadow after the propagation.  An instruction whose operands are checked writes defined
flags (/repo/drmemory/slowpath.c:720-726, 872-874). -/
def write (i : Ins) (d : Dyn) (s : St) : St :=
  { reg := fun r => if r ∈ i.wr then d.newReg s r else s.reg r
    flags := if i.flagWr = .no then s.flags else if i.checks then true else d.newFlags s }

/-- Report the undefined ones among the registers and mark them as defined
(`check_mem_opnd`, /repo/drmemory/slowpath.c:1772-1786). -/
def checkAddrs : List Nat → St → List Rep × St
  | [], s => ([], s)
  | r :: rs, s =>
    if s.reg r then checkAddrs rs s
    else
      let p := checkAddrs rs { s with reg := upd s.reg r true }
      (.addr r :: p.1, p.2)

/-- Report undefined flags and reset them (/repo/drmemory/slowpath.c:771-778, 1843-1848). -/
def checkFlags (i : Ins) (s : St) : List Rep × St :=
  if i.readsFlags && i.checks && !s.flags then ([.flags], { s with flags := true })
  else ([], s)

/-- Mark registers as defined (`register_shadow_mark_defined`). -/
def mark (rs : List Nat) (s : St) : St :=
  { s with reg := fun r => if r ∈ rs then true else s.reg r }

/-- `slow_path_with_mc` (/repo/drmemory/slowpath.c:640-880): a conditional move whose condition
does not hold has no operands but the flags (/repo/drmemory/slowpath_x86.c:2045-2100). -/
def slow (i : Ins) (d : Dyn) (s : St) : List Rep × St :=
  if i.cmov && !d.cond then checkFlags i s
  else
    let a := checkAddrs i.bases s
    let f := checkFlags i a.2
    (a.1 ++ f.1 ++ (d.reports f.2).map .other, write i d (mark (d.marks f.2) f.2))

/-- One instruction of the instrumented block: the inlined code in the order in which it is
emitted, flags first, then the jump over everything else of a conditional move that does not
move, then the address registers (/repo/drmemory/fastpath_x86.c:3347-3402). -/
def exec (c : Code) (i : Ins) (d : Dyn) (s : St) : List Rep × St :=
  if !c.present then ([], s)
  else if !c.fast then slow i d s
  else if c.checkFlags && !s.flags then slow i d s
  else if i.cmov && !d.cond then ([], s)
  else if c.checkRegs.any (fun r => !s.reg r) then slow i d s
  else if d.other s then slow i d s
  else ([], write i d s)

/-- A run of the block as instrumented: for each instruction the state before it and the
reports it makes, and the final state. -/
def run : Gen → List (Ins × Dyn) → St → List (St × List Rep) × St
  | _, [], s => ([], s)
  | g, (i, d) :: rest, s =>
    let c := gen g i
    let o := exec c.1 i d s
    let p := run c.2 rest o.2
    ((s, o.1) :: p.1, p.2)

/-- A run of the block with every check made. -/
def runAll : List (Ins × Dyn) → St → List (St × List Rep) × St
  | [], s => ([], s)
  | (i, d) :: rest, s =>
    let o := exec (genAll i) i d s
    let p := runAll rest o.2
    ((s, o.1) :: p.1, p.2)

end Verif.BlockChecks
