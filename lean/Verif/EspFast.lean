import Verif.Umbra32
/-!
# The generated fast path for changes of the stack pointer (drmemory/stack_x86.c)

`generate_shared_esp_fastpath_helper` emits one routine per kind of adjustment.  The routine is modelled
instruction by instruction, on a small 32-bit machine whose shadow memory is the map of
`Verif.Umbra32` (scale 1/4).  A store to memory that is not writable is redirected to the slow path, as
`handle_special_shadow_fault` (drmemory/fastpath.c:208-236) does for faults in this routine.

Simplifications: the machine has the five registers the routine uses; an immediate is given as its
32-bit encoding; a jump looks for its label in the routine; a conditional jump is defined only after an instruction
whose flags are modelled (`cmp`, `test`), otherwise the machine is stuck; statistics counters are left out;
`-shared_slowpath` is on.
-/
namespace Verif.EspFast
open Umbra32 (Map W)

/-- The registers used (stack_x86.c:733-743). -/
inductive R where
  | eax | ecx | edx | ebx | esp
  deriving DecidableEq, Repr

/-- Labels of the routine (stack_x86.c:685-718). -/
inductive L where
  | loopPush | loopDone | restore | loopNextShadow | loopShadowLookup | shadowLookup
  | popOneBlock | pushOneBlock | pushUnaligned | pushAligned | pushOneDone
  | popUnaligned | popAligned | popOneDone
  | popAlignedLoop | popAlignedDone | popUnalignedLoop | popUnalignedDone
  | pushAlignedLoop | pushAlignedDone | pushUnalignedLoop | pushUnalignedDone
  | slowpath
  deriving DecidableEq, Repr

/-- Conditions of conditional jumps. -/
inductive CC where
  | g | l | z | nz | ae | be
  deriving DecidableEq, Repr

/-- Instructions.  `ld`/`st`/`adds` use spill slots: 0 to 2 are `esp_spill_slot_base()` to `+2`, 3 is
`SPILL_SLOT_EFLAGS_EAX`. -/
inductive I where
  | lbl (l : L)
  | mov (d s : R)
  | ld (d : R) (slot : Nat)
  | st (slot : Nat) (s : R)
  | add (d s : R)
  | addi (d : R) (n : Nat)
  | adds (d : R) (slot : Nat)
  /-- `add d, [table + 4*x]` -/
  | addTable (d x : R)
  | sub (d s : R)
  | subi (d : R) (n : Nat)
  | neg (d : R)
  | inc (d : R)
  | dec (d : R)
  | shl (d : R) (n : Nat)
  | shr (d : R) (n : Nat)
  | sar (d : R) (n : Nat)
  | andi (d : R) (n : Nat)
  /-- `xor d, d` -/
  | zero (d : R)
  | xchg (a b : R)
  | movzx16 (d : R)
  | cmp (a b : R)
  | cmpi (a : R) (n : Nat)
  | test (a : R)
  | testi (a : R) (n : Nat)
  /-- store of an 8-bit immediate -/
  | st8 (b : R) (v : Nat)
  /-- store of a 32-bit immediate -/
  | st32 (b : R) (v : Nat)
  | jcc (c : CC) (l : L)
  | jmp (l : L)
  | lahf | seto
  /-- `add al, 0x7f` -/
  | addAl
  | sahf
  | nop
  /-- `jmp` to `shared_esp_slowpath_defined` or `shared_esp_slowpath_shadow` -/
  | jmpSlow (defined : Bool)
  /-- `jmp` through a spill slot -/
  | jmpInd (slot : Nat)
  deriving DecidableEq, Repr

/-- The arithmetic flags: those of the application (the byte `lahf` reads, and `OF`), the outcome of a
comparison of two values, only `OF`, or nothing that may be relied on. -/
inductive Fl where
  | app (ah : Nat) (o : Bool)
  | cmp (a b : Nat)
  | ofOnly (o : Bool)
  | unk
  deriving DecidableEq, Repr

/-- The state of the machine. -/
structure St where
  eax : Nat
  ecx : Nat
  edx : Nat
  ebx : Nat
  esp : Nat
  s0 : Nat
  s1 : Nat
  s2 : Nat
  s3 : Nat
  fl : Fl
  map : Map

def St.get (s : St) : R → Nat
  | .eax => s.eax | .ecx => s.ecx | .edx => s.edx | .ebx => s.ebx | .esp => s.esp

def St.set (s : St) (r : R) (v : Nat) : St :=
  match r with
  | .eax => { s with eax := v }
  | .ecx => { s with ecx := v }
  | .edx => { s with edx := v }
  | .ebx => { s with ebx := v }
  | .esp => { s with esp := v }

def St.slot (s : St) : Nat → Nat
  | 0 => s.s0 | 1 => s.s1 | 2 => s.s2 | _ => s.s3

def St.setSlot (s : St) (i : Nat) (v : Nat) : St :=
  match i with
  | 0 => { s with s0 := v }
  | 1 => { s with s1 := v }
  | 2 => { s with s2 := v }
  | _ => { s with s3 := v }

/-- 2^31: values from here on are negative. -/
@[irreducible] def H : Nat := 2147483648

/-- Signed less-than of 32-bit values. -/
def slt (a b : Nat) : Bool := decide ((a + H) % W < (b + H) % W)

/-- Whether a conditional jump is taken; `none` if the flags are not those of a comparison. -/
def CC.eval (c : CC) : Fl → Option Bool
  | .cmp a b =>
    some (match c with
      | .g => slt b a
      | .l => slt a b
      | .z => decide (a = b)
      | .nz => decide (a ≠ b)
      | .ae => decide (b ≤ a)
      | .be => decide (a ≤ b))
  | _ => none

/-- `sar` by `n` on 32-bit values. -/
def sarv (v n : Nat) : Nat := if v < H then v / 2 ^ n else W - 1 - (W - 1 - v) / 2 ^ n

/-- Where the machine is: before the instructions `code`, returned to the address given, in one of the
slow paths (`shared_esp_slowpath_shadow` or `_defined`, drmemory/stack.c:474-487), or at an instruction
without defined behaviour. -/
inductive Cfg where
  | at (code : List I) (s : St)
  | ret (addr : Nat) (s : St)
  | slow (defined : Bool) (s : St)
  | stuck

/-- The instructions from a label on. -/
def find (l : L) : List I → List I
  | [] => []
  | .lbl l' :: rest => if l = l' then rest else find l rest
  | _ :: rest => find l rest

/-- A value placed in a register by arithmetic, which leaves flags not used here. -/
def St.arith (s : St) (d : R) (v : Nat) : St := { s.set d v with fl := .unk }

/-- One instruction of the routine `prog`. -/
def step (prog : List I) : Cfg → Cfg
  | .at (i :: rest) s =>
    match i with
    | .lbl _ => .at rest s
    | .nop => .at rest s
    | .mov d x => .at rest (s.set d (s.get x))
    | .ld d i => .at rest (s.set d (s.slot i))
    | .st i x => .at rest (s.setSlot i (s.get x))
    | .add d x => .at rest (s.arith d ((s.get d + s.get x) % W))
    | .addi d n => .at rest (s.arith d ((s.get d + n) % W))
    | .adds d i => .at rest (s.arith d ((s.get d + s.slot i) % W))
    | .addTable d x =>
      if s.get x < 65536 then .at rest (s.arith d ((s.get d + s.map.table (s.get x)) % W)) else .stuck
    | .sub d x => .at rest (s.arith d ((s.get d + (W - s.get x)) % W))
    | .subi d n => .at rest (s.arith d ((s.get d + (W - n)) % W))
    | .neg d => .at rest (s.arith d ((W - s.get d) % W))
    | .inc d => .at rest (s.arith d ((s.get d + 1) % W))
    | .dec d => .at rest (s.arith d ((s.get d + (W - 1)) % W))
    | .shl d n => .at rest (s.arith d (s.get d * 2 ^ n % W))
    | .shr d n => .at rest (s.arith d (s.get d / 2 ^ n))
    | .sar d n => .at rest (s.arith d (sarv (s.get d) n))
    | .andi d n => .at rest (s.arith d (s.get d &&& n))
    | .zero d => .at rest (s.arith d 0)
    | .xchg a b => .at rest ((s.set a (s.get b)).set b (s.get a))
    | .movzx16 d => .at rest (s.set d (s.get d % 65536))
    | .cmp a b => .at rest { s with fl := .cmp (s.get a) (s.get b) }
    | .cmpi a n => .at rest { s with fl := .cmp (s.get a) n }
    | .test a => .at rest { s with fl := .cmp (s.get a) 0 }
    | .testi a n => .at rest { s with fl := .cmp (s.get a &&& n) 0 }
    | .st8 b v =>
      match Umbra32.store s.map (s.get b) 1 (fun _ => UInt8.ofNat v) with
      | some m => .at rest { s with map := m }
      | none => .at (find .slowpath prog) s
    | .st32 b v =>
      match Umbra32.store s.map (s.get b) 4 (fun i => UInt8.ofNat (v / 256 ^ i % 256)) with
      | some m => .at rest { s with map := m }
      | none => .at (find .slowpath prog) s
    | .jcc c l =>
      match c.eval s.fl with
      | some true => .at (find l prog) s
      | some false => .at rest s
      | none => .stuck
    | .jmp l => .at (find l prog) s
    | .lahf =>
      match s.fl with
      | .app ah _ => .at rest (s.set .eax (s.eax / 65536 * 65536 + ah * 256 + s.eax % 256))
      | _ => .stuck
    | .seto =>
      match s.fl with
      | .app _ o => .at rest (s.set .eax (s.eax / 256 * 256 + if o then 1 else 0))
      | _ => .stuck
    | .addAl =>
      .at rest { s.set .eax (s.eax / 256 * 256 + (s.eax % 256 + 127) % 256) with
        fl := .ofOnly (decide (1 ≤ s.eax % 256 ∧ s.eax % 256 < 128)) }
    | .sahf =>
      match s.fl with
      | .ofOnly o => .at rest { s with fl := .app (s.eax / 256 % 256) o }
      | _ => .stuck
    | .jmpSlow d => .slow d s
    | .jmpInd i => .ret (s.slot i) s
  | .at [] _ => .stuck
  | x => x

/-- `n` instructions. -/
def exec (prog : List I) : Nat → Cfg → Cfg
  | 0, x => x
  | n + 1, x => exec prog n (step prog x)

/-- `esp_adjust_t` (drmemory/stack_arch.h:31-41). -/
inductive Ty where
  | absolute | absolutePostpop | negative | positive | retImmed | and
  deriving DecidableEq, Repr

/-- What a routine is generated for: the kind of adjustment, `SP_ADJUST_ACTION_DEFINED` or `_SHADOW`
(drmemory/stack.h:60-65), whether the flags are live, `-check_uninitialized` (the negation of
`MAP_4B_TO_1B`, drmemory/shadow.h:29), and the value of `-stack_swap_threshold`. -/
structure Gen where
  ty : Ty
  defined : Bool
  live : Bool
  uninit : Bool
  thresh : Nat

/-- `SHADOW_DWORD_UNADDRESSABLE` (shadow.h:53, 67). -/
def unaddr8 (g : Gen) : Nat := if g.uninit then 0x55 else 0x1
/-- `SHADOW_DQWORD_UNADDRESSABLE` (shadow.h:89). -/
def unaddr32 (g : Gen) : Nat := if g.uninit then 0x55555555 else 0x01010101
/-- `shadow_dword_newmem` (stack_x86.c:701-702, shadow.h:54-55, 68-69). -/
def new8 (g : Gen) : Nat := if g.defined then 0 else if g.uninit then 0xff else 0x3
/-- `shadow_dqword_newmem` (stack_x86.c:704-705, shadow.h:90-91). -/
def new32 (g : Gen) : Nat := if g.defined then 0 else if g.uninit then 0xffffffff else 0x03030303

/-- Stack pointers given as a value, not as a difference: the test of stack_x86.c:779-780. -/
def isAbs (t : Ty) : Bool := t = .absolute || t = .absolutePostpop || t = .and

/-- `insert_save_aflags` (drmemory/spill.c:933-947, 899-914). -/
def saveFlags : List I := [.st 3 .eax, .lahf, .seto]

/-- `insert_restore_aflags` (spill.c:949-965, 916-931). -/
def restoreFlags : List I := [.addAl, .sahf, .ld .eax 3]

/-- `get_shadow_block_size()` (drmemory/shadow.c:320-329): 64 KB at one byte per four. -/
def blockSize : Nat := 16384

/-- Entry: arguments and flags saved, count of dwords computed (stack_x86.c:747-810). -/
def entry (g : Gen) : List I :=
  [.st 1 .ecx, .st 0 .edx] ++ (if g.live then saveFlags else []) ++
  [.st 2 .eax, .mov .edx .esp] ++
  (if g.ty = .retImmed then [.addi .edx 4] else []) ++
  (if isAbs g.ty then
    [.sub .ecx .edx, .cmpi .ecx g.thresh, .jcc .g .slowpath,
     .cmpi .ecx ((W - g.thresh) % W), .jcc .l .slowpath]
   else []) ++
  [.testi .ecx 3, .jcc .nz .slowpath, .sar .ecx 2]

/-- Translation of the address and start of its shadow block (stack_x86.c:812-863).  The lookup is
`add_shadow_table_lookup` (drmemory/fastpath_x86.c:2086-2150) with
`shadow_table_insert_app_to_shadow_arch` (umbra/umbra_32.c:304-341). -/
def lookup : List I :=
  [.lbl .loopShadowLookup, .cmpi .ecx 0, .jcc .g .shadowLookup, .jcc .z .loopDone, .subi .edx 4,
   .lbl .shadowLookup, .mov .eax .edx,
   .testi .edx 3, .jcc .nz .slowpath,
   .mov .ebx .edx, .shr .ebx 16, .shr .edx 2, .addTable .edx .ebx,
   .mov .ebx .eax, .movzx16 .ebx, .shr .ebx 2, .neg .ebx, .add .ebx .edx,
   .cmpi .ecx 0, .jcc .l .loopPush]

/-- The increasing loop (stack_x86.c:864-986). -/
def popCode (g : Gen) : List I :=
  [.addi .ebx blockSize, .sub .ebx .edx, .cmp .ebx .ecx, .jcc .ae .popOneBlock,
   .sub .ecx .ebx, .xchg .ecx .ebx, .jmp .popUnaligned,
   .lbl .popOneBlock, .zero .ebx,
   .lbl .popUnaligned, .test .ecx, .jcc .z .popOneDone, .testi .edx 3, .jcc .z .popAligned,
   .st8 .edx (unaddr8 g), .dec .ecx, .inc .edx, .jmp .popUnaligned,
   .lbl .popAligned, .mov .eax .ecx, .shr .ecx 2,
   .lbl .popAlignedLoop, .test .ecx, .jcc .z .popAlignedDone,
   .st32 .edx (unaddr32 g), .dec .ecx, .addi .edx 4, .jmp .popAlignedLoop,
   .lbl .popAlignedDone, .mov .ecx .eax, .andi .ecx 3,
   .lbl .popUnalignedLoop, .test .ecx, .jcc .z .popUnalignedDone,
   .st8 .edx (unaddr8 g), .dec .ecx, .inc .edx, .jmp .popUnalignedLoop,
   .lbl .popUnalignedDone,
   .lbl .popOneDone, .test .ebx, .jcc .z .loopDone, .mov .ecx .ebx, .jmp .loopNextShadow]

/-- The address where the next block begins (stack_x86.c:989-1038). -/
def nextCode (g : Gen) : List I :=
  [.lbl .loopNextShadow, .mov .edx .esp] ++
  (if g.ty = .retImmed then [.addi .edx 4] else []) ++
  (if g.ty = .absolute || g.ty = .absolutePostpop then
    [.ld .ebx 1, .sub .ebx .edx, .add .edx .ebx]
   else [.adds .edx 1]) ++
  [.shl .ecx 2, .sub .edx .ecx, .sar .ecx 2, .jmp .loopShadowLookup]

/-- The decreasing loop (stack_x86.c:1040-1166). -/
def pushCode (g : Gen) : List I :=
  [.lbl .loopPush, .dec .ebx, .sub .ebx .edx, .cmp .ebx .ecx, .jcc .be .pushOneBlock,
   .sub .ecx .ebx, .xchg .ecx .ebx, .jmp .pushUnaligned,
   .lbl .pushOneBlock, .zero .ebx,
   .lbl .pushUnaligned, .test .ecx, .jcc .z .pushOneDone, .testi .edx 3, .jcc .z .pushAligned,
   .st8 .edx (new8 g), .inc .ecx, .dec .edx, .jmp .pushUnaligned,
   .lbl .pushAligned, .st8 .edx (new8 g), .inc .ecx, .subi .edx 4,
   .neg .ecx, .mov .eax .ecx, .sar .ecx 2,
   .lbl .pushAlignedLoop, .test .ecx, .jcc .z .pushAlignedDone,
   .st32 .edx (new32 g), .dec .ecx, .subi .edx 4, .jmp .pushAlignedLoop,
   .lbl .pushAlignedDone, .addi .edx 3, .mov .ecx .eax, .andi .ecx 3,
   .lbl .pushUnalignedLoop, .test .ecx, .jcc .z .pushUnalignedDone,
   .st8 .edx (new8 g), .dec .ecx, .dec .edx, .jmp .pushUnalignedLoop,
   .lbl .pushUnalignedDone,
   .lbl .pushOneDone, .test .ebx, .jcc .z .loopDone, .mov .ecx .ebx, .jmp .loopNextShadow]

/-- The ends (stack_x86.c:1168-1236): done, slow path, return. -/
def exits (g : Gen) : List I :=
  [.lbl .loopDone, .jmp .restore,
   .lbl .slowpath, .nop, .ld .ecx 1, .ld .edx 0] ++
  (if g.ty = .negative then [.neg .ecx] else []) ++
  [.ld .eax 2] ++ (if g.live then restoreFlags else []) ++ [.jmpSlow false,
   .lbl .restore, .ld .eax 2] ++ (if g.live then restoreFlags else []) ++ [.jmpInd 0]

/-- `generate_shared_esp_fastpath_helper` (stack_x86.c:673-1236). -/
def prog (g : Gen) : List I :=
  entry g ++ lookup ++ popCode g ++ nextCode g ++ pushCode g ++ exits g

end Verif.EspFast
