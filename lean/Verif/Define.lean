import Mathlib.Data.List.Range

/-
Model of the propagation of definedness through instructions in
drmemory/slowpath_x86.c, drmemory/slowpath.c and drmemory/slowpath_arch.h
(x86, release build, default options).

Modelled: the shadow values of one operand byte, combine_shadows, the array
`comb->dst` with the shadow flags, map_src_to_dst and map_src_to_dst_shift for
the non-VEX opcodes, shadow_combine_init, the source loop of slow_path_with_mc
for propagated sources, the eflags source, and the final values handed to the
destination by assign_register_shadow.

Not modelled: VEX forms (their operand order is fixed by DynamoRIO, whose
sources are not in the repository), the fast path, operands that are checked
instead of propagated (a shift count in a register, for instance).
-/

namespace Verif.Define

/-- The shadow value of a byte, drmemory/shadow.h:53-56. -/
inductive Sh where
  | defined
  | unaddr
  | bitlevel
  | undef
deriving DecidableEq, Repr

/-- `combine_shadows`, slowpath_arch.h:72-83. -/
def combine (a b : Sh) : Sh := if a = .undef ∨ b = .undef then .undef else .defined

/-- `OPND_SHADOW_ARRAY_LEN`, slowpath_arch.h:34-35. -/
def arrayLen : Nat := 32

/-- The fields `dst` and `eflags` of `shadow_combine_t`, slowpath_arch.h:37-70.  `oob`
is not in the code: it records an access past the end of `raw`, which is
undefined behaviour in C. -/
structure Comb where
  dst : Nat → Sh
  eflags : Sh
  oob : Bool

/-- `accum_shadow(&comb->dst[j], s)`, slowpath_arch.h:85-89. -/
def Comb.accum (c : Comb) (j : Nat) (s : Sh) : Comb :=
  { c with
    dst := fun k => if k = j then combine (c.dst k) s else c.dst k
    oob := c.oob || decide (arrayLen ≤ j) }

/-- `accum_shadow(&comb->eflags, s)`. -/
def Comb.accumFlags (c : Comb) (s : Sh) : Comb := { c with eflags := combine c.eflags s }

/-- The opcodes that `map_src_to_dst` tells apart, slowpath_x86.c:1068-1522; `w` is
an element size in bytes. -/
inductive Op where
  | shl | shr | sar
  /-- rol, ror, rcl, rcr, shld, shrd: not handled by `map_src_to_dst_shift`. -/
  | rot
  | xchg | xadd | bswap
  /-- punpcklbw (1), punpcklwd (2), punpckldq and unpcklps (4), punpcklqdq and
  unpcklpd (8). -/
  | punpckl (w : Nat)
  | punpckh (w : Nat)
  | shufps | shufpd
  /-- pshufw, pshufd, pshufhw, pshuflw, pshufb, the shrinking conversions, blends,
  palignr, phminposuw, pcmpestrm, pcmpestri. -/
  | bail
  /-- psrlw (2), psrld (4), psrlq (8) and so on. -/
  | psrl (w : Nat)
  | psra (w : Nat)
  | psll (w : Nat)
  | psrldq | pslldq
  /-- pextrb (1), pextrw (2), pextrd and extractps (4). -/
  | pextr (w : Nat)
  /-- pinsrb (1), pinsrw (2), pinsrd (4). -/
  | pinsr (w : Nat)
  | insertps
  | movhps | movlps
  | other
deriving DecidableEq, Repr

/-- The three operations of `map_src_to_dst_shift`. -/
inductive Dir where
  | left | right | arith
deriving DecidableEq, Repr

/-- `map_src_to_dst_shift`, slowpath_x86.c:959-1038, for the shift amount `count`: byte
`b` of the element at `offs` with `opsz` bytes. -/
def mapShift (d : Dir) (count : Nat) (c : Comb) (b offs opsz : Nat) (s : Sh) : Comb :=
  let shift := if count > opsz * 8 then opsz * 8 else count
  if shift = 0 then c.accum (offs + b) s
  else match d with
  | .left =>
    let map1 := b + shift / 8
    let map2 := b + ((shift - 1) / 8 + 1)
    if map1 ≥ opsz then
      if map1 = opsz then c.accumFlags s else c
    else
      let c := c.accum (offs + map1) s
      let c := if map1 ≠ map2 ∧ map2 < opsz then c.accum (offs + map2) s else c
      c.accumFlags s
  | .arith =>
    if b = opsz - 1 then
      -- 1012-1018: the top bytes down to shift / 8 below the top
      let c := (List.range opsz).foldl
        (fun c i => if i ≤ shift / 8 then c.accum (offs + opsz - 1 - i) s else c) c
      c.accumFlags s
    else right shift c
  | .right => right shift c
where
  /-- slowpath_x86.c:1008-1034: the indices are signed, a negative one is off the end. -/
  right (shift : Nat) (c : Comb) : Comb :=
    let c := if shift / 8 ≤ b then c.accum (offs + (b - shift / 8)) s else c
    let c := if shift / 8 ≠ (shift - 1) / 8 + 1 ∧ (shift - 1) / 8 + 1 ≤ b
      then c.accum (offs + (b - ((shift - 1) / 8 + 1))) s else c
    c.accumFlags s

/-- What `map_src_to_dst` looks up in the instruction: the opcode, the immediate or
shift amount (`get_cur_src_value`), whether the destination is a register, and
whether the instruction writes arithmetic flags. -/
structure Ins where
  op : Op
  val : Nat
  dstReg : Bool
  flags : Bool
deriving DecidableEq, Repr

/-- The switch of `map_src_to_dst`, slowpath_x86.c:1053-1522: operand `opnum` of size
`opsz` (`comb->opsz`) is a register iff `reg`; its byte `b` has shadow `s`.  The
flag of the result tells whether the routine returned before the flags. -/
def mapDst (I : Ins) (c : Comb) (opnum opsz : Nat) (reg : Bool) (b : Nat) (s : Sh) :
    Comb × Bool :=
  match I.op with
  | .shl => (mapShift .left I.val c b 0 opsz s, true)
  | .shr => (mapShift .right I.val c b 0 opsz s, true)
  | .sar => (mapShift .arith I.val c b 0 opsz s, true)
  | .rot => (c.accum b s, false)
  | .xchg | .xadd => (c.accum (opsz * (1 - opnum) + b) s, false)
  | .bswap => (c.accum (opsz - 1 - b) s, true)
  | .punpckl w =>
    (if b < opsz / 2 then c.accum (b / w * (2 * w) + b % w + w * (1 - opnum)) s else c, false)
  | .punpckh w =>
    (if b ≥ opsz / 2 then
      c.accum ((b - opsz / 2) / w * (2 * w) + b % w + w * (1 - opnum)) s else c, false)
  | .shufps =>
    let m := b % 4
    let e := b % 16 / 4
    (if opnum = 0 then
      let c := if I.val / 16 % 4 = e then c.accum (8 + m) s else c
      if I.val / 64 % 4 = e then c.accum (12 + m) s else c
    else
      let c := if I.val % 4 = e then c.accum m s else c
      if I.val / 4 % 4 = e then c.accum (4 + m) s else c, false)
  | .shufpd =>
    let m := b % 8
    (if opnum = 0 then
      if I.val = b % 16 / 8 then c.accum (8 + m) s else c
    else
      if I.val = b % 16 / 8 then c.accum m s else c, false)
  | .bail => (c.accum b .defined, false)
  | .psrl w => (mapShift .right I.val c (b % w) (b / w * w) w s, true)
  | .psra w => (mapShift .arith I.val c (b % w) (b / w * w) w s, true)
  | .psll w => (mapShift .left I.val c (b % w) (b / w * w) w s, true)
  | .psrldq =>
    let shift := if I.val > opsz then opsz else I.val
    (if b ≥ shift then c.accum (b - shift) s else c, false)
  | .pslldq =>
    let shift := if I.val > opsz then opsz else I.val
    (if b + shift < opsz then c.accum (b + shift) s else c, false)
  | .pextr w =>
    (if I.val * w ≤ b ∧ b < (I.val + 1) * w then c.accum (b % w) s else c, false)
  | .pinsr w => (if w < 4 then if b < w then c.accum (I.val * w + b % w) s else c
      else c.accum (I.val * w + b % w) s, false)
  | .insertps =>
    let cs := if reg then I.val / 64 else 0
    let cd := I.val / 16 % 4
    let c := if cs * 4 ≤ b ∧ b < (cs + 1) * 4 then c.accum (cd * 4 + b % 4) s else c
    -- 1394-1404: three bytes of every zeroed element
    (if b = 0 then
      [0, 1, 2].foldl (fun c i => [0, 1, 2, 3].foldl (fun c e =>
        if I.val.testBit e then c.accum (4 * e + i) .defined else c) c) c
    else c, false)
  | .movhps =>
    (if !reg then c.accum (b + (opsz - 8)) s
    else if I.dstReg then
      if b < 8 then c.accum (b + (opsz - 8)) s else c
    else
      if b ≥ opsz - 8 then c.accum (b - (opsz - 8)) s else c, false)
  | .movlps =>
    (if reg ∧ I.dstReg then
      if b ≥ opsz - 8 then c.accum (b - (opsz - 8)) s else c
    else if b < 8 then c.accum b s else c, false)
  | .other => (c.accum b s, false)

/-- `map_src_to_dst`, slowpath_x86.c:1046-1531: the switch and then the flags. -/
def mapSrc (I : Ins) (opnum opsz : Nat) (reg : Bool) (c : Comb) (b : Nat) (s : Sh) : Comb :=
  let r := mapDst I c opnum opsz reg b s
  if ¬ r.2 ∧ I.flags then r.1.accumFlags s else r.1

/-- A propagated source operand, slowpath.c:711-757: its number, whether it is a
register, the size in bytes and the shadow of its bytes.  The size is
`comb->opsz` and also the number of bytes looked at: for the registers of
`subregNonlow` opcodes both are the size of the whole register
(slowpath.c:736-746 and 362-370). -/
structure Src where
  num : Nat
  reg : Bool
  size : Nat
  sh : Nat → Sh

/-- One source: the loop of `integrate_register_shadow`, slowpath.c:371-372, or of
`handle_mem_ref_internal`, slowpath.c:1684-1688, with `MEMREF_USE_VALUES`. -/
def integrate (I : Ins) (c : Comb) (x : Src) : Comb :=
  (List.range x.size).foldl (fun c b => mapSrc I x.num x.size x.reg c b (x.sh b)) c

/-- `opc_dst_subreg_nonlow`, slowpath_x86.c:926-950, without the VEX forms. -/
def subregNonlow : Op → Bool
  | .pextr _ | .pinsr _ | .insertps | .movhps => true
  | _ => false

/-- `shadow_combine_init`, slowpath.c:285-324; `part` tells whether the destination is
a register that is written in part. -/
def init (I : Ins) (part : Bool) : Comb :=
  { dst := fun _ => if subregNonlow I.op ∧ I.dstReg ∧ part then .bitlevel else .defined
    eflags := .defined
    oob := false }

/-- The source loop of `slow_path_with_mc`, slowpath.c:685-771. -/
def sources (I : Ins) (part : Bool) (xs : List Src) : Comb :=
  xs.foldl (integrate I) (init I part)

/-- The value written for byte `j` of the destination by `assign_register_shadow`,
slowpath.c:394-418, or by a memory write; `prior` is the shadow of the register. -/
def result (I : Ins) (part : Bool) (prior : Nat → Sh) (xs : List Src) (j : Nat) : Sh :=
  let s := (sources I part xs).dst j
  if subregNonlow I.op ∧ I.dstReg ∧ s = .bitlevel then prior j else s

/-- `SHADOW_DWORD2BYTE`, shadow.h:95, on the two-bit fields of a shadow word. -/
def dword2byte (v n : Nat) : Nat := v / 4 ^ n % 4

/-- The shadow value of a two-bit field. -/
def ofBits (n : Nat) : Sh :=
  if n = 3 then .undef else if n = 2 then .bitlevel else if n = 1 then .unaddr else .defined

/-- The eflags source in `integrate_register_shadow`, slowpath.c:337-347: `v` is the
stored shadow of the flags, `dstsz` the size of the destination. -/
def integrateFlags (c : Comb) (v dstsz : Nat) : Comb :=
  (List.range dstsz).foldl (fun c i => c.accum i (ofBits (dword2byte v i)))
    (c.accumFlags (ofBits (dword2byte v 0)))

/-- `set_shadow_eflags(comb.eflags)`, slowpath.c:887-889 and shadow.c:1941-1947: the
two bits of one shadow value. -/
def storeFlags : Sh → Nat
  | .defined => 0
  | .unaddr => 1
  | .bitlevel => 2
  | .undef => 3

end Verif.Define
