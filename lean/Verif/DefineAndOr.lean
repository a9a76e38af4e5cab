import Verif.Define

/-
Model of the treatment of and, test and or in drmemory/slowpath_x86.c:1679-1956 and
drmemory/slowpath.c:795-838: the two sources are laid out side by side and combined
with their values.

Not modelled: the constants of strlen (slowpath_x86.c:1882-1903), and the two
routines that decode the following instructions, check_and_not_test and
check_xor_bitfield; the outcome of the former is an input.
-/

namespace Verif.Define

/-- The three opcodes, slowpath_x86.c:1534-1543. -/
inductive BitOp where
  | and | test | or
deriving DecidableEq, Repr

/-- `DWORD2BYTE(v, n)`, common/utils.h:609, on a 64-bit `v` as compiled for x86-64: the
constant `0xff` has type int.  `0xff << 24` is negative and sign-extended, so n = 3
keeps everything above.  For n > 3 the shift is undefined in C; the processor
shifts by 8n modulo 32. -/
def dwordToByte (v n : Nat) : Nat :=
  let mask := if n % 4 = 3 then 2 ^ 64 - 2 ^ 24 else 0xff * 256 ^ (n % 4)
  (v &&& mask) / 256 ^ n

/-- `check_andor_vals`, slowpath_x86.c:1679-1705.  `~0` is an int that is converted to
64 bits. -/
def andorVals (strict : Bool) (op : BitOp) (val i : Nat) (bitmask : Bool) : Bool :=
  if strict then
    (op ≠ .or && dwordToByte val i = 0) || (op = .or && dwordToByte val i = 2 ^ 64 - 1)
  else
    (op ≠ .or && dwordToByte val i = 0) || (op = .and && bitmask) || op = .or

/-- The state of the loop of `check_andor_sources`: `comb->dst` and `changed`. -/
structure AO where
  dst : Nat → Sh
  changed : Bool

/-- `comb->dst[i] = s`. -/
def AO.set (a : AO) (i : Nat) (s : Sh) : AO :=
  { a with dst := fun k => if k = i then s else a.dst k }

/-- The inputs of `check_andor_sources`: operand size, option -strict_bitops, opcode,
whether both values could be read, the values, and `bitmask_immed`. -/
structure AOIn where
  sz : Nat
  strict : Bool
  op : BitOp
  have_ : Bool
  val0 : Nat
  val1 : Nat
  bitmask : Bool

/-- The body of the loop, slowpath_x86.c:1917-1950. -/
def aoStep (q : AOIn) (a : AO) (i : Nat) : AO :=
  let a :=
    if a.dst i = .undef then
      if q.have_ ∧ a.dst (i + q.sz) = .defined ∧ andorVals q.strict q.op q.val1 i q.bitmask then
        { a.set i .defined with changed := true }
      else a
    else if a.dst (i + q.sz) = .undef then
      if q.have_ ∧ andorVals q.strict q.op q.val0 i q.bitmask then { a with changed := true }
      else { a.set i .undef with changed := true }
    else a
  a.set (i + q.sz) .defined

/-- The loop. -/
def aoLoop (q : AOIn) (d : Nat → Sh) : AO :=
  (List.range q.sz).foldl (aoStep q) { dst := d, changed := false }

/-- The layout of the sources, slowpath.c:712-715 and 742-745, with the shadows `s0`
and `s1` carried into fresh entries by `map_src_to_dst`; an immediate operand leaves
its half defined. -/
def aoLayout (sz : Nat) (s0 s1 : Nat → Sh) (k : Nat) : Sh :=
  if k < sz then combine .defined (s0 k)
  else if k < 2 * sz then combine .defined (s1 (k - sz)) else .defined

/-- The flags gathered by `map_src_to_dst` over both sources. -/
def aoFlags0 (sz : Nat) (s0 s1 : Nat → Sh) : Sh :=
  (List.range sz).foldl (fun f b => combine f (s1 b))
    ((List.range sz).foldl (fun f b => combine f (s0 b)) .defined)

/-- `check_andor_sources` and the flags, slowpath.c:798-812: the shadow of the result
and the flags. -/
def andor (q : AOIn) (s0 s1 : Nat → Sh) : (Nat → Sh) × Sh :=
  let a := aoLoop q (aoLayout q.sz s0 s1)
  (a.dst, if a.changed then (List.range arrayLen).foldl (fun f i => combine f (a.dst i)) .defined
    else aoFlags0 q.sz s0 s1)

/-- The local variables of `check_andor_bitmask_immed`, slowpath_x86.c:1765-1774. -/
structure BM where
  ones : Nat
  seq0 : Nat
  seq1 : Nat
  found : Bool
  last : Bool
  two : Bool
  byteOnly : Bool
deriving DecidableEq, Repr

/-- One bit, slowpath_x86.c:1779-1798. -/
def bmStep (s : BM) (bit : Bool) : BM :=
  if bit then
    { s with ones := s.ones + 1, last := false,
             byteOnly := if s.seq0 % 8 ≠ 0 then false else s.byteOnly,
             seq0 := 0, seq1 := s.seq1 + 1 }
  else
    let s := if ¬ s.last ∧ s.found then { s with two := true }
      else { s with found := true, last := true }
    { s with byteOnly := if s.seq1 % 8 ≠ 0 then false else s.byteOnly,
             seq1 := 0, seq0 := s.seq0 + 1 }

/-- The state after the first `n` bits. -/
def bmRun (immed n : Nat) : BM :=
  (List.range n).foldl (fun s i => bmStep s (immed.testBit i))
    { ones := 0, seq0 := 0, seq1 := 0, found := false, last := false, two := false,
      byteOnly := true }

/-- `check_andor_bitmask_immed`, slowpath_x86.c:1756-1808. -/
def bitmaskImmed (strict : Bool) (op : BitOp) (sz immed : Nat) : Bool :=
  if ¬ strict ∧ op = .and then
    let s := bmRun immed (sz * 8)
    ¬ s.two ∧ s.ones > 2
  else false

end Verif.Define
