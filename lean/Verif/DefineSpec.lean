import Verif.Define

/-
The specification for the propagation of definedness, written from the description
of the instructions in the Intel manual and not from the code under study.

A moving instruction is given by the place every byte of its destination comes
from.  A shift is given by the operations on bit vectors.
-/

namespace Verif.Define

/-- Where a byte of the destination comes from. -/
inductive Org where
  /-- byte `b` of source operand `o` -/
  | src (o b : Nat)
  /-- the byte is set to zero -/
  | zero
  /-- the byte keeps its value -/
  | keep
deriving DecidableEq, Repr

/-- The instructions that move bytes.  The operands are numbered as in DynamoRIO: of
two-operand vector instructions operand 0 is the source and operand 1 is the old
value of the destination; an immediate is operand 1, and then the old destination
is operand 2. -/
inductive Move where
  /-- mov, movzx: `n` bytes, and zero above. -/
  | mov (n : Nat)
  /-- xchg of `n` bytes: the new value of operand 0 in bytes 0 to n-1, that of operand 1
  above it. -/
  | xchg (n : Nat)
  | bswap (n : Nat)
  /-- interleave the low halves of registers of `n` bytes, elements of `w` bytes -/
  | unpackLow (n w : Nat)
  | unpackHigh (n w : Nat)
  | shufps (imm : Nat)
  | shufpd (imm : Nat)
  /-- pshufd -/
  | pshufd (imm : Nat)
  /-- byte shifts of a 16-byte register -/
  | byteRight (imm : Nat)
  | byteLeft (imm : Nat)
  /-- pextrb, pextrw, pextrd -/
  | extract (w imm : Nat)
  /-- pinsrb, pinsrw, pinsrd -/
  | insert (w imm : Nat)
  /-- insertps; `mem` tells whether the source is in memory -/
  | insertps (imm : Nat) (mem : Bool)
  /-- movhps from memory and movlhps -/
  | toHigh
  /-- movhps to memory and movhlps -/
  | fromHigh
  /-- movlps from and to memory -/
  | low
deriving DecidableEq, Repr

/-- The origin of byte `j` of the destination. -/
def Move.org : Move → Nat → Org
  | .mov n, j => if j < n then .src 0 j else .zero
  | .xchg n, j => if j < n then .src 1 j else .src 0 (j - n)
  | .bswap n, j => .src 0 (n - 1 - j)
  | .unpackLow _ w, j =>
    .src (if j / w % 2 = 0 then 1 else 0) (j / w / 2 * w + j % w)
  | .unpackHigh n w, j =>
    .src (if j / w % 2 = 0 then 1 else 0) (n / 2 + j / w / 2 * w + j % w)
  | .shufps imm, j =>
    if j < 4 then .src 2 (4 * (imm % 4) + j)
    else if j < 8 then .src 2 (4 * (imm / 4 % 4) + (j - 4))
    else if j < 12 then .src 0 (4 * (imm / 16 % 4) + (j - 8))
    else .src 0 (4 * (imm / 64 % 4) + (j - 12))
  | .shufpd imm, j =>
    if j < 8 then .src 2 (8 * (imm % 2) + j) else .src 0 (8 * (imm / 2 % 2) + (j - 8))
  | .pshufd imm, j => .src 0 (4 * (imm / 4 ^ (j / 4) % 4) + j % 4)
  | .byteRight imm, j => if j + imm < 16 then .src 0 (j + imm) else .zero
  | .byteLeft imm, j => if imm ≤ j then .src 0 (j - imm) else .zero
  | .extract w imm, j => if j < w then .src 0 (imm % (16 / w) * w + j) else .zero
  | .insert w imm, j =>
    if j / w = imm % (16 / w) then .src 0 (j % w) else .keep
  | .insertps imm mem, j =>
    if imm.testBit (j / 4) then .zero
    else if j / 4 = imm / 16 % 4 then .src 0 ((if mem then 0 else imm / 64 % 4) * 4 + j % 4)
    else .keep
  | .toHigh, j => if 8 ≤ j then .src 0 (j - 8) else .keep
  | .fromHigh, j => .src 0 (8 + j)
  | .low, j => .src 0 j

/-- A byte that is not undefined counts as defined: combine_shadows does not carry
other states on. -/
def norm (s : Sh) : Sh := if s = .undef then .undef else .defined

/-- What the shadow of byte `j` must be: that of the byte it comes from. -/
def want (m : Move) (src : Nat → Nat → Sh) (old : Nat → Sh) (j : Nat) : Sh :=
  match m.org j with
  | .src o b => norm (src o b)
  | .zero => .defined
  | .keep => old j

/-- What the processor stores in byte `j`. -/
def exec (m : Move) (src : Nat → Nat → Nat) (old : Nat → Nat) (j : Nat) : Nat :=
  match m.org j with
  | .src o b => src o b
  | .zero => 0
  | .keep => old j

/-- Byte `j` of a value. -/
def byteOf {n : Nat} (x : BitVec n) (j : Nat) : BitVec 8 := x.extractLsb' (8 * j) 8

/-- Two values agree wherever the shadow does not say undefined: what a program can
have in a register with that shadow. -/
def AgreeOn {n : Nat} (sh : Nat → Sh) (x y : BitVec n) : Prop :=
  ∀ j, sh j ≠ .undef → byteOf x j = byteOf y j

end Verif.Define
