import Verif.CRun

/-!
# Model of the bit-flip mutator (drfuzz/drfuzz_mutator.c)

The `uint` arithmetic that can wrap (the sum of the innermost index and the sparsity) is modelled
modulo `2^32`.  Memory management (`global_alloc`, `global_free`) is left out; the array `index` is
a list and its freed state (`NULL`) is `none`.  A flip outside the buffer is a `fault`.
-/
namespace Verif.Mut

/-- Buffer contents. -/
abbrev Buf := List (BitVec 8)

/-- bitflip_t (drfuzz/drfuzz_mutator.c:763-769); `last_index` points to the last element of `index`. -/
structure Flip where
  bitCount : Nat
  bitsToFlip : Nat
  index : Option (List Nat)
  deriving Repr, DecidableEq

/-- bitflip_start_inner_loops, drfuzz/drfuzz_mutator.c:775-782. -/
def startInner (bitsToFlip : Nat) (index : List Nat) (loopIndex : Nat) : List Nat :=
  (List.range' loopIndex (bitsToFlip - loopIndex)).foldl
    (fun a i => a.set i (a.getD (i - 1) 0 + 1)) index

/-- bitflip_init_bits_to_flip, drfuzz/drfuzz_mutator.c:786-797.  The fresh array is unspecified in
C; here its elements start as 0. -/
def initBits (f : Flip) (bitsToFlip : Nat) : Flip :=
  { f with
    bitsToFlip := bitsToFlip
    index := some (startInner bitsToFlip ((List.replicate bitsToFlip 0).set 0 0) 1) }

/-- bitflip_create, drfuzz/drfuzz_mutator.c:800-810, for a buffer of `size` bytes (`bit_count` is a
`uint`). -/
def create (size : Nat) : Flip := initBits ⟨8 * size % 2 ^ 32, 0, none⟩ 1

/-- bitflip_has_next_value, drfuzz/drfuzz_mutator.c:855-859. -/
def hasNext (f : Flip) : Bool := f.index.isSome

/-- The `for` loop of bitflip_increment that finds the innermost index that can move
(drfuzz/drfuzz_mutator.c:896-903), from `i - 1` downwards; `none`: there is none. -/
def findMove (bitCount bitsToFlip : Nat) (index : List Nat) : Nat → Option (List Nat)
  | 0 => none
  | i + 1 =>
    if index.getD i 0 < bitCount - (bitsToFlip - i) then
      some (startInner bitsToFlip (index.set i (index.getD i 0 + 1)) (i + 1))
    else findMove bitCount bitsToFlip index i

/-- The `while (true)` loop of bitflip_increment, drfuzz/drfuzz_mutator.c:885-905. -/
def incLoop (bitCount bitsToFlip : Nat) : Nat → Nat → List Nat → Out (List Nat)
  | 0, _, _ => .fuel
  | fuel + 1, skip, index =>
    let last := index.getD (bitsToFlip - 1) 0
    if (last + skip) % 2 ^ 32 < bitCount then
      .ok (index.set (bitsToFlip - 1) ((last + skip) % 2 ^ 32))
    else
      let skip := (skip + 2 ^ 32 - (bitCount - last)) % 2 ^ 32
      let index := index.set (bitsToFlip - 1) (bitCount - 1)
      incLoop bitCount bitsToFlip fuel skip
        ((findMove bitCount bitsToFlip index (bitsToFlip - 1)).getD index)

/-- bitflip_increment, drfuzz/drfuzz_mutator.c:870-906.  Each turn of the loop lowers `skip`, so
`skip + 1` turns are enough. -/
def increment (sparsity : Nat) (f : Flip) : Out Flip :=
  let skip := if sparsity = 0 then 1 else sparsity
  match f.index with
  | none => .fault
  | some index =>
    if index.getD 0 0 = f.bitCount - f.bitsToFlip then
      if f.bitsToFlip < f.bitCount then .ok (initBits f (f.bitsToFlip + 1))
      else .ok { f with index := none }
    else
      (incLoop f.bitCount f.bitsToFlip (skip + 1) skip index).bind fun index =>
      .ok { f with index := some index }

/-- `b[i] ^= (1 << bit)` on a byte array. -/
def xorBit (b : Buf) (i bit : Nat) : Out Buf :=
  if h : i < b.length then .ok (b.set i (b[i] ^^^ BitVec.ofNat 8 (1 <<< bit))) else .fault

/-- distributed_flip_bit, drfuzz/drfuzz_mutator.c:914-923. -/
def distributedFlip (b : Buf) (i size : Nat) : Out Buf := xorBit b (i % size) (i / size)

/-- bitflip_distribute_index_and_flip, drfuzz/drfuzz_mutator.c:926-934. -/
def flipAll (size : Nat) : List Nat → Buf → Out Buf
  | [], b => .ok b
  | i :: is, b => (distributedFlip b i size).bind fun b => flipAll size is b

/-- get_next_ordered_bits, drfuzz/drfuzz_mutator.c:543-549, on a buffer that already holds the
seed: drfuzz_mutator_get_next_value, 688-714, copies the seed into it first with
MUTATOR_FLAG_SEED_CENTRIC. -/
def nextOrdered (seed : Buf) (sparsity : Nat) (f : Flip) : Out (Buf × Flip) :=
  (flipAll seed.length (f.index.getD []) seed).bind fun b =>
  (increment sparsity f).bind fun f => .ok (b, f)

/-- A client that asks for values as long as there are any, and collects them:
`while (drfuzz_mutator_has_next_value(m)) drfuzz_mutator_get_next_value(m, buf);`
(drfuzz/drfuzz_mutator.c:482-508, 688-714). -/
def run (seed : Buf) (sparsity : Nat) : Nat → Flip → Out (List Buf)
  | 0, _ => .fuel
  | n + 1, f =>
    if hasNext f then
      (nextOrdered seed sparsity f).bind fun (b, f) =>
      (run seed sparsity n f).bind fun bs => .ok (b :: bs)
    else .ok []

/-- All values of a mutator with the given seed: drfuzz_mutator_start (drfuzz/drfuzz_mutator.c:
445-480) and then the client above. -/
def allValues (seed : Buf) (sparsity : Nat) (n : Nat) : Out (List Buf) :=
  run seed sparsity n (create seed.length)

/-! ## Random flips -/

/-- The value of a `short` with the low 16 bits of `v` (SHUFFLE_RELATIVE_VALUE,
drfuzz/drfuzz_mutator.c:844). -/
def toShort (v : Int) : Int := (v + 32768) % 65536 - 32768

/-- SHUFFLE_ABSOLUTE_VALUE, drfuzz/drfuzz_mutator.c:843: `uint` arithmetic. -/
def absVal (shuffle : Nat → Int) (k : Nat) : Nat := (((k : Int) + shuffle k) % 2 ^ 32).toNat

/-- flip_bit, drfuzz/drfuzz_mutator.c:823-827. -/
def flipBit (b : Buf) (i : Nat) : Out Buf := xorBit b (i / 8) (i % 8)

/-- The loop of bitflip_shuffle_and_flip, drfuzz/drfuzz_mutator.c:847-851; `cnt` turns remain, `r i`
is the random number drawn in turn `i`. -/
def shuffleLoop (bitCount : Nat) (r : Nat → Nat) :
    Nat → Nat → (Nat → Int) → Buf → Out Buf
  | 0, _, _, b => .ok b
  | cnt + 1, i, sh, b =>
    let pick := i + r i % (bitCount - i)
    (flipBit b (absVal sh pick)).bind fun b =>
    let v := toShort ((absVal sh i : Int) - pick)
    shuffleLoop bitCount r cnt (i + 1) (fun j => if j = pick then v else sh j) b

/-- bitflip_shuffle_and_flip, drfuzz/drfuzz_mutator.c:830-853: the loop runs while `pick_count`,
which starts at `bit_count`, is above `bit_count - bits_to_flip`. -/
def shuffleAndFlip (f : Flip) (r : Nat → Nat) (b : Buf) : Out Buf :=
  shuffleLoop f.bitCount r f.bitsToFlip 0 (fun _ => 0) b

end Verif.Mut
