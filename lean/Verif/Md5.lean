/-!
# MD5 (common/crypto.c)

Bytes are `UInt8`, `uint` is `UInt32`, `uint64` is `UInt64`.  `size_t` lengths are natural numbers
(the length of the list passed in); they are only added, subtracted and compared after a
comparison, and `(uint64)len << 3` is truncated as in C.  The little-endian branch is modelled
(common/crypto.c:220).
-/
namespace Verif.Md5

/-- `uint state[4]` (common/crypto.h:75), also the four locals `a b c d` of `md5_transform`. -/
structure Regs where
  a : UInt32
  b : UInt32
  c : UInt32
  d : UInt32
  deriving DecidableEq, Repr

/-- Read one of `a b c d`. -/
def Regs.get (r : Regs) : Fin 4 → UInt32
  | 0 => r.a
  | 1 => r.b
  | 2 => r.c
  | 3 => r.d

/-- Assign one of `a b c d`. -/
def Regs.set (r : Regs) : Fin 4 → UInt32 → Regs
  | 0, v => { r with a := v }
  | 1, v => { r with b := v }
  | 2, v => { r with c := v }
  | 3, v => { r with d := v }

/-- Names of the four core functions (common/crypto.c:201-204). -/
inductive Fn
  | F1 | F2 | F3 | F4
  deriving DecidableEq, Repr

/-- `F1` (common/crypto.c:201). -/
def F1 (x y z : UInt32) : UInt32 := z ^^^ (x &&& (y ^^^ z))

/-- `F2` (common/crypto.c:202). -/
def F2 (x y z : UInt32) : UInt32 := F1 z x y

/-- `F3` (common/crypto.c:203). -/
def F3 (x y z : UInt32) : UInt32 := x ^^^ y ^^^ z

/-- `F4` (common/crypto.c:204). -/
def F4 (x y z : UInt32) : UInt32 := y ^^^ (x ||| ~~~z)

/-- The core function named in a step. -/
def Fn.ap : Fn → UInt32 → UInt32 → UInt32 → UInt32
  | .F1 => Md5.F1
  | .F2 => Md5.F2
  | .F3 => Md5.F3
  | .F4 => Md5.F4

/-- `w<<s | w>>(32-s)` (common/crypto.c:208). -/
def rot (w s : UInt32) : UInt32 := w <<< s ||| w >>> (32 - s)

/-- One line of `md5_transform`: core function, registers `w x y z`, input index, constant,
shift. -/
abbrev Line := Fn × Fin 4 × Fin 4 × Fin 4 × Fin 4 × Nat × UInt32 × UInt32

/-- `MD5STEP` (common/crypto.c:207-208); `inp` is the array `in`. -/
def md5step (inp : Nat → UInt32) (r : Regs) : Line → Regs
  | (f, w, x, y, z, i, k, s) =>
    let v := r.get w + (f.ap (r.get x) (r.get y) (r.get z) + (inp i + k))
    r.set w (rot v s + r.get x)

/-- The 64 lines of `md5_transform` (common/crypto.c:234-300), registers numbered from `a`. -/
def lines : List Line := [
  (.F1, 0, 1, 2, 3, 0, 0xd76aa478, 7),
  (.F1, 3, 0, 1, 2, 1, 0xe8c7b756, 12),
  (.F1, 2, 3, 0, 1, 2, 0x242070db, 17),
  (.F1, 1, 2, 3, 0, 3, 0xc1bdceee, 22),
  (.F1, 0, 1, 2, 3, 4, 0xf57c0faf, 7),
  (.F1, 3, 0, 1, 2, 5, 0x4787c62a, 12),
  (.F1, 2, 3, 0, 1, 6, 0xa8304613, 17),
  (.F1, 1, 2, 3, 0, 7, 0xfd469501, 22),
  (.F1, 0, 1, 2, 3, 8, 0x698098d8, 7),
  (.F1, 3, 0, 1, 2, 9, 0x8b44f7af, 12),
  (.F1, 2, 3, 0, 1, 10, 0xffff5bb1, 17),
  (.F1, 1, 2, 3, 0, 11, 0x895cd7be, 22),
  (.F1, 0, 1, 2, 3, 12, 0x6b901122, 7),
  (.F1, 3, 0, 1, 2, 13, 0xfd987193, 12),
  (.F1, 2, 3, 0, 1, 14, 0xa679438e, 17),
  (.F1, 1, 2, 3, 0, 15, 0x49b40821, 22),
  (.F2, 0, 1, 2, 3, 1, 0xf61e2562, 5),
  (.F2, 3, 0, 1, 2, 6, 0xc040b340, 9),
  (.F2, 2, 3, 0, 1, 11, 0x265e5a51, 14),
  (.F2, 1, 2, 3, 0, 0, 0xe9b6c7aa, 20),
  (.F2, 0, 1, 2, 3, 5, 0xd62f105d, 5),
  (.F2, 3, 0, 1, 2, 10, 0x02441453, 9),
  (.F2, 2, 3, 0, 1, 15, 0xd8a1e681, 14),
  (.F2, 1, 2, 3, 0, 4, 0xe7d3fbc8, 20),
  (.F2, 0, 1, 2, 3, 9, 0x21e1cde6, 5),
  (.F2, 3, 0, 1, 2, 14, 0xc33707d6, 9),
  (.F2, 2, 3, 0, 1, 3, 0xf4d50d87, 14),
  (.F2, 1, 2, 3, 0, 8, 0x455a14ed, 20),
  (.F2, 0, 1, 2, 3, 13, 0xa9e3e905, 5),
  (.F2, 3, 0, 1, 2, 2, 0xfcefa3f8, 9),
  (.F2, 2, 3, 0, 1, 7, 0x676f02d9, 14),
  (.F2, 1, 2, 3, 0, 12, 0x8d2a4c8a, 20),
  (.F3, 0, 1, 2, 3, 5, 0xfffa3942, 4),
  (.F3, 3, 0, 1, 2, 8, 0x8771f681, 11),
  (.F3, 2, 3, 0, 1, 11, 0x6d9d6122, 16),
  (.F3, 1, 2, 3, 0, 14, 0xfde5380c, 23),
  (.F3, 0, 1, 2, 3, 1, 0xa4beea44, 4),
  (.F3, 3, 0, 1, 2, 4, 0x4bdecfa9, 11),
  (.F3, 2, 3, 0, 1, 7, 0xf6bb4b60, 16),
  (.F3, 1, 2, 3, 0, 10, 0xbebfbc70, 23),
  (.F3, 0, 1, 2, 3, 13, 0x289b7ec6, 4),
  (.F3, 3, 0, 1, 2, 0, 0xeaa127fa, 11),
  (.F3, 2, 3, 0, 1, 3, 0xd4ef3085, 16),
  (.F3, 1, 2, 3, 0, 6, 0x04881d05, 23),
  (.F3, 0, 1, 2, 3, 9, 0xd9d4d039, 4),
  (.F3, 3, 0, 1, 2, 12, 0xe6db99e5, 11),
  (.F3, 2, 3, 0, 1, 15, 0x1fa27cf8, 16),
  (.F3, 1, 2, 3, 0, 2, 0xc4ac5665, 23),
  (.F4, 0, 1, 2, 3, 0, 0xf4292244, 6),
  (.F4, 3, 0, 1, 2, 7, 0x432aff97, 10),
  (.F4, 2, 3, 0, 1, 14, 0xab9423a7, 15),
  (.F4, 1, 2, 3, 0, 5, 0xfc93a039, 21),
  (.F4, 0, 1, 2, 3, 12, 0x655b59c3, 6),
  (.F4, 3, 0, 1, 2, 3, 0x8f0ccc92, 10),
  (.F4, 2, 3, 0, 1, 10, 0xffeff47d, 15),
  (.F4, 1, 2, 3, 0, 1, 0x85845dd1, 21),
  (.F4, 0, 1, 2, 3, 8, 0x6fa87e4f, 6),
  (.F4, 3, 0, 1, 2, 15, 0xfe2ce6e0, 10),
  (.F4, 2, 3, 0, 1, 6, 0xa3014314, 15),
  (.F4, 1, 2, 3, 0, 13, 0x4e0811a1, 21),
  (.F4, 0, 1, 2, 3, 4, 0xf7537e82, 6),
  (.F4, 3, 0, 1, 2, 11, 0xbd3af235, 10),
  (.F4, 2, 3, 0, 1, 2, 0x2ad7d2bb, 15),
  (.F4, 1, 2, 3, 0, 9, 0xeb86d391, 21)]

/-- Four bytes as a little-endian `uint` (common/crypto.c:220: `memcpy(in, block, sizeof(in))`). -/
def le32 (b : List UInt8) (i : Nat) : UInt32 :=
  (b.getD (4 * i) 0).toUInt32 ||| (b.getD (4 * i + 1) 0).toUInt32 <<< 8 |||
  (b.getD (4 * i + 2) 0).toUInt32 <<< 16 ||| (b.getD (4 * i + 3) 0).toUInt32 <<< 24

/-- `md5_transform` (common/crypto.c:215-309). -/
def transform (s : Regs) (block : List UInt8) : Regs :=
  let r := lines.foldl (md5step (le32 block)) s
  ⟨s.a + r.a, s.b + r.b, s.c + r.c, s.d + r.d⟩

/-- `md5_context_t` (common/crypto.h:74-78). -/
structure Ctx where
  state : Regs
  count : UInt64
  buffer : List UInt8

/-- The initial state words (common/crypto.c:115-118). -/
def iv : Regs := ⟨0x67452301, 0xefcdab89, 0x98badcfe, 0x10325476⟩

/-- `md5_init` (common/crypto.c:111-119); the buffer is left as it was. -/
def init (buffer : List UInt8) : Ctx := ⟨iv, 0, buffer⟩

/-- `memcpy(ctx->buffer + at, input, ...)` (common/crypto.c:139, 156). -/
def store (buffer : List UInt8) (at_ : Nat) (input : List UInt8) : List UInt8 :=
  buffer.take at_ ++ input ++ buffer.drop (at_ + input.length)

/-- `while (len >= MD5_BLOCK_LENGTH)` (common/crypto.c:147-151), `n` the number of turns allowed. -/
def absorb : Nat → Regs → List UInt8 → Regs × List UInt8
  | 0, s, input => (s, input)
  | n + 1, s, input =>
    if input.length ≥ 64 then absorb n (transform s (input.take 64)) (input.drop 64)
    else (s, input)

/-- `md5_update` (common/crypto.c:125-157).  The loop cannot run more often than there are bytes. -/
def update (ctx : Ctx) (input : List UInt8) : Ctx :=
  let have_ := ((ctx.count >>> 3) &&& 63).toNat
  let need := 64 - have_
  let count := ctx.count + (UInt64.ofNat input.length <<< 3)
  if input.length ≥ need then
    if have_ ≠ 0 then
      let buffer := store ctx.buffer have_ (input.take need)
      let r := absorb input.length (transform ctx.state buffer) (input.drop need)
      if r.2.length ≠ 0 then ⟨r.1, count, store buffer 0 r.2⟩ else ⟨r.1, count, buffer⟩
    else
      let r := absorb input.length ctx.state input
      if r.2.length ≠ 0 then ⟨r.1, count, store ctx.buffer have_ r.2⟩ else ⟨r.1, count, ctx.buffer⟩
  else if input.length ≠ 0 then ⟨ctx.state, count, store ctx.buffer have_ input⟩
  else ⟨ctx.state, count, ctx.buffer⟩

/-- `PUT_64BIT_LE` (common/crypto.c:85-93). -/
def put64 (v : UInt64) : List UInt8 :=
  [v.toUInt8, (v >>> 8).toUInt8, (v >>> 16).toUInt8, (v >>> 24).toUInt8, (v >>> 32).toUInt8,
   (v >>> 40).toUInt8, (v >>> 48).toUInt8, (v >>> 56).toUInt8]

/-- `PUT_32BIT_LE` (common/crypto.c:95-99). -/
def put32 (v : UInt32) : List UInt8 :=
  [v.toUInt8, (v >>> 8).toUInt8, (v >>> 16).toUInt8, (v >>> 24).toUInt8]

/-- `PADDING` (common/crypto.c:101-105). -/
def padding : List UInt8 := 0x80 :: List.replicate 63 0

/-- `md5_pad` (common/crypto.c:163-179). -/
def pad (ctx : Ctx) : Ctx :=
  let count := put64 ctx.count
  let padlen := 64 - ((ctx.count >>> 3) &&& 63).toNat
  let padlen := if padlen < 1 + 8 then padlen + 64 else padlen
  update (update ctx (padding.take (padlen - 8))) count

/-- `md5_final` (common/crypto.c:184-195): the digest (the context is then cleared). -/
def final (ctx : Ctx) : List UInt8 :=
  let r := (pad ctx).state
  put32 r.a ++ put32 r.b ++ put32 r.c ++ put32 r.d

/-- `get_md5_for_region` (common/crypto.c:323-335); `buffer` is the uninitialised buffer of the
local context. -/
def forRegion (buffer region : List UInt8) : List UInt8 :=
  if region.length ≠ 0 then final (update (init buffer) region) else final (init buffer)

/-- `md5_digests_equal` (common/crypto.c:337-341). -/
def digestsEqual (d1 d2 : List UInt8) : Bool := d1.take 16 == d2.take 16

/-- `md5_hash` (common/crypto.c:344-357). -/
def hash (digest : List UInt8) : UInt32 :=
  (List.range 4).foldl (fun h i => h ^^^
    ((digest.getD (4 * i + 3) 0).toUInt32 <<< 24 ||| (digest.getD (4 * i + 2) 0).toUInt32 <<< 16 |||
     (digest.getD (4 * i + 1) 0).toUInt32 <<< 8 ||| (digest.getD (4 * i) 0).toUInt32)) 0

end Verif.Md5
