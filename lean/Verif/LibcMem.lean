import Verif.CRun

/-!
# Model of the replaced libc memory routines (drmemory/replace.c)

Memory maps an address to the value stored there, or `none` where nothing may be accessed; an
access to such an address is a `fault`.  Values are natural numbers (the unsigned value of the
element).  The narrow routines use one byte per address.  The wide routines that work element by
element (`wmemset`, `wmemchr`, `wmemcmp`) are modelled over a memory with one `wchar_t` per address.

Addresses are natural numbers; the only place where the code depends on their width is the test of
`replace_memmove`, which is modelled modulo `2^64`.  The return values of memset/memcpy/memmove
(always `dst`) are left out.  `ALIGNED(p, 4)` is `p % 4 = 0`; 4-byte accesses are little endian.
-/
namespace Verif.Libc

/-- Memory. -/
abbrev Mem := Nat → Option Nat

/-- Number of addresses. -/
def W : Nat := 2 ^ 64

/-- A load. -/
def ld (m : Mem) (a : Nat) : Out Nat :=
  match m a with
  | some v => .ok v
  | none => .fault

/-- A store. -/
def sto (m : Mem) (a v : Nat) : Out Mem :=
  if (m a).isSome then .ok (fun b => if b = a then some v else m b) else .fault

/-- A 4-byte load. -/
def ld4 (m : Mem) (a : Nat) : Out Nat :=
  (ld m a).bind fun b0 => (ld m (a + 1)).bind fun b1 => (ld m (a + 2)).bind fun b2 =>
  (ld m (a + 3)).bind fun b3 =>
  .ok (b0 + 256 * b1 + 65536 * b2 + 16777216 * b3)

/-- A 4-byte store. -/
def sto4 (m : Mem) (a v : Nat) : Out Mem :=
  (sto m a (v % 256)).bind fun m => (sto m (a + 1) (v / 256 % 256)).bind fun m =>
  (sto m (a + 2) (v / 65536 % 256)).bind fun m => sto m (a + 3) (v / 16777216 % 256)

/-- State of the set loops: `ptr`, `size`, memory. -/
structure SetSt where
  p : Nat
  n : Nat
  m : Mem

/-- `*ptr++ = val; size--` (drmemory/replace.c:191-192, 201-202). -/
def setByte (val : Nat) (s : SetSt) : Out SetSt :=
  (sto s.m s.p val).bind fun m => .ok ⟨s.p + 1, s.n - 1, m⟩

/-- drmemory/replace.c:195-197. -/
def setWord (val4 : Nat) (s : SetSt) : Out SetSt :=
  (sto4 s.m s.p val4).bind fun m => .ok ⟨s.p + 4, s.n - 4, m⟩

/-- replace_memset, drmemory/replace.c:185-205. -/
def memset (m : Mem) (dst valIn size : Nat) (fuel : Nat) : Out Mem :=
  let val := valIn % 256
  let val4 := (val <<< 24 ||| val <<< 16 ||| val <<< 8 ||| val)
  (whileF (fun s : SetSt => .ok (decide (s.p % 4 ≠ 0 ∧ 0 < s.n))) (setByte val) fuel
    ⟨dst, size, m⟩).bind fun s =>
  (whileF (fun s : SetSt => .ok (decide (3 < s.n))) (setWord val4) fuel s).bind fun s =>
  (whileF (fun s : SetSt => .ok (decide (0 < s.n))) (setByte val) fuel s).bind fun s =>
  .ok s.m

/-- replace_bzero, drmemory/replace.c:219-222. -/
def bzero (m : Mem) (dst size : Nat) (fuel : Nat) : Out Mem := memset m dst 0 size fuel

/-- replace_wmemset, drmemory/replace.c:207-213 (one element per address). -/
def wmemset (m : Mem) (dst val size : Nat) (fuel : Nat) : Out Mem :=
  (whileF (fun s : SetSt => .ok (decide (0 < s.n))) (setByte val) fuel ⟨dst, size, m⟩).bind fun s =>
  .ok s.m

/-- State of the copy loops: `d`, `s`, `size`, memory. -/
structure CpSt where
  d : Nat
  s : Nat
  n : Nat
  m : Mem

/-- `*d++ = *s++; size--` (drmemory/replace.c:236-237, 246-247, 251, 756-757, 766-767, 771-772). -/
def cpByte (c : CpSt) : Out CpSt :=
  (ld c.m c.s).bind fun v => (sto c.m c.d v).bind fun m => .ok ⟨c.d + 1, c.s + 1, c.n - 1, m⟩

/-- drmemory/replace.c:240-243, 760-763. -/
def cpWord (c : CpSt) : Out CpSt :=
  (ld4 c.m c.s).bind fun v => (sto4 c.m c.d v).bind fun m => .ok ⟨c.d + 4, c.s + 4, c.n - 4, m⟩

/-- `*(--d) = *(--s); size--` (drmemory/replace.c:784-785, 794-795, 799-800). -/
def cpByteB (c : CpSt) : Out CpSt :=
  (ld c.m (c.s - 1)).bind fun v =>
  (sto c.m (c.d - 1) v).bind fun m => .ok ⟨c.d - 1, c.s - 1, c.n - 1, m⟩

/-- drmemory/replace.c:788-791. -/
def cpWordB (c : CpSt) : Out CpSt :=
  (ld4 c.m (c.s - 4)).bind fun v =>
  (sto4 c.m (c.d - 4) v).bind fun m => .ok ⟨c.d - 4, c.s - 4, c.n - 4, m⟩

/-- `while (!ALIGNED(d, 4) && size > 0)` (drmemory/replace.c:235, 755, 783). -/
def cpUnaligned (c : CpSt) : Out Bool := .ok (decide (c.d % 4 ≠ 0 ∧ 0 < c.n))

/-- `while (size > 3)` (drmemory/replace.c:239, 759, 787). -/
def cpBig (c : CpSt) : Out Bool := .ok (decide (3 < c.n))

/-- `while (size > 0)` (drmemory/replace.c:245, 250, 765, 770, 793, 798).  Line 250 tests and
decrements in one expression; the value of `size` after the loop is not used. -/
def cpSome (c : CpSt) : Out Bool := .ok (decide (0 < c.n))

/-- The three loops of a copy (drmemory/replace.c:235-248, 755-768, 783-796). -/
def cp3 (byte word : CpSt → Out CpSt) (fuel : Nat) (c : CpSt) : Out Mem :=
  (whileF cpUnaligned byte fuel c).bind fun c =>
  (whileF cpBig word fuel c).bind fun c =>
  (whileF cpSome byte fuel c).bind fun c => .ok c.m

/-- The plain loop of a copy (drmemory/replace.c:250-251, 770-773, 798-801). -/
def cp1 (byte : CpSt → Out CpSt) (fuel : Nat) (c : CpSt) : Out Mem :=
  (whileF cpSome byte fuel c).bind fun c => .ok c.m

/-- replace_memcpy, drmemory/replace.c:225-254. -/
def memcpy (m : Mem) (dst src size : Nat) (fuel : Nat) : Out Mem :=
  if dst % 4 = src % 4 then cp3 cpByte cpWord fuel ⟨dst, src, size, m⟩
  else cp1 cpByte fuel ⟨dst, src, size, m⟩

/-- replace_wmemcpy, drmemory/replace.c:260-270 (not Windows; `sizeof(wchar_t)` is 4). -/
def wmemcpy (m : Mem) (dst src size : Nat) (fuel : Nat) : Out Mem :=
  memcpy m dst src (size * 4 % W) fuel

/-- replace_memmove, drmemory/replace.c:740-803. -/
def memmove (m : Mem) (dst src size : Nat) (fuel : Nat) : Out Mem :=
  if size ≤ (dst + W - src) % W then
    if dst % 4 = src % 4 then cp3 cpByte cpWord fuel ⟨dst, src, size, m⟩
    else cp1 cpByte fuel ⟨dst, src, size, m⟩
  else
    if dst % 4 = src % 4 then cp3 cpByteB cpWordB fuel ⟨dst + size, src + size, size, m⟩
    else cp1 cpByteB fuel ⟨dst + size, src + size, size, m⟩

/-- replace_memchr, drmemory/replace.c:273-283; `w` is the width in bits of an element: 8 there, 32
for replace_wmemchr (286-294), whose argument already has the type of the elements.  The pointer
returned, or `none` for NULL. -/
def memchr (w : Nat) (m : Mem) (mem find size : Nat) (fuel : Nat) : Out (Option Nat) :=
  loopF (fun (s, n) =>
    if 0 < n then
      (ld m s).bind fun v =>
        if v = find % 2 ^ w then .ok (.inr (some s)) else .ok (.inl (s + 1, n - 1))
    else .ok (.inr none)) fuel (mem, size)

/-- replace_memrchr, drmemory/replace.c:297-307.  `s` is kept one above the C pointer. -/
def memrchr (m : Mem) (mem find size : Nat) (fuel : Nat) : Out (Option Nat) :=
  loopF (fun (s, n) =>
    if 0 < n then
      (ld m (s - 1)).bind fun v =>
        if v = find % 256 then .ok (.inr (some (s - 1))) else .ok (.inl (s - 1, n - 1))
    else .ok (.inr none)) fuel (mem + size, size)

/-- replace_rawmemchr, drmemory/replace.c:311-319. -/
def rawmemchr (m : Mem) (mem find : Nat) (fuel : Nat) : Out Nat :=
  loopF (fun s => (ld m s).bind fun v =>
    if v = find % 256 then .ok (.inr s) else .ok (.inl (s + 1))) fuel mem

/-- replace_memcmp, drmemory/replace.c:805-818. -/
def memcmp (m : Mem) (p1 p2 size : Nat) (fuel : Nat) : Out Int :=
  loopF (fun (s1, s2, n) =>
    if 0 < n then
      (ld m s1).bind fun a => (ld m s2).bind fun b =>
        if (a : Int) - b ≠ 0 then .ok (.inr ((a : Int) - b)) else .ok (.inl (s1 + 1, s2 + 1, n - 1))
    else .ok (.inr 0)) fuel (p1, p2, size)

/-- The value of a `wchar_t`, a signed 32-bit type on UNIX, with the given bits. -/
def wval (v : Nat) : Int := if v % 2 ^ 32 < 2 ^ 31 then v % 2 ^ 32 else (v % 2 ^ 32 : Nat) - 2 ^ 32

/-- `*s1 - *s2` as an `int` (drmemory/replace.c:825): undefined when it overflows. -/
def wdiff (a b : Nat) : Out Int :=
  if -2 ^ 31 ≤ wval a - wval b ∧ wval a - wval b < 2 ^ 31 then .ok (wval a - wval b) else .fault

/-- replace_wmemcmp, drmemory/replace.c:820-832 (one element per address). -/
def wmemcmp (m : Mem) (p1 p2 size : Nat) (fuel : Nat) : Out Int :=
  loopF (fun (s1, s2, n) =>
    if 0 < n then
      (ld m s1).bind fun a => (ld m s2).bind fun b => (wdiff a b).bind fun diff =>
        if diff ≠ 0 then .ok (.inr diff) else .ok (.inl (s1 + 1, s2 + 1, n - 1))
    else .ok (.inr 0)) fuel (p1, p2, size)

end Verif.Libc
