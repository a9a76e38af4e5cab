/-!
# System calls without a table entry

For a system call that drsyscall does not know, the memory at every parameter that looks like a
pointer is saved before the call and compared after it; bytes that changed are taken as written
by the kernel.  With `-syscall_sentinels` the undefined bytes are overwritten with 0xab first, so
that a write of the old value is seen too, and put back afterwards.

Modelled: drsyscall/drsyscall.c:389-606 (`handle_pre_unknown_syscall`,
`handle_post_unknown_syscall`) for 64-bit Linux, called from `drsys_iterate_memargs` (1676-1703) and
for the last time, with `ii == NULL`, from drsyscall.c:2000-2009.

Simplifications: `analyze_unknown_syscalls` is on; addresses do not wrap around; the permissions of
pages do not change during the call; no other thread runs; the client is Dr. Memory, which marks a
reported range as defined where it is addressable (drmemory/syscall.c:349-391).
-/

namespace Verif.SysUnknown

/-- Shadow of a byte: not addressable, addressable and not defined, defined. -/
inductive Sh where
  | un | undef | defd
deriving DecidableEq, Repr

abbrev Mem := Nat → UInt8
abbrev Shadow := Nat → Sh

/-- The options `-syscall_sentinels` and `-syscall_dword_granularity`
(drmemory/optionsx.h:536-541; defaults false and true). -/
structure Cfg where
  sent : Bool
  dword : Bool

/-- What does not change during the call: readable and writable bytes, the values of the
parameters and whether the registers holding them are defined. -/
structure Env where
  rd : Nat → Bool
  wr : Nat → Bool
  arg : Nat → Nat
  argDef : Nat → Bool

/-- drsyscall/drsyscall_os.h:331-337 — `sysarg_ptr` (0 is NULL), `sysarg_sz` and `sysarg_val` of
the thread.  They survive the call. -/
structure Cls where
  ptr : Nat → Nat
  sz : Nat → Nat
  val : Nat → Nat → UInt8

/-- drsyscall/drsyscall_os.h:39 `SYSCALL_NUM_ARG_TRACK`. -/
def NARGS : Nat := 6

/-- drsyscall/drsyscall_os.h:273 `SYSCALL_ARG_TRACK_MAX_SZ`. -/
def MAX : Nat := 2048

/-- drsyscall/drsyscall.c:328 `UNKNOWN_SYSVAL_SENTINEL`. -/
def S : UInt8 := 0xab

/-- A function changed at one place. -/
def upd {α} (f : Nat → α) (i : Nat) (v : α) : Nat → α := fun j => if j = i then v else f j

/-- drsyscall/drsyscall.c:435-444 — does some earlier parameter overlap? -/
def overlap (c : Cls) (i start j : Nat) : Bool :=
  (List.range i).any fun p => decide (c.ptr p < start + j) && decide (start < c.ptr p + c.sz p)

/-- drsyscall/drsyscall.c:434-447 — the length of the memory to track, from `j` on. -/
def scan (c : Cls) (sh : Shadow) (i start : Nat) : (fuel j : Nat) → Nat
  | 0, j => j
  | f + 1, j =>
    if overlap c i start j || decide (sh (start + j) = .un) then j
    else scan c sh i start f (j + 1)

/-- All bytes of a range readable: `safe_read` succeeds. -/
def readable (e : Env) (a n : Nat) : Bool := (List.range n).all fun q => e.rd (a + q)

/-- drsyscall/drsyscall.c:472-502 — sentinels into the undefined bytes among the next `f` from
`a` on, up to the first that cannot be written. -/
def sentLoop (e : Env) (sh : Shadow) : (f a : Nat) → Mem → Mem
  | 0, _, m => m
  | f + 1, a, m =>
    if sh a = .undef then
      if e.wr a then sentLoop e sh f (a + 1) (upd m a S) else m
    else sentLoop e sh f (a + 1) m

/-- drsyscall/drsyscall.c:408-507 — one parameter before the call. -/
def preOne (k : Cfg) (e : Env) (sh : Shadow) (i : Nat) (m : Mem) (c : Cls) : Mem × Cls :=
  let c := { c with ptr := upd c.ptr i 0 }
  let start := e.arg i
  if e.argDef i && decide (start % 4 = 0) && decide (sh start ≠ .un) then
    let j := scan c sh i start MAX 0
    let c :=
      if 0 < j then
        if readable e start j then
          { ptr := upd c.ptr i start, sz := upd c.sz i j,
            val := upd c.val i (fun q => m (start + q)) }
        else { c with sz := upd c.sz i 0 }
      else c
    (if k.sent then sentLoop e sh (c.sz i) start m else m, c)
  else (m, c)

/-- drsyscall/drsyscall.c:389-509 `handle_pre_unknown_syscall`: the first `n` parameters. -/
def preN (k : Cfg) (e : Env) (sh : Shadow) (m : Mem) (c : Cls) : (n : Nat) → Mem × Cls
  | 0 => (m, c)
  | n + 1 =>
    let x := preN k e sh m c n
    preOne k e sh n x.1 x.2

/-- `handle_pre_unknown_syscall`. -/
def pre (k : Cfg) (e : Env) (sh : Shadow) (m : Mem) (c : Cls) : Mem × Cls :=
  preN k e sh m c NARGS

/-- The client's reaction to a reported write (drmemory/syscall.c:349-391 through
`handle_mem_ref`). -/
def mark (sh : Shadow) (a n : Nat) : Shadow := fun x =>
  if a ≤ x ∧ x < a + n ∧ sh x = .undef then .defd else sh x

/-- drsyscall/drsyscall.c:533-536 — is the byte taken as written? -/
def differs (k : Cfg) (now old : UInt8) : Bool :=
  (k.sent && decide (now ≠ S)) || (!k.sent && decide (now ≠ old))

/-- drsyscall/drsyscall.c:547-557 — the report for a written byte. -/
def report (k : Cfg) (sh : Shadow) (a : Nat) : Shadow :=
  if k.dword then mark sh (a / 4 * 4) 4 else mark sh a 1

/-- drsyscall/drsyscall.c:522-586 with `ii != NULL` — the bytes of one parameter, first pass:
`f` bytes from offset `j` on. -/
def repLoop (k : Cfg) (m : Mem) (ptr : Nat) (val : Nat → UInt8) : (f j : Nat) → Shadow → Shadow
  | 0, _, sh => sh
  | f + 1, j, sh =>
    repLoop k m ptr val f (j + 1)
      (if sh (ptr + j) = .undef ∧ differs k (m (ptr + j)) (val j) = true then
        report k sh (ptr + j) else sh)

/-- drsyscall/drsyscall.c:519-606 with `ii != NULL`: the first `n` parameters. -/
def repN (k : Cfg) (e : Env) (m : Mem) (c : Cls) (sh : Shadow) : (n : Nat) → Shadow
  | 0 => sh
  | n + 1 =>
    let sh := repN k e m c sh n
    if c.ptr n ≠ 0 ∧ readable e (c.ptr n) (c.sz n) = true then
      repLoop k m (c.ptr n) (c.val n) (c.sz n) 0 sh
    else sh

/-- drsyscall/drsyscall.c:522-586 with `ii == NULL` — the bytes of one parameter, last pass: put
back what a sentinel replaced.  `pv` is `post_val`. -/
def resLoop (k : Cfg) (e : Env) (sh : Shadow) (ptr : Nat) (val pv : Nat → UInt8) :
    (f j : Nat) → Mem → Mem
  | 0, _, m => m
  | f + 1, j, m =>
    resLoop k e sh ptr val pv f (j + 1)
      (if sh (ptr + j) = .undef ∧ differs k (pv j) (val j) = false ∧ pv j = S ∧ val j ≠ S ∧
          e.wr (ptr + j) = true then upd m (ptr + j) (val j) else m)

/-- drsyscall/drsyscall.c:519-606 with `ii == NULL`: the first `n` parameters. -/
def resN (k : Cfg) (e : Env) (sh : Shadow) (c : Cls) (m : Mem) : (n : Nat) → Mem
  | 0 => m
  | n + 1 =>
    let m := resN k e sh c m n
    if c.ptr n ≠ 0 ∧ readable e (c.ptr n) (c.sz n) = true then
      resLoop k e sh (c.ptr n) (c.val n) (fun j => m (c.ptr n + j)) (c.sz n) 0 m
    else m

/-- The kernel: writes `v` to the bytes of `W`. -/
def kernel (W : Nat → Bool) (v : Mem) (m : Mem) : Mem := fun x => if W x then v x else m x

/-- One unknown system call: memory, shadow and per-thread record afterwards. -/
def call (k : Cfg) (e : Env) (W : Nat → Bool) (v : Mem) (m : Mem) (sh : Shadow) (c : Cls) :
    Mem × Shadow × Cls :=
  let p := pre k e sh m c
  let m2 := kernel W v p.1
  let sh2 := repN k e m2 p.2 sh NARGS
  (resN k e sh2 p.2 m2 NARGS, sh2, p.2)

end Verif.SysUnknown
