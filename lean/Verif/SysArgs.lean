/-
Model of the memory arguments of system calls on 64-bit x86 Linux:
drsyscall/drsyscall.c (table-driven part), drsyscall/drsyscall_linux.c
(complex types and special cases) and drmemory/syscall.c (what Dr. Memory does
with each reported range).

Numbers are natural numbers below `2^64` standing for 64-bit words.
Simplifications, valid for the whole file:
* the callback never asks to stop (`drsys_iter_memarg_cb`,
  drmemory/syscall.c:349-391, always returns true), so `ii->abort` stays false;
* only the first iteration of a system call is modelled (`pt->first_iter`);
* `SYSARG_SIZE_IN_FIELD` and `SYSARG_POST_SIZE_IO_STATUS` are left out: no entry of
  the Linux table uses them;
* names, types and idle messages of the reports are left out.
-/

namespace Verif.SysArgs

/-- drsyscall/drsyscall_os.h:100-153 — the `SYSARG_*` flags of one table entry. -/
structure Flags where
  r : Bool := false        -- SYSARG_READ
  w : Bool := false        -- SYSARG_WRITE
  ct : Bool := false       -- SYSARG_COMPLEX_TYPE
  inout : Bool := false    -- SYSARG_LENGTH_INOUT
  elts : Bool := false     -- SYSARG_SIZE_IN_ELEMENTS
  inlined : Bool := false  -- SYSARG_INLINED
  no0 : Bool := false      -- SYSARG_NO_WRITE_IF_COUNT_0
  ht : Bool := false       -- SYSARG_HAS_TYPE
  ifNext : Bool := false   -- SYSARG_IGNORE_IF_NEXT_NULL
  ifPrev : Bool := false   -- SYSARG_IGNORE_IF_PREV_NULL
  nonmem : Bool := false   -- SYSARG_NON_MEMARG
  plus1 : Bool := false    -- SYSARG_SIZE_PLUS_1
deriving DecidableEq, Repr

/-- drsyscall/drsyscall_os.h:219-235 — field `misc`: a type code when
`SYSARG_COMPLEX_TYPE` or `SYSARG_HAS_TYPE` is set, the element size when
`SYSARG_SIZE_IN_ELEMENTS` is set.  The type codes are kept symbolic. -/
inductive Misc where
  | plain | cstring | sockaddr | msghdr | msgbuf | strarray
  | elt (n : Int)
deriving DecidableEq, Repr

/-- drsyscall/drsyscall_os.h:219-235 `sysinfo_arg_t`.  `size` is positive for an
absolute size, minus the number of the parameter holding the size otherwise. -/
structure Arg where
  param : Nat
  size : Int
  fl : Flags
  misc : Misc := .plain
deriving DecidableEq, Repr

/-- drsyscall/drsyscall_os.h:161 `SYSARG_POST_SIZE_RETVAL`. -/
def RET : Int := -101

/-- drsyscall/drsyscall_os.h:34 — entries per system call on Linux. -/
def MAX_ARGS : Nat := 6

/-- A zero entry ends the list. -/
def zeroArg : Arg := ⟨0, 0, {}, .plain⟩

/-- drsyscall/drsyscall.c:1029-1033 `sysarg_invalid`. -/
def invalid (a : Arg) : Bool :=
  a.param == 0 && a.size == 0 && a.fl == {}

/-- drsyscall/drsyscall.c:1240 `SIZE_DYNAMIC`. -/
def SIZE_DYNAMIC : Nat := 2 ^ 64 - 1

/-- One range passed to the client by `report_memarg_type`
(drsyscall/drsyscall.c:903-912): parameter number, mode (drsyscall.c:806-820
`mode_from_flags`: in, out), first byte and length. -/
structure Rep where
  ord : Nat
  r : Bool
  w : Bool
  start : Nat
  size : Nat
deriving DecidableEq, Repr

/-- What is fixed while one event is handled: the parameter values
(`pt->sysarg`), the memory (`none`: not readable), the result register, and the
upper half of an uninitialised local variable (see `checkMsghdr`). -/
structure Env where
  arg : Nat → Nat
  mem : Nat → Option Nat
  result : Nat := 0
  junk : Nat := 0

/-- drsyscall/drsyscall_os.h:300-341 `cls_syscall_t` — per-thread values kept from the
pre-syscall to the post-syscall event, and beyond: nothing clears them. -/
structure St where
  known : Nat → Nat
  sockLen : Nat := 0
  ctl : Nat := 0
  ctlLen : Nat := 0

/-- `safe_read` of `n` bytes, little-endian. -/
def rdLE (m : Nat → Option Nat) (a : Nat) : Nat → Option Nat
  | 0 => some 0
  | n + 1 =>
    match m a, rdLE m (a + 1) n with
    | some b, some v => some (b + 256 * v)
    | _, _ => none

/-- drsyscall/drsyscall.c:1336-1340 and 1352-1356 — the search for the entry of the
parameter `q` that holds a size, started at index 0 if `q` is before the parameter
and after entry `i` otherwise.  Not finding it ends at the zero entry (within the
table if fewer than `MAX_ARGS` entries are used; `C56_table`). -/
def sizeEntry (all : List Arg) (i : Nat) (a : Arg) : Arg :=
  let q := (-a.size).toNat
  ((all.drop (if q < a.param then 0 else i + 1)).find? (fun b => b.param == q)).getD zeroArg

/-- The conversion `(int) v` of a 64-bit value, back in 64 bits. -/
def sext32 (v : Nat) : Nat :=
  let x := v % 2 ^ 32
  if x < 2 ^ 31 then x else 2 ^ 64 - 2 ^ 32 + x

/-- drsyscall/drsyscall.c:1243-1383 `sysarg_get_size` for entry `a` at index `i`.
Left out: `SYSARG_SIZE_IN_FIELD`, `SYSARG_POST_SIZE_IO_STATUS`. -/
def getSize (e : Env) (pre : Bool) (all : List Arg) (i : Nat) (a : Arg) : Nat :=
  if a.size = 0 ∧ a.fl.ct = true ∧ a.misc = .cstring then SIZE_DYNAMIC
  else
    let s :=
      if a.size = RET then (if pre then 0 else e.result)
      else
        let v := if 0 < a.size then a.size.toNat
          else
            let v := e.arg (-a.size).toNat
            if (sizeEntry all i a).size = 4 then v % 2 ^ 32 else v
        if a.fl.inout then
          let ptr := e.arg (-a.size).toNat
          if ptr = 0 then 0 else (rdLE e.mem ptr (sizeEntry all i a).size.toNat).getD 0
        else v
    let s := if a.fl.plus1 then (s + 1) % 2 ^ 64 else s
    if a.fl.elts then
      match a.misc with
      | .elt n => if 0 < n then (s * n.toNat) % 2 ^ 64
                  else (s * sext32 (e.arg (-n).toNat)) % 2 ^ 64
      | _ => s
    else s

/-- drsyscall/drsyscall.c:1385-1405 `should_ignore_arg`. -/
def shouldIgnore (e : Env) (all : List Arg) (i : Nat) (a : Arg) : Bool :=
  if a.fl.ifNext then
    decide (i + 1 < MAX_ARGS) && e.arg (all.getD (i + 1) zeroArg).param == 0
  else if a.fl.ifPrev then
    decide (0 < i) && e.arg (all.getD (i - 1) zeroArg).param == 0
  else false

/-! ## Complex types -/

/-- drsyscall/drsyscall.c:1069-1079 — the scan of `handle_cstring`: number of bytes
before the first nul or unreadable byte, at most `n`. -/
def cscan (m : Nat → Option Nat) (a : Nat) : Nat → Nat
  | 0 => 0
  | n + 1 =>
    match m a with
    | none => 0
    | some c => if c = 0 then 0 else cscan m (a + 1) n + 1

/-- drsyscall/drsyscall.c:1035-1037. -/
def MAX_PATH : Nat := 4096

/-- drsyscall/drsyscall.c:1044-1083 `handle_cstring` with `safe == NULL`;
`none`: returns false. -/
def handleCstring (e : Env) (pre : Bool) (ord : Nat) (fl : Flags) (start size : Nat)
    (checkAddr : Bool) : Option (List Rep) :=
  let maxsz := if size = 0 then MAX_PATH else size
  if start = 0 then none
  else if pre && !fl.r && !checkAddr then none
  else if pre && !fl.r && decide (0 < size) then some [⟨ord, fl.r, fl.w, start, size⟩]
  else if !pre && !fl.w then none
  else some [⟨ord, fl.r, fl.w, start, cscan e.mem start maxsz + 1⟩]

/-- drsyscall/drsyscall.c:1085-1097 `safe_strnlen`.  The C code reads the bytes
directly and faults on an unreadable one; here it stops there. -/
def strnlen (m : Nat → Option Nat) (a n : Nat) : Nat := cscan m a n

/-- Offsets and lengths of the fields that `handle_sockaddr` reports for the
families AF_INET (2), AF_INET6 (10) and AF_NETLINK (16); drsyscall/drsyscall.c:1163-1218. -/
def sockFields (family : Nat) : List (Nat × Nat) :=
  if family = 2 then [(2, 2), (4, 4)]
  else if family = 10 then [(2, 2), (4, 4), (8, 16), (24, 4)]
  else if family = 16 then [(2, 2), (4, 4), (8, 4)]
  else []

/-- drsyscall/drsyscall.c:1103-1229 `handle_sockaddr`.  `socklen - 2` for AF_UNIX (1) is
computed in `size_t`. -/
def handleSockaddr (e : Env) (pre : Bool) (st : St) (ord : Nat) (fl : Flags)
    (ptr socklen : Nat) : List Rep × St :=
  let st' := if pre && fl.w then { st with sockLen := socklen } else st
  let len := if !pre && fl.w then min socklen st.sockLen else socklen
  if fl.w then ([⟨ord, fl.r, fl.w, ptr, len⟩], st')
  else
    let fam : List Rep := if pre then [⟨ord, fl.r, fl.w, ptr, 2⟩] else []
    match rdLE e.mem ptr 2 with
    | none => (fam, st')
    | some family =>
      if family = 1 then
        let left := (len + 2 ^ 64 - 2) % 2 ^ 64
        let n := strnlen e.mem (ptr + 2) (min left 108)
        (fam ++ (if 0 < n then [⟨ord, fl.r, fl.w, ptr + 2, n⟩] else []), st')
      else
        (fam ++ ((sockFields family).filter (fun f => f.1 + f.2 ≤ len)).map
          (fun f => ⟨ord, fl.r, fl.w, ptr + f.1, f.2⟩), st')

/-- drsyscall/drsyscall_linux.c:484-503 — the loop of `check_iov` over the entries from
address `iov`; `n` entries left, `sofar` bytes so far, at most `limit`. -/
def iovLoop (e : Env) (ord : Nat) (fl : Flags) (limit : Nat) :
    (n : Nat) → (iov sofar : Nat) → List Rep
  | 0, _, _ => []
  | n + 1, iov, sofar =>
    match rdLE e.mem iov 8, rdLE e.mem (iov + 8) 8 with
    | some base, some len =>
      let done := decide (limit < (sofar + len) % 2 ^ 64)
      let len' := if done then limit - sofar else len
      let out : List Rep := if 0 < len' then [⟨ord, fl.r, fl.w, base, len'⟩] else []
      if done then out
      else out ++ iovLoop e ord fl limit n (iov + 16) ((sofar + len') % 2 ^ 64)
    | _, _ => iovLoop e ord fl limit n (iov + 16) sofar

/-- drsyscall/drsyscall_linux.c:473-504 `check_iov`; `sizeof(struct iovec)` is 16. -/
def checkIov (e : Env) (ord : Nat) (fl : Flags) (iov n limit : Nat) : List Rep :=
  if iov = 0 ∨ n = 0 then []
  else ⟨ord, fl.r, fl.w, iov, n * 16 % 2 ^ 64⟩ :: iovLoop e ord fl limit n iov 0

/-- drsyscall/drsyscall_linux.c:506-519 `check_strarray`; `n` bounds the iterations
(`STR_ARRAY_MAX_ITER`). -/
def strArray (e : Env) (pre : Bool) (ord : Nat) : (n : Nat) → (array : Nat) → List Rep
  | 0, _ => []
  | n + 1, array =>
    match rdLE e.mem array 8 with
    | some str =>
      if str = 0 then []
      else (handleCstring e pre ord { r := true } str 0 false).getD [] ++
        strArray e pre ord n (array + 8)
    | none => []

/-- drsyscall/drsyscall_linux.c:521-630 `check_msghdr`.  Fields of `struct msghdr`:
name 0, namelen 8 (four bytes), iov 16, iovlen 24, control 32, controllen 40,
flags 48, size 56.  `val_socklen` has eight bytes of which the read of `namelen`
fills four: the others are `junk`. -/
def checkMsghdr (e : Env) (pre : Bool) (st : St) (ord : Nat) (fl : Flags) (msg : Nat) :
    List Rep × St :=
  let send := fl.r
  let rep (start size : Nat) : Rep := ⟨ord, fl.r, fl.w, start, size⟩
  if pre then
    let hdr := rep msg (if send then 56 else 48) :: (if send then [] else [rep (msg + 48) 4])
    let nm : List Rep × St :=
      match rdLE e.mem msg 8, rdLE e.mem (msg + 8) 4 with
      | some p, some l =>
        if p = 0 then ([], st)
        else if send then handleSockaddr e pre st ord { r := true } p (l % 2 ^ 32)
        else ([rep p (l + 2 ^ 32 * e.junk)], st)
      | _, _ => ([], st)
    let iv : List Rep :=
      match rdLE e.mem (msg + 16) 8, rdLE e.mem (msg + 24) 8 with
      | some p, some n => if p = 0 then [] else checkIov e ord fl p n 0
      | _, _ => []
    let ct : List Rep × (Nat × Nat) :=
      match rdLE e.mem (msg + 32) 8, rdLE e.mem (msg + 40) 8 with
      | some p, some l => (if p = 0 then [] else [rep p l], (p, l))
      | _, _ => ([], (0, 0))
    (hdr ++ nm.1 ++ iv ++ ct.1, { nm.2 with ctl := ct.2.1, ctlLen := ct.2.2 })
  else
    let fg := rep (msg + 48) 4
    let iv : List Rep :=
      match rdLE e.mem (msg + 16) 8, rdLE e.mem (msg + 24) 8 with
      | some p, some n => if p = 0 then [] else checkIov e ord fl p n e.result
      | _, _ => []
    let nm : List Rep :=
      match rdLE e.mem msg 8, rdLE e.mem (msg + 8) 4 with
      | some p, some l => if p = 0 then [] else
          (handleSockaddr e pre st ord fl p (l % 2 ^ 32)).1
      | _, _ => []
    let ct : List Rep :=
      match rdLE e.mem (msg + 40) 8 with
      | some l =>
        rep (msg + 40) 8 ::
          (if st.ctl ≠ 0 ∧ 0 < min l st.ctlLen then [rep st.ctl (min l st.ctlLen)] else [])
      | none => []
    (fg :: iv ++ nm ++ ct, st)

/-- drsyscall/drsyscall_linux.c:1281-1301 `check_msgbuf`; `mtext` is at offset 8. -/
def checkMsgbuf (e : Env) (pre : Bool) (ord : Nat) (fl : Flags) (ptr len : Nat) : List Rep :=
  if !pre && fl.r then []
  else
    let len := if pre then len else e.result
    [⟨ord, fl.r, fl.w, ptr, 8⟩, ⟨ord, fl.r, fl.w, ptr + 8, len⟩]

/-- drsyscall/drsyscall_linux.c:1933-1970 `os_handle_syscall_arg_access`; the size arrives
as a 32-bit number.  `none`: returns false, the caller reports the range. -/
def osHandle (e : Env) (pre : Bool) (st : St) (a : Arg) (start size : Nat) :
    Option (List Rep × St) :=
  if !a.fl.ct then none
  else
    let sz := size % 2 ^ 32
    match a.misc with
    | .cstring => (handleCstring e pre a.param a.fl start sz false).map (fun l => (l, st))
    | .sockaddr => some (handleSockaddr e pre st a.param a.fl start sz)
    | .msghdr => some (checkMsghdr e pre st a.param a.fl start)
    | .msgbuf => some (checkMsgbuf e pre a.param a.fl start sz, st)
    | .strarray => some (strArray e pre a.param 65536 start, st)
    | _ => none

/-! ## The table-driven walk -/

/-- drsyscall/drsyscall.c:1450-1484 — one entry that is neither skipped nor inlined, in
the pre-syscall event, once its size is known. -/
def preArg (e : Env) (all : List Arg) (i : Nat) (a : Arg) (st : St) (size : Nat) :
    List Rep × St :=
  let start := e.arg a.param
  if start ≠ 0 ∧ 0 < size then
    let real := if size = SIZE_DYNAMIC then 0 else size
    match osHandle e true st a start real with
    | some x => x
    | none =>
      if shouldIgnore e all i a then ([], st)
      else ([⟨a.param, a.fl.r, a.fl.w, start, real⟩], st)
  else ([], st)

/-- drsyscall/drsyscall.c:1410-1487 `process_pre_syscall_reads_and_writes` from entry `i`
on; `last` is `last_param`. -/
def preLoop (e : Env) (all : List Arg) : (rest : List Arg) → (i : Nat) → (last : Option Nat) →
    (st : St) → List Rep × St
  | [], _, _, st => ([], st)
  | a :: rest, i, last, st =>
    if invalid a ∨ MAX_ARGS ≤ i then ([], st)
    else if last = some a.param then preLoop e all rest (i + 1) last st
    else if a.fl.inlined || a.fl.nonmem then preLoop e all rest (i + 1) (some a.param) st
    else
      let size := getSize e true all i a
      let st := { st with known := fun p => if p = a.param then size else st.known p }
      let x := preArg e all i a st size
      let y := preLoop e all rest (i + 1) (some a.param) x.2
      (x.1 ++ y.1, y.2)

/-- `process_pre_syscall_reads_and_writes`: from the first entry. -/
def preTable (e : Env) (args : List Arg) (st : St) : List Rep × St :=
  preLoop e args args 0 none st

/-- drsyscall/drsyscall.c:1578-1590 and 1601-1608 — the report for one written entry, once
its size is known; `ign`: second entry of its parameter, for which `should_ignore_arg` is
consulted. -/
def postArg (e : Env) (all : List Arg) (st : St) (i : Nat) (a : Arg) (ign : Bool)
    (size : Nat) : List Rep :=
  let start := e.arg a.param
  if start ≠ 0 ∧ 0 < size then
    match osHandle e false st a start size with
    | some x => x.1
    | none =>
      if ign && shouldIgnore e all i a then []
      else [⟨a.param, a.fl.r, a.fl.w, start, size⟩]
  else []

/-- drsyscall/drsyscall.c:1552-1576 — the size used for the second entry of a parameter
(Linux). -/
def secondSize (e : Env) (all : List Arg) (i : Nat) (a : Arg) (lastSize size : Nat) : Nat :=
  let size := if size = 0 then lastSize else size
  if a.fl.no0 = true ∧ 0 < i ∧ e.arg (-(all.getD (i - 1) zeroArg).size).toNat = 0 then 0
  else size

/-- drsyscall/drsyscall.c:1492-1612 `process_post_syscall_reads_and_writes` from entry `i`
on (Linux); `last`, `lastSize` are `last_param`, `last_size`. -/
def postLoop (e : Env) (all : List Arg) (st : St) : (rest : List Arg) → (i : Nat) →
    (last : Option Nat) → (lastSize : Nat) → List Rep
  | [], _, _, _ => []
  | a :: rest, i, last, lastSize =>
    if invalid a ∨ MAX_ARGS ≤ i then []
    else if !a.fl.w then postLoop e all st rest (i + 1) last lastSize
    else
      let size := min (getSize e false all i a) (st.known a.param)
      if last = some a.param then
        postArg e all st i a true (secondSize e all i a lastSize size) ++
          postLoop e all st rest (i + 1) last lastSize
      else if i < MAX_ARGS - 1 ∧ (rest.headD zeroArg).param = a.param ∧
          invalid (rest.headD zeroArg) = false then
        postLoop e all st rest (i + 1) (some a.param) size
      else
        postArg e all st i a false size ++ postLoop e all st rest (i + 1) (some a.param) size

/-- `process_post_syscall_reads_and_writes`: from the first entry. -/
def postTable (e : Env) (args : List Arg) (st : St) : List Rep :=
  postLoop e args st args 0 none 0

/-! ## System calls handled by number -/

/-- drsyscall/drsyscall_linux.c:1462-1506 `handle_pre_select`; `ps` for `pselect6`. -/
def preSelect (e : Env) (ps : Bool) : List Rep :=
  let n := e.arg 0 % 2 ^ 32
  let sz := if n < 2 ^ 31 then n / 8 else (2 ^ 64 - (2 ^ 32 - n) / 8) % 2 ^ 64
  let one (o s : Nat) : List Rep := if e.arg o = 0 then [] else [⟨o, true, false, e.arg o, s⟩]
  one 1 sz ++ one 2 sz ++ one 3 sz ++ one 4 16 ++ (if ps then one 5 8 else [])

/-- drsyscall/drsyscall_linux.c:1695-1708 and 1830-1843 — `poll`: eight-byte `pollfd`
entries, `revents` in the last two. -/
def pollReps (e : Env) (pre : Bool) : List Rep :=
  if e.arg 0 = 0 then []
  else (List.range (e.arg 1)).map fun i =>
    if pre then ⟨0, true, false, e.arg 0 + 8 * i, 6⟩
    else ⟨0, false, true, e.arg 0 + 8 * i + 6, 2⟩

/-- drsyscall/drsyscall_linux.c:1217-1249 `handle_pre_process_vm_readv_writev`; `self`: the
process id is the one of this process. -/
def preVm (e : Env) (readv self : Bool) : List Rep :=
  (if readv && self then checkIov e 3 { r := true } (e.arg 3) (e.arg 4) (2 ^ 64 - 1) else []) ++
    checkIov e 1 (if readv then { w := true } else { r := true }) (e.arg 1) (e.arg 2)
      (2 ^ 64 - 1)

/-- drsyscall/drsyscall_linux.c:1250-1279 `handle_post_process_vm_readv`, `_writev`. -/
def postVm (e : Env) (readv self : Bool) : List Rep :=
  if e.result = 0 ∨ 2 ^ 63 ≤ e.result then []
  else if readv then checkIov e 1 { w := true } (e.arg 1) (e.arg 2) e.result
  else if self then checkIov e 3 { w := true } (e.arg 3) (e.arg 4) e.result
  else []

/-- drsyscall/drsyscall_linux.c:1770-1779 and 1858-1867 — `arch_prctl`: codes ARCH_SET_FS
(0x1002) and ARCH_GET_FS (0x1003), before and after alike. -/
def archPrctl (e : Env) : List Rep :=
  let code := e.arg 0 % 2 ^ 32
  if code = 0x1003 ∨ code = 0x1002 then [⟨1, false, true, e.arg 1, 8⟩] else []

/-- drsyscall/drsyscall_linux.c:1599-1784 `os_handle_pre_syscall` — the system calls modelled
here: `poll` (7), `select` (23), `arch_prctl` (158), `pselect6` (270), `process_vm_readv` (310),
`process_vm_writev` (311).  Left out: `clone`, `_sysctl`, `ioctl`, `semctl`, `msgctl`, `shmctl`,
`prctl`, `rt_sigaction`, `futex`, and the checks of register arguments. -/
def osPre (n64 : Int) (e : Env) (self : Bool) : List Rep :=
  if n64 = 7 then pollReps e true
  else if n64 = 23 then preSelect e false
  else if n64 = 270 then preSelect e true
  else if n64 = 158 then archPrctl e
  else if n64 = 310 then preVm e true self
  else if n64 = 311 then preVm e false self
  else []

/-- drsyscall/drsyscall_linux.c:1786-1873 `os_handle_post_syscall` — same selection. -/
def osPost (n64 : Int) (e : Env) (self : Bool) : List Rep :=
  if n64 = 7 then pollReps e false
  else if n64 = 158 then archPrctl e
  else if n64 = 310 then postVm e true self
  else if n64 = 311 then postVm e false self
  else []

/-- drsyscall/drsyscall_linux.c:1976-1985 `os_syscall_succeeded`; `mmap` is 9 and `mremap`
25. -/
def succeeded (n64 : Int) (e : Env) : Bool :=
  if n64 = 9 ∨ n64 = 25 then decide (e.result < 2 ^ 64 - 4096)
  else decide (e.result < 2 ^ 63)

/-- drsyscall/drsyscall.c:1676-1684 `drsys_iterate_memargs` in the pre-syscall event of a
known system call. -/
def preMemargs (n64 : Int) (args : List Arg) (e : Env) (self : Bool) (st : St) :
    List Rep × St :=
  let x := preTable e args st
  (x.1 ++ osPre n64 e self, x.2)

/-- drsyscall/drsyscall.c:1685-1703 `drsys_iterate_memargs` in the post-syscall event of a
known system call: the table only if the call succeeded, the special cases always. -/
def postMemargs (n64 : Int) (args : List Arg) (e : Env) (self : Bool) (st : St) : List Rep :=
  (if succeeded n64 e then postTable e args st else []) ++ osPost n64 e self

/-! ## What Dr. Memory does with a range -/

/-- The three things `handle_mem_ref` is asked to do with a range. -/
inductive Act where
  | checkDefined | checkAddressable | write
deriving DecidableEq, Repr

/-- drmemory/syscall.c:349-391 `drsys_iter_memarg_cb` with `-shadowing` — what is done
with a reported range; `uninit` is `-check_uninitialized`. -/
def act (uninit pre : Bool) (r : Rep) : Act :=
  if pre then (if uninit && r.r then .checkDefined else .checkAddressable) else .write

end Verif.SysArgs
