import Verif.SysArgs
/-
Model of the system calls that carry a request code, on 64-bit x86 Linux:
drsyscall/drsyscall_linux.c — `clone`, `ioctl` (the four requests handled by hand), `semctl`,
`msgctl`, `shmctl`, `prctl`, `rt_sigaction`, `futex`, `mremap`, `open`, `fcntl` and `_sysctl`.

Values and memory as in `Verif.SysArgs`.  Numbers of requests and sizes of structures are
those of the Linux headers for x86-64.  Simplifications, valid for the whole file:
* the callback never asks to stop, so `ii->abort` stays false;
* names, types and warnings are left out, and so are unknown requests' callstacks;
* a debug build stops at an empty range (`ASSERT(sz > 0)`, drsyscall.c:807); here, as in a
  release build, the empty range is reported.
-/

namespace Verif.SysReq
open Verif.SysArgs (Env Rep rdLE sext32)

/-- What comes of one event in the handlers: the ranges passed to the client, or one of two
ways in which the tool itself goes wrong. -/
inductive Out where
  /-- these ranges are reported -/
  | reps (l : List Rep)
  /-- the tool reads memory of the application that cannot be read, without `safe_read` -/
  | fault
  /-- the kernel writes beyond a local variable of the tool -/
  | smash
deriving DecidableEq, Repr

/-- Ranges first, then what follows. -/
def Out.after (l : List Rep) : Out → Out
  | .reps l' => .reps (l ++ l')
  | o => o

/-- drsyscall/drsyscall.c:796-840 `report_memarg_ex`, for ranges that are only read (`w` false)
or only written: after the system call a range that is only read is dropped (:813-814). -/
def rep (pre : Bool) (o : Nat) (w : Bool) (a n : Nat) : List Rep :=
  if pre = false ∧ w = false then [] else [⟨o, !w, w, a, n⟩]

/-- `(ptr_int_t) dr_syscall_get_result(drcontext) < 0`. -/
def failed (e : Env) : Bool := decide (2 ^ 63 ≤ e.result)

/-- The conversion to `uint`. -/
def u32 (v : Nat) : Nat := v % 2 ^ 32

/-! ## clone -/

/-- drsyscall/drsyscall_linux.c:261-316 `handle_clone`, the ranges (x86-64: the new thread
pointer is taken as an inlined value, :293).  Only called before the system call. -/
def clone (e : Env) : List Rep :=
  (if (u32 (e.arg 0)).testBit 20 ∧ e.arg 2 ≠ 0 then rep true 2 true (e.arg 2) 4 else []) ++
  (if ((u32 (e.arg 0)).testBit 24 ∨ (u32 (e.arg 0)).testBit 21) ∧ e.arg 4 ≠ 0
    then rep true 4 true (e.arg 4) 4 else [])

/-- drsyscall/drsyscall_linux.c:261-316 `handle_clone`, the parameters whose value is
reported. -/
def cloneRegs (e : Env) : List Nat :=
  (if (u32 (e.arg 0)).testBit 20 then [2] else []) ++
  (if (u32 (e.arg 0)).testBit 19 then [3] else []) ++
  (if (u32 (e.arg 0)).testBit 24 ∨ (u32 (e.arg 0)).testBit 21 then [4] else [])

/-! ## ioctl -/

/-- drsyscall/drsyscall_linux.c:318-329 `ipmi_addr_len_adjust` added to the length (:375-376,
:385-386): `addr_type`, the `int` at the address, is read without `safe_read`; types 12 and 4
take one byte off.  `none`: the read faults. -/
def ipmiLen (e : Env) (addr len : Nat) : Option Nat :=
  match rdLE e.mem addr 4 with
  | none => none
  | some t => some (if t = 12 ∨ t = 4 then (len + (2 ^ 64 - 1)) % 2 ^ 64 else len)

/-- drsyscall/drsyscall_linux.c:373-380 and 383-390 — sending a command: the request structure
of `sz` bytes starts with the 40 bytes of `struct ipmi_req`: address at 0, its length at 8,
length of the data at 26, the data at 32. -/
def ipmiSend (e : Env) (sz : Nat) : Out :=
  .after (rep true 2 false (e.arg 2) sz) <|
    match rdLE e.mem (e.arg 2) sz, rdLE e.mem (e.arg 2) 8, rdLE e.mem (e.arg 2 + 8) 4,
        rdLE e.mem (e.arg 2 + 26) 2, rdLE e.mem (e.arg 2 + 32) 8 with
    | some _, some addr, some len, some dlen, some data =>
      match ipmiLen e addr len with
      | none => .fault
      | some n => .reps (rep true 2 false addr n ++ rep true 2 false data dlen)
    | _, _, _, _, _ => .reps []

/-- drsyscall/drsyscall_linux.c:401-406 and 446-451 — the two buffers of a received message;
`struct ipmi_recv`: address at 8, its length at 16, length of the data at 34, the data at 40. -/
def ipmiBufs (e : Env) (pre : Bool) : List Rep :=
  match rdLE e.mem (e.arg 2) 48, rdLE e.mem (e.arg 2 + 8) 8, rdLE e.mem (e.arg 2 + 16) 4,
      rdLE e.mem (e.arg 2 + 34) 2, rdLE e.mem (e.arg 2 + 40) 8 with
  | some _, some addr, some len, some dlen, some data =>
    rep pre 2 true addr len ++ rep pre 2 true data dlen
  | _, _, _, _, _ => []

/-- drsyscall/drsyscall_linux.c:366-367 and 440-441 — the buffer of `SIOCGIFCONF`;
`struct ifconf`: the length, an `int`, at 0, the buffer at 8. -/
def ifconfBuf (e : Env) (pre : Bool) : List Rep :=
  match rdLE e.mem (e.arg 2) 16, rdLE e.mem (e.arg 2) 4, rdLE e.mem (e.arg 2 + 8) 8 with
  | some _, some len, some buf => rep pre 2 true buf (sext32 len)
  | _, _, _ => []

/-- drsyscall/drsyscall_linux.c:333-413 `handle_pre_ioctl`; the request is compared with all
64 bits. -/
def preIoctl (e : Env) : Out :=
  if e.arg 2 = 0 then .reps []
  else if e.arg 1 = 0x8912 then
    .reps (rep true 2 false (e.arg 2) 16 ++ ifconfBuf e true)
  else if e.arg 1 = 0x8028690d then ipmiSend e 40
  else if e.arg 1 = 0x80306915 then ipmiSend e 48
  else if e.arg 1 = 0xc030690c ∨ e.arg 1 = 0xc030690b then
    .reps (rep true 2 true (e.arg 2) 48 ++ rep true 2 false (e.arg 2 + 8) 8 ++
      rep true 2 false (e.arg 2 + 16) 4 ++ rep true 2 false (e.arg 2 + 40) 8 ++
      rep true 2 false (e.arg 2 + 34) 2 ++ ipmiBufs e true)
  else .reps []

/-- drsyscall/drsyscall_linux.c:415-455 `handle_post_ioctl`. -/
def postIoctl (e : Env) : Out :=
  if e.arg 2 = 0 then .reps []
  else if failed e then .reps []
  else if e.arg 1 = 0x8912 then .reps (ifconfBuf e false)
  else if e.arg 1 = 0xc030690c ∨ e.arg 1 = 0xc030690b then .reps (ipmiBufs e false)
  else .reps []

/-! ## semctl, msgctl, shmctl -/

/-- drsyscall/drsyscall_linux.c:946-963 `ipc_sem_len` on x86-64.  `stat` is the kernel's answer
to `IPC_STAT` on this set: `none` if it fails.  The kernel takes the fourth parameter itself as
the address of the 104 bytes of `struct semid_ds`; the code passes the address of the 8-byte
union `ctlarg` (:955), so a successful call writes 96 bytes beyond it.  `none` stands for
that. -/
def ipcSemLen (stat : Option Nat) : Option Nat :=
  match stat with
  | none => some 0
  | some _ => none

/-- drsyscall/drsyscall_linux.c:982, 999, 1011, 1025, 1038, 1050 — `arg_ptr->buf` and the other
members: the eight bytes at the fourth parameter, read without `safe_read`. -/
def semPtr (e : Env) (f : Nat → Out) : Out :=
  match rdLE e.mem (e.arg 3) 8 with
  | none => .fault
  | some p => f p

/-- drsyscall/drsyscall_linux.c:1031-1056 — `GETALL`, `SETALL`: an array of as many `short`s as
the set has semaphores. -/
def semAll (e : Env) (stat : Option Nat) (pre w : Bool) : Out :=
  match ipcSemLen stat with
  | none => .smash
  | some n => semPtr e fun p => .reps (rep pre 3 w p (u32 n * 2))

/-- The command of `semctl` without the version flag, drsyscall/drsyscall_linux.c:979, 987. -/
def semCmd (e : Env) : Nat := u32 (e.arg 2) - (if (e.arg 2).testBit 8 then 0x100 else 0)

/-- drsyscall/drsyscall_linux.c:968-1078 `handle_semctl`, called with the identifier in
parameter 0 (:1673-1675, 1813-1815).  Commands: IPC_SET 1, IPC_STAT 2, SEM_STAT 18, IPC_INFO 3,
SEM_INFO 19, GETALL 13, SETALL 17. -/
def semctl (e : Env) (stat : Option Nat) (pre : Bool) : Out :=
  if pre = false ∧ failed e then .reps []
  else
    let cmd := semCmd e
    if cmd = 1 then
      (if pre then semPtr e fun p => .reps (rep pre 3 false p 104) else .reps [])
    else if cmd = 2 ∨ cmd = 18 then semPtr e fun p => .reps (rep pre 3 true p 104)
    else if cmd = 3 ∨ cmd = 19 then semPtr e fun p => .reps (rep pre 3 true p 40)
    else if cmd = 13 then semAll e stat pre true
    else if cmd = 17 then (if pre then semAll e stat pre false else .reps [])
    else .reps []

/-- drsyscall/drsyscall_linux.c:988-1077 — the parameters of `semctl` whose value is reported by
the handler.  GETPID 11, GETVAL 12, GETNCNT 14, GETZCNT 15, SETVAL 16. -/
def semctlRegs (e : Env) : List Nat :=
  [0, 2] ++
    (let cmd := semCmd e
     if cmd ∈ [1, 2, 18, 3, 19, 13, 17] then [3]
     else if cmd ∈ [14, 15, 11, 12] then [1]
     else if cmd = 16 then [1, 3]
     else [])

/-- drsyscall/drsyscall_linux.c:1083-1148 `handle_msgctl` with parameters 0, 1, 2 (:1676-1678,
1816-1818).  IPC_INFO 3, MSG_INFO 12: `struct msginfo`, 32 bytes; IPC_STAT 2, MSG_STAT 11,
IPC_SET 1: `struct msqid_ds`, 120 bytes. -/
def msgctl (e : Env) (pre : Bool) : List Rep :=
  if pre = false ∧ failed e then []
  else
    let cmd := u32 (e.arg 1)
    if cmd = 3 ∨ cmd = 12 then rep pre 2 true (e.arg 2) 32
    else if cmd = 2 ∨ cmd = 11 then rep pre 2 true (e.arg 2) 120
    else if cmd = 1 then (if pre then rep pre 2 false (e.arg 2) 120 else [])
    else []

/-- drsyscall/drsyscall_linux.c:1153-1215 `handle_shmctl` with parameters 0, 1, 2 (:1679-1681,
1819-1821).  IPC_INFO 3, SHM_INFO 14: `struct shminfo`, 72 bytes, for both; IPC_STAT 2, SHM_STAT
13, IPC_SET 1: `struct shmid_ds`, 112 bytes.  `IPC_SET` is reported as a write before the call
and as a read after it (:1202). -/
def shmctl (e : Env) (pre : Bool) : List Rep :=
  if pre = false ∧ failed e then []
  else
    let cmd := u32 (e.arg 1)
    if cmd = 3 ∨ cmd = 14 then rep pre 2 true (e.arg 2) 72
    else if cmd = 2 ∨ cmd = 13 then rep pre 2 true (e.arg 2) 112
    else if cmd = 1 then rep pre 2 pre (e.arg 2) 112
    else []

/-- drsyscall/drsyscall_linux.c:1092-1131, 1162-1200 — the parameters of `msgctl` and `shmctl`
whose value is reported; `cmds` are the commands that use the buffer. -/
def ctlRegs (e : Env) (cmds : List Nat) : List Nat :=
  [0, 1] ++ (if u32 (e.arg 1) ∈ cmds then [2] else [])

/-! ## prctl -/

/-- drsyscall/drsyscall_linux.c:1509-1570 `handle_pre_prctl`, the ranges.  PR_GET_PDEATHSIG 2,
_UNALIGN 5, _FPEMU 9, _FPEXC 11, _TSC 25, _ENDIAN 19: one `int`; PR_SET_NAME 15, PR_GET_NAME
16. -/
def prePrctl (e : Env) : List Rep :=
  let q := u32 (e.arg 0)
  if q ∈ [2, 5, 9, 11, 25, 19] then rep true 1 true (e.arg 1) 4
  else if q = 15 then rep true 1 false (e.arg 1) 16
  else if q = 16 then rep true 1 true (e.arg 1) 16
  else []

/-- drsyscall/drsyscall_linux.c:1518-1569 — whether `handle_pre_prctl` reports the value of
parameter 1.  PR_SET_PDEATHSIG 1, _UNALIGN 6, _FPEMU 10, _FPEXC 12, _DUMPABLE 4, _TIMING 14,
_TSC 26, _SECUREBITS 28, _SECCOMP 22, _KEEPCAPS 8, _ENDIAN 20, _TIMERSLACK 29, PR_CAPBSET_READ
23, _DROP 24. -/
def prctlRegs (e : Env) : List Nat :=
  if u32 (e.arg 0) ∈ [1, 6, 10, 12, 4, 14, 26, 28, 22, 8, 20, 29, 23, 24, 2, 5, 9, 11, 25, 19,
    15, 16] then [1] else []

/-- drsyscall/drsyscall_linux.c:1572-1597 `handle_post_prctl`: the result is looked at for the
`int`s, not for the name (:1590-1594). -/
def postPrctl (e : Env) : List Rep :=
  let q := u32 (e.arg 0)
  if q ∈ [2, 5, 9, 11, 25, 19] then (if failed e then [] else rep false 1 true (e.arg 1) 4)
  else if q = 16 then rep false 1 true (e.arg 1) 16
  else []

/-! ## The rest -/

/-- drsyscall/drsyscall_linux.c:1713-1736 — `rt_sigaction`; `kernel_sigaction_t`
(linux_defines.h:246-251): handler at 0, flags at 8, restorer at 16, mask at 24, 32 bytes.  The
flags are read without `safe_read`; `SA_RESTORER` is bit 26. -/
def sigaction (e : Env) : Out :=
  if e.arg 1 = 0 then .reps []
  else match rdLE e.mem (e.arg 1 + 8) 8 with
    | none => .fault
    | some f =>
      if f.testBit 26 then .reps (rep true 1 false (e.arg 1) 32)
      else .reps (rep true 1 false (e.arg 1) 16 ++ rep true 1 false (e.arg 1 + 24) 8)

/-- drsyscall/drsyscall_linux.c:1737-1763 — `futex`, the ranges.  FUTEX_WAKE 1, FUTEX_FD 2,
FUTEX_WAIT 0, FUTEX_REQUEUE 3, FUTEX_CMP_REQUEUE 4. -/
def futex (e : Env) : List Rep :=
  let op := u32 (e.arg 1)
  if op = 1 ∨ op = 2 then []
  else if op = 0 then (if e.arg 3 = 0 then [] else rep true 3 false (e.arg 3) 16)
  else if op = 3 ∨ op = 4 then rep true 4 false (e.arg 4) 4
  else []

/-- drsyscall/drsyscall_linux.c:1737-1763 — `futex`, the parameters beyond the first three. -/
def futexRegs (e : Env) : List Nat :=
  let op := u32 (e.arg 1)
  if op = 1 ∨ op = 2 then []
  else if op = 0 then [3]
  else if op = 3 then [4]
  else if op = 4 then [4, 5]
  else []

/-- drsyscall/drsyscall_linux.c:1624-1632 — `mremap`: MREMAP_FIXED is bit 1. -/
def mremapRegs (e : Env) : List Nat := if (e.arg 3).testBit 1 then [4] else []

/-- drsyscall/drsyscall_linux.c:1633-1644 — `open`: O_CREAT is bit 6. -/
def openRegs (e : Env) : List Nat := if (e.arg 1).testBit 6 then [2] else []

/-- drsyscall/drsyscall_linux.c:1645-1668 — `fcntl`: F_GETFD 1, F_GETFL 3, F_GETOWN 9,
F_GETSIG 11, F_GETLEASE 1025. -/
def fcntlRegs (e : Env) : List Nat :=
  if u32 (e.arg 1) ∈ [1, 3, 9, 11, 1025] then [] else [2]

/-- drsyscall/drsyscall_linux.c:1607-1622 — `_sysctl` before the call; `struct __sysctl_args`:
name at 0, its length (an `int`) at 8, new value at 32, its length at 40, read without
`safe_read`. -/
def preSysctl (e : Env) : Out :=
  if e.arg 0 = 0 then .reps []
  else match rdLE e.mem (e.arg 0) 8, rdLE e.mem (e.arg 0 + 8) 4, rdLE e.mem (e.arg 0 + 32) 8,
      rdLE e.mem (e.arg 0 + 40) 8 with
    | some name, some n, some new, some len =>
      .reps (rep true 0 false name (sext32 n * 4 % 2 ^ 64) ++
        (if new = 0 then [] else rep true 0 false new len))
    | _, _, _, _ => .fault

/-- drsyscall/drsyscall_linux.c:1792-1807 — `_sysctl` after the call: old value at 16, the
address of its length at 24. -/
def postSysctl (e : Env) : Out :=
  if e.result = 0 ∧ e.arg 0 ≠ 0 then
    match rdLE e.mem (e.arg 0 + 16) 8, rdLE e.mem (e.arg 0 + 24) 8 with
    | some old, some lenp =>
      if old = 0 then .reps []
      else match rdLE e.mem lenp 8 with
        | none => .reps []
        | some len => .reps (rep false 0 true old len)
    | _, _ => .fault
  else .reps []

/-- drsyscall/drsyscall_linux.c:1599-1784 `os_handle_pre_syscall`, by number on x86-64: the
calls of this file. -/
def osPre (n : Nat) (e : Env) (stat : Option Nat) : Out :=
  if n = 56 then .reps (clone e)
  else if n = 156 then preSysctl e
  else if n = 16 then preIoctl e
  else if n = 66 then semctl e stat true
  else if n = 71 then .reps (msgctl e true)
  else if n = 31 then .reps (shmctl e true)
  else if n = 157 then .reps (prePrctl e)
  else if n = 13 then sigaction e
  else if n = 202 then .reps (futex e)
  else .reps []

/-- drsyscall/drsyscall_linux.c:1786-1872 `os_handle_post_syscall`, likewise.  `clone`,
`rt_sigaction` and `futex` are not handled after the call. -/
def osPost (n : Nat) (e : Env) (stat : Option Nat) : Out :=
  if n = 156 then postSysctl e
  else if n = 16 then postIoctl e
  else if n = 66 then semctl e stat false
  else if n = 71 then .reps (msgctl e false)
  else if n = 31 then .reps (shmctl e false)
  else if n = 157 then .reps (postPrctl e)
  else .reps []

/-- drsyscall/table_linux.c:429, 496, 531, 61, 238, 1248, 1261, 1170, 540, 542, 791 — the number
of parameters in the table, every one of which has its value reported
(drsyscall/drsyscall.c:1744-1804); `ioctl`: drsyscall/table_linux_ioctl.c:389, 581-584. -/
def argCount (n : Nat) : Nat :=
  if n = 56 then 2 else if n = 156 then 1 else if n = 25 then 4 else if n = 2 then 2
  else if n = 72 then 2 else if n = 16 then 3 else if n = 66 then 4 else if n = 71 then 3
  else if n = 31 then 3 else if n = 157 then 1 else if n = 13 then 4 else if n = 202 then 3
  else 0

/-- drsyscall/drsyscall.c:1819-1856 `drsys_iterate_args` — the parameters whose value is
reported before the call, hence (drmemory/syscall.c:392-421) the ones whose register has to be
defined. -/
def regs (n : Nat) (e : Env) : List Nat :=
  List.range (argCount n) ++
    (if n = 56 then cloneRegs e
     else if n = 25 then mremapRegs e
     else if n = 2 then openRegs e
     else if n = 72 then fcntlRegs e
     else if n = 66 then semctlRegs e
     else if n = 71 then ctlRegs e [3, 12, 2, 11, 1]
     else if n = 31 then ctlRegs e [3, 14, 2, 13, 1]
     else if n = 157 then prctlRegs e
     else if n = 202 then futexRegs e
     else [])

end Verif.SysReq
