import Verif.SysArgs
/-
The system call table of 64-bit x86 Linux, drsyscall/table_linux.c:46-1375, entry by entry
(each line cites the line of the entry).  Branches for Android, ARM and AArch64 are left
out.  `sizeof` expressions are replaced by the sizes of the x86-64 kernel and C library
headers.  The entry of `ioctl` names a second table (drsyscall/table_linux_ioctl.c), which
is not transcribed, so its arguments are left empty here.
-/

namespace Verif.SysArgs

/-- drsyscall/drsyscall_os.h:275-299 `syscall_info_t` — numbers on 64-bit and 32-bit x86
(-1: absent), name, number of parameters and argument entries. -/
structure Sys where
  n64 : Int
  n32 : Int
  name : String
  argc : Nat
  args : List Arg
deriving DecidableEq

namespace Tab
/-! Flag combinations of the table; drsyscall/table_defines.h:30-45. -/
/-- `R` -/ def R : Flags := { r := true }
/-- `W` -/ def W : Flags := { w := true }
/-- `W|HT` -/ def WT : Flags := { w := true, ht := true }
/-- `WI` -/ def WI : Flags := { w := true, inout := true }
/-- `R|CT` -/ def RC : Flags := { r := true, ct := true }
/-- `W|CT` -/ def WC : Flags := { w := true, ct := true }
/-- `WI|CT` -/ def WIC : Flags := { w := true, inout := true, ct := true }
/-- `SYSARG_INLINED` -/ def IN : Flags := { inlined := true }
/-- `R|SYSARG_SIZE_IN_ELEMENTS` -/ def RE : Flags := { r := true, elts := true }
/-- `W|SYSARG_SIZE_IN_ELEMENTS` -/ def WE : Flags := { w := true, elts := true }
/-- `R|W|HT|SYSARG_IGNORE_IF_PREV_NULL` -/
def RWP : Flags := { r := true, w := true, ht := true, ifPrev := true }
end Tab

open Tab

/-- drsyscall/table_linux.c:47-356 -/
def table0 : List Sys := [
  ⟨219, 0, "restart_syscall", 0, []⟩, -- :47
  ⟨60, 1, "exit", 1, []⟩, -- :48
  ⟨57, 2, "fork", 0, []⟩, -- :49
  ⟨0, 3, "read", 3, [⟨1, (-2), W, .plain⟩, ⟨1, RET, W, .plain⟩]⟩, -- :50
  ⟨1, 4, "write", 3, [⟨1, (-2), R, .plain⟩]⟩, -- :56
  ⟨2, 5, "open", 2, [⟨0, 0, RC, .cstring⟩]⟩, -- :61
  ⟨3, 6, "close", 1, []⟩, -- :66
  ⟨-1, 7, "waitpid", 3, [⟨1, 4, W, .plain⟩]⟩, -- :67
  ⟨85, 8, "creat", 2, [⟨0, 0, RC, .cstring⟩]⟩, -- :72
  ⟨86, 9, "link", 2, [⟨0, 0, RC, .cstring⟩, ⟨1, 0, RC, .cstring⟩]⟩, -- :77
  ⟨87, 10, "unlink", 1, [⟨0, 0, RC, .cstring⟩]⟩, -- :83
  ⟨59, 11, "execve", 3, [⟨0, 0, RC, .cstring⟩, ⟨1, 8, RC, .strarray⟩, ⟨2, 8, RC, .strarray⟩]⟩, -- :88
  ⟨80, 12, "chdir", 1, [⟨0, 0, RC, .cstring⟩]⟩, -- :95
  ⟨201, 13, "time", 1, [⟨0, 8, W, .plain⟩]⟩, -- :100
  ⟨133, 14, "mknod", 3, [⟨0, 0, RC, .cstring⟩]⟩, -- :105
  ⟨90, 15, "chmod", 2, [⟨0, 0, RC, .cstring⟩]⟩, -- :110
  ⟨-1, 16, "lchown16", 3, [⟨0, 0, RC, .cstring⟩]⟩, -- :115
  ⟨-1, 17, "ni_syscall", 0, []⟩, -- :120
  ⟨-1, 18, "stat", 2, [⟨0, 0, RC, .cstring⟩, ⟨1, 32, W, .plain⟩]⟩, -- :122
  ⟨4, -1, "stat", 2, [⟨0, 0, RC, .cstring⟩, ⟨1, 144, W, .plain⟩]⟩, -- :129
  ⟨8, 19, "lseek", 3, []⟩, -- :135
  ⟨39, 20, "getpid", 0, []⟩, -- :136
  ⟨165, 21, "mount", 5, [⟨0, 0, RC, .cstring⟩, ⟨1, 0, RC, .cstring⟩, ⟨2, 0, RC, .cstring⟩]⟩, -- :137
  ⟨-1, 22, "oldumount", 1, [⟨0, 0, RC, .cstring⟩]⟩, -- :144
  ⟨-1, 23, "setuid16", 1, []⟩, -- :149
  ⟨-1, 24, "getuid16", 0, []⟩, -- :150
  ⟨-1, 25, "stime", 1, [⟨0, 8, R, .plain⟩]⟩, -- :151
  ⟨101, 26, "ptrace", 4, []⟩, -- :156
  ⟨37, 27, "alarm", 1, []⟩, -- :157
  ⟨-1, 28, "fstat", 2, [⟨1, 32, W, .plain⟩]⟩, -- :159
  ⟨5, -1, "fstat", 2, [⟨1, 144, W, .plain⟩]⟩, -- :165
  ⟨34, 29, "pause", 0, []⟩, -- :170
  ⟨132, 30, "utime", 2, [⟨0, 0, RC, .cstring⟩, ⟨1, 16, R, .plain⟩]⟩, -- :171
  ⟨-1, 31, "ni_syscall", 0, []⟩, -- :177
  ⟨-1, 32, "ni_syscall", 0, []⟩, -- :178
  ⟨21, 33, "access", 2, [⟨0, 0, RC, .cstring⟩]⟩, -- :179
  ⟨-1, 34, "nice", 1, []⟩, -- :184
  ⟨-1, 35, "ni_syscall", 0, []⟩, -- :185
  ⟨162, 36, "sync", 0, []⟩, -- :186
  ⟨62, 37, "kill", 2, []⟩, -- :187
  ⟨82, 38, "rename", 2, [⟨0, 0, RC, .cstring⟩, ⟨1, 0, RC, .cstring⟩]⟩, -- :188
  ⟨83, 39, "mkdir", 2, [⟨0, 0, RC, .cstring⟩]⟩, -- :194
  ⟨84, 40, "rmdir", 1, [⟨0, 0, RC, .cstring⟩]⟩, -- :199
  ⟨32, 41, "dup", 1, []⟩, -- :204
  ⟨22, 42, "pipe", 1, [⟨0, 8, W, .plain⟩]⟩, -- :205
  ⟨100, 43, "times", 1, [⟨0, 32, W, .plain⟩]⟩, -- :210
  ⟨-1, 44, "ni_syscall", 0, []⟩, -- :215
  ⟨12, 45, "brk", 1, []⟩, -- :216
  ⟨-1, 46, "setgid16", 1, []⟩, -- :217
  ⟨-1, 47, "getgid16", 0, []⟩, -- :218
  ⟨-1, 48, "signal", 2, []⟩, -- :219
  ⟨-1, 49, "geteuid16", 0, []⟩, -- :220
  ⟨-1, 50, "getegid16", 0, []⟩, -- :221
  ⟨163, 51, "acct", 1, [⟨0, 0, RC, .cstring⟩]⟩, -- :222
  ⟨-1, 52, "umount", 2, [⟨0, 0, RC, .cstring⟩]⟩, -- :227
  ⟨-1, 53, "ni_syscall", 0, []⟩, -- :232
  ⟨16, 54, "ioctl", 3, []⟩, -- :233
  ⟨72, 55, "fcntl", 2, []⟩, -- :238
  ⟨-1, 56, "ni_syscall", 0, []⟩, -- :239
  ⟨109, 57, "setpgid", 2, []⟩, -- :240
  ⟨-1, 58, "ni_syscall", 0, []⟩, -- :241
  ⟨-1, 59, "olduname", 1, []⟩, -- :242
  ⟨95, 60, "umask", 1, []⟩, -- :243
  ⟨161, 61, "chroot", 1, [⟨0, 0, RC, .cstring⟩]⟩, -- :244
  ⟨136, 62, "ustat", 2, [⟨1, 32, W, .plain⟩]⟩, -- :253
  ⟨33, 63, "dup2", 2, []⟩, -- :259
  ⟨110, 64, "getppid", 0, []⟩, -- :260
  ⟨111, 65, "getpgrp", 0, []⟩, -- :261
  ⟨112, 66, "setsid", 0, []⟩, -- :262
  ⟨-1, 67, "sigaction", 3, []⟩, -- :263
  ⟨-1, 68, "sgetmask", 0, []⟩, -- :264
  ⟨-1, 69, "ssetmask", 1, []⟩, -- :265
  ⟨-1, 70, "setreuid16", 2, []⟩, -- :266
  ⟨-1, 71, "setregid16", 2, []⟩, -- :267
  ⟨-1, 72, "sigsuspend", 3, []⟩, -- :268
  ⟨-1, 73, "sigpending", 1, []⟩, -- :269
  ⟨170, 74, "sethostname", 2, [⟨0, (-1), R, .plain⟩]⟩, -- :270
  ⟨160, 75, "setrlimit", 2, [⟨1, 16, R, .plain⟩]⟩, -- :275
  ⟨-1, 76, "old_getrlimit", 2, [⟨1, 16, W, .plain⟩]⟩, -- :280
  ⟨98, 77, "getrusage", 2, [⟨1, 144, W, .plain⟩]⟩, -- :285
  ⟨96, 78, "gettimeofday", 2, [⟨0, 16, W, .plain⟩, ⟨1, 8, W, .plain⟩]⟩, -- :290
  ⟨164, 79, "settimeofday", 2, [⟨0, 16, R, .plain⟩, ⟨1, 8, R, .plain⟩]⟩, -- :296
  ⟨-1, 80, "getgroups16", 2, []⟩, -- :302
  ⟨-1, 81, "setgroups16", 2, []⟩, -- :303
  ⟨-1, 82, "old_select", 0, []⟩, -- :304
  ⟨88, 83, "symlink", 2, [⟨0, 0, RC, .cstring⟩, ⟨1, 0, RC, .cstring⟩]⟩, -- :305
  ⟨-1, 84, "lstat", 2, [⟨0, 0, RC, .cstring⟩, ⟨1, 32, W, .plain⟩]⟩, -- :312
  ⟨6, -1, "lstat", 2, [⟨0, 0, RC, .cstring⟩, ⟨1, 144, W, .plain⟩]⟩, -- :319
  ⟨89, 85, "readlink", 3, [⟨0, 0, RC, .cstring⟩, ⟨1, (-2), W, .plain⟩, ⟨1, RET, W, .plain⟩]⟩, -- :325
  ⟨134, 86, "uselib", 1, [⟨0, 0, RC, .cstring⟩]⟩, -- :332
  ⟨167, 87, "swapon", 2, [⟨0, 0, RC, .cstring⟩]⟩, -- :337
  ⟨169, 88, "reboot", 4, []⟩, -- :342
  ⟨-1, 89, "old_readdir", 3, []⟩, -- :343
  ⟨-1, 90, "mmap", 0, []⟩, -- :344
  ⟨11, 91, "munmap", 2, []⟩, -- :345
  ⟨76, 92, "truncate", 2, [⟨0, 0, RC, .cstring⟩]⟩, -- :347
  ⟨77, 93, "ftruncate", 2, []⟩, -- :353
  ⟨91, 94, "fchmod", 2, []⟩, -- :354
  ⟨-1, 95, "fchown16", 3, []⟩, -- :355
  ⟨140, 96, "getpriority", 2, []⟩] -- :356

/-- drsyscall/table_linux.c:357-645 -/
def table1 : List Sys := [
  ⟨141, 97, "setpriority", 3, []⟩, -- :357
  ⟨-1, 98, "ni_syscall", 0, []⟩, -- :358
  ⟨137, 99, "statfs", 2, [⟨0, 0, RC, .cstring⟩, ⟨1, 120, W, .plain⟩]⟩, -- :359
  ⟨138, 100, "fstatfs", 2, [⟨1, 120, W, .plain⟩]⟩, -- :365
  ⟨173, 101, "ioperm", 3, []⟩, -- :370
  ⟨-1, 102, "socketcall", 2, []⟩, -- :371
  ⟨103, 103, "syslog", 3, [⟨1, (-2), W, .plain⟩]⟩, -- :372
  ⟨38, 104, "setitimer", 3, [⟨1, 32, R, .plain⟩, ⟨2, 32, W, .plain⟩]⟩, -- :377
  ⟨36, 105, "getitimer", 2, [⟨1, 32, W, .plain⟩]⟩, -- :383
  ⟨-1, 106, "newstat", 2, [⟨0, 0, RC, .cstring⟩, ⟨1, 144, W, .plain⟩]⟩, -- :388
  ⟨-1, 107, "newlstat", 2, [⟨0, 0, RC, .cstring⟩, ⟨1, 144, W, .plain⟩]⟩, -- :394
  ⟨-1, 108, "newfstat", 2, [⟨1, 144, W, .plain⟩]⟩, -- :400
  ⟨63, 109, "uname", 1, []⟩, -- :405
  ⟨172, 110, "iopl", 1, []⟩, -- :406
  ⟨153, 111, "vhangup", 0, []⟩, -- :407
  ⟨-1, 112, "ni_syscall", 0, []⟩, -- :408
  ⟨-1, 113, "vm86old", 1, []⟩, -- :409
  ⟨61, 114, "wait4", 4, [⟨1, 4, W, .plain⟩, ⟨3, 144, W, .plain⟩]⟩, -- :410
  ⟨168, 115, "swapoff", 1, [⟨0, 0, RC, .cstring⟩]⟩, -- :416
  ⟨99, 116, "sysinfo", 1, [⟨0, 112, W, .plain⟩]⟩, -- :421
  ⟨-1, 117, "ipc", 1, []⟩, -- :426
  ⟨74, 118, "fsync", 1, []⟩, -- :427
  ⟨-1, 119, "sigreturn", 0, []⟩, -- :428
  ⟨56, 120, "clone", 2, []⟩, -- :429
  ⟨171, 121, "setdomainname", 2, [⟨0, (-1), R, .plain⟩]⟩, -- :430
  ⟨-1, 122, "newuname", 1, [⟨0, 390, W, .plain⟩]⟩, -- :435
  ⟨154, 123, "modify_ldt", 3, []⟩, -- :440
  ⟨159, 124, "adjtimex", 1, [⟨0, 208, R, .plain⟩]⟩, -- :441
  ⟨10, 125, "mprotect", 3, []⟩, -- :446
  ⟨-1, 126, "sigprocmask", 3, []⟩, -- :447
  ⟨-1, 127, "ni_syscall", 0, []⟩, -- :448
  ⟨175, 128, "init_module", 3, [⟨0, (-1), R, .plain⟩, ⟨2, 0, RC, .cstring⟩]⟩, -- :449
  ⟨176, 129, "delete_module", 2, [⟨0, 0, RC, .cstring⟩]⟩, -- :455
  ⟨-1, 130, "ni_syscall", 0, []⟩, -- :460
  ⟨179, 131, "quotactl", 4, [⟨1, 0, RC, .cstring⟩]⟩, -- :461
  ⟨121, 132, "getpgid", 1, []⟩, -- :466
  ⟨81, 133, "fchdir", 1, []⟩, -- :467
  ⟨-1, 134, "bdflush", 2, []⟩, -- :468
  ⟨139, 135, "sysfs", 3, []⟩, -- :469
  ⟨135, 136, "personality", 1, []⟩, -- :470
  ⟨-1, 137, "ni_syscall", 0, []⟩, -- :471
  ⟨-1, 138, "setfsuid16", 1, []⟩, -- :472
  ⟨-1, 139, "setfsgid16", 1, []⟩, -- :473
  ⟨-1, 140, "llseek", 5, [⟨3, 8, W, .plain⟩]⟩, -- :474
  ⟨78, 141, "getdents", 3, [⟨1, (-2), W, .plain⟩, ⟨1, RET, W, .plain⟩]⟩, -- :479
  ⟨23, 142, "select", 5, []⟩, -- :485
  ⟨73, 143, "flock", 2, []⟩, -- :486
  ⟨26, 144, "msync", 3, [⟨0, (-1), R, .plain⟩]⟩, -- :487
  ⟨19, 145, "readv", 3, []⟩, -- :492
  ⟨20, 146, "writev", 3, []⟩, -- :493
  ⟨124, 147, "getsid", 1, []⟩, -- :494
  ⟨75, 148, "fdatasync", 1, []⟩, -- :495
  ⟨156, 149, "_sysctl", 1, [⟨0, 80, R, .plain⟩]⟩, -- :496
  ⟨149, 150, "mlock", 2, []⟩, -- :501
  ⟨150, 151, "munlock", 2, []⟩, -- :502
  ⟨151, 152, "mlockall", 1, []⟩, -- :503
  ⟨152, 153, "munlockall", 0, []⟩, -- :504
  ⟨142, 154, "sched_setparam", 2, [⟨1, 4, R, .plain⟩]⟩, -- :505
  ⟨143, 155, "sched_getparam", 2, [⟨1, 4, W, .plain⟩]⟩, -- :510
  ⟨144, 156, "sched_setscheduler", 3, [⟨2, 4, R, .plain⟩]⟩, -- :515
  ⟨145, 157, "sched_getscheduler", 1, []⟩, -- :520
  ⟨24, 158, "sched_yield", 0, []⟩, -- :521
  ⟨146, 159, "sched_get_priority_max", 1, []⟩, -- :522
  ⟨147, 160, "sched_get_priority_min", 1, []⟩, -- :523
  ⟨148, 161, "sched_rr_get_interval", 2, []⟩, -- :524
  ⟨35, 162, "nanosleep", 2, [⟨0, 16, R, .plain⟩, ⟨1, 16, W, .plain⟩]⟩, -- :525
  ⟨25, 163, "mremap", 4, []⟩, -- :531
  ⟨-1, 164, "setresuid16", 3, []⟩, -- :532
  ⟨-1, 165, "getresuid16", 3, []⟩, -- :533
  ⟨-1, 166, "vm86", 2, []⟩, -- :534
  ⟨-1, 167, "ni_syscall", 0, []⟩, -- :535
  ⟨7, 168, "poll", 3, []⟩, -- :536
  ⟨180, 169, "nfsservctl", 3, []⟩, -- :537
  ⟨-1, 170, "setresgid16", 3, []⟩, -- :538
  ⟨-1, 171, "getresgid16", 3, []⟩, -- :539
  ⟨157, 172, "prctl", 1, []⟩, -- :540
  ⟨15, 173, "rt_sigreturn", 0, []⟩, -- :541
  ⟨13, 174, "rt_sigaction", 4, [⟨2, 32, W, .plain⟩]⟩, -- :542
  ⟨14, 175, "rt_sigprocmask", 4, [⟨1, 8, R, .plain⟩, ⟨2, 8, W, .plain⟩]⟩, -- :545
  ⟨127, 176, "rt_sigpending", 2, [⟨0, 8, W, .plain⟩]⟩, -- :551
  ⟨128, 177, "rt_sigtimedwait", 4, [⟨0, 8, R, .plain⟩, ⟨1, 128, W, .plain⟩, ⟨2, 16, R, .plain⟩]⟩, -- :556
  ⟨129, 178, "rt_sigqueueinfo", 3, [⟨2, 128, R, .plain⟩]⟩, -- :563
  ⟨130, 179, "rt_sigsuspend", 2, []⟩, -- :568
  ⟨17, 180, "pread64", 4, [⟨1, (-2), W, .plain⟩, ⟨1, RET, W, .plain⟩]⟩, -- :569
  ⟨18, 181, "pwrite64", 4, [⟨1, (-2), R, .plain⟩]⟩, -- :575
  ⟨-1, 182, "chown16", 3, [⟨0, 0, RC, .cstring⟩]⟩, -- :580
  ⟨79, 183, "getcwd", 2, [⟨0, (-1), W, .plain⟩, ⟨0, RET, W, .plain⟩]⟩, -- :585
  ⟨125, 184, "capget", 2, [⟨0, 8, R, .plain⟩, ⟨1, 8, W, .plain⟩]⟩, -- :591
  ⟨126, 185, "capset", 2, [⟨0, 8, R, .plain⟩, ⟨1, 8, R, .plain⟩]⟩, -- :597
  ⟨131, 186, "sigaltstack", 2, []⟩, -- :603
  ⟨40, 187, "sendfile", 4, [⟨2, 8, W, .plain⟩]⟩, -- :604
  ⟨-1, 188, "ni_syscall", 0, []⟩, -- :609
  ⟨-1, 189, "ni_syscall", 0, []⟩, -- :610
  ⟨58, 190, "vfork", 0, []⟩, -- :611
  ⟨97, 191, "getrlimit", 2, [⟨1, 16, W, .plain⟩]⟩, -- :612
  ⟨-1, 192, "mmap2", 6, []⟩, -- :617
  ⟨9, -1, "mmap", 6, []⟩, -- :618
  ⟨-1, 193, "truncate64", 2, [⟨0, 0, RC, .cstring⟩]⟩, -- :619
  ⟨-1, 194, "ftruncate64", 2, []⟩, -- :624
  ⟨94, 198, "lchown", 3, [⟨0, 0, RC, .cstring⟩]⟩] -- :645

/-- drsyscall/table_linux.c:650-976 -/
def table2 : List Sys := [
  ⟨102, 199, "getuid", 0, []⟩, -- :650
  ⟨104, 200, "getgid", 0, []⟩, -- :651
  ⟨107, 201, "geteuid", 0, []⟩, -- :652
  ⟨108, 202, "getegid", 0, []⟩, -- :653
  ⟨113, 203, "setreuid", 2, []⟩, -- :654
  ⟨114, 204, "setregid", 2, []⟩, -- :655
  ⟨115, 205, "getgroups", 2, []⟩, -- :656
  ⟨116, 206, "setgroups", 2, []⟩, -- :657
  ⟨93, 207, "fchown", 3, []⟩, -- :658
  ⟨117, 208, "setresuid", 3, []⟩, -- :659
  ⟨118, 209, "getresuid", 3, [⟨0, 4, W, .plain⟩, ⟨1, 4, W, .plain⟩, ⟨2, 4, W, .plain⟩]⟩, -- :660
  ⟨119, 210, "setresgid", 3, []⟩, -- :667
  ⟨120, 211, "getresgid", 3, [⟨0, 4, W, .plain⟩, ⟨1, 4, W, .plain⟩, ⟨2, 4, W, .plain⟩]⟩, -- :668
  ⟨92, 212, "chown", 3, [⟨0, 0, RC, .cstring⟩]⟩, -- :675
  ⟨105, 213, "setuid", 1, []⟩, -- :680
  ⟨106, 214, "setgid", 1, []⟩, -- :681
  ⟨122, 215, "setfsuid", 1, []⟩, -- :682
  ⟨123, 216, "setfsgid", 1, []⟩, -- :683
  ⟨155, 217, "pivot_root", 2, []⟩, -- :686
  ⟨27, 218, "mincore", 3, [⟨2, (-1), W, .plain⟩]⟩, -- :687
  ⟨28, 219, "madvise", 3, []⟩, -- :692
  ⟨217, 220, "getdents64", 3, [⟨1, (-2), W, .plain⟩, ⟨1, RET, W, .plain⟩]⟩, -- :693
  ⟨-1, 221, "fcntl64", 2, []⟩, -- :700
  ⟨-1, 222, "ni_syscall", 0, []⟩, -- :701
  ⟨-1, 223, "ni_syscall", 0, []⟩, -- :702
  ⟨186, 224, "gettid", 0, []⟩, -- :703
  ⟨187, 225, "readahead", 3, []⟩, -- :704
  ⟨188, 226, "setxattr", 5, [⟨0, 0, RC, .cstring⟩, ⟨1, 0, RC, .cstring⟩, ⟨2, (-3), R, .plain⟩]⟩, -- :705
  ⟨189, 227, "lsetxattr", 5, [⟨0, 0, RC, .cstring⟩, ⟨1, 0, RC, .cstring⟩, ⟨2, (-3), R, .plain⟩]⟩, -- :712
  ⟨190, 228, "fsetxattr", 5, [⟨1, 0, RC, .cstring⟩, ⟨2, (-3), R, .plain⟩]⟩, -- :719
  ⟨191, 229, "getxattr", 4, [⟨0, 0, RC, .cstring⟩, ⟨1, 0, RC, .cstring⟩, ⟨2, (-3), W, .plain⟩, ⟨2, RET, W, .plain⟩]⟩, -- :725
  ⟨192, 230, "lgetxattr", 4, [⟨0, 0, RC, .cstring⟩, ⟨1, 0, RC, .cstring⟩, ⟨2, (-3), W, .plain⟩, ⟨2, RET, W, .plain⟩]⟩, -- :733
  ⟨193, 231, "fgetxattr", 4, [⟨1, 0, RC, .cstring⟩, ⟨2, (-3), W, .plain⟩, ⟨2, RET, W, .plain⟩]⟩, -- :741
  ⟨194, 232, "listxattr", 3, [⟨0, 0, RC, .cstring⟩, ⟨1, (-2), W, .plain⟩, ⟨1, RET, W, .plain⟩]⟩, -- :748
  ⟨195, 233, "llistxattr", 3, [⟨0, 0, RC, .cstring⟩, ⟨1, (-2), W, .plain⟩, ⟨1, RET, W, .plain⟩]⟩, -- :755
  ⟨196, 234, "flistxattr", 3, [⟨1, (-2), W, .plain⟩, ⟨1, RET, W, .plain⟩]⟩, -- :762
  ⟨197, 235, "removexattr", 2, [⟨0, 0, RC, .cstring⟩, ⟨1, 0, RC, .cstring⟩]⟩, -- :768
  ⟨198, 236, "lremovexattr", 2, [⟨0, 0, RC, .cstring⟩, ⟨1, 0, RC, .cstring⟩]⟩, -- :774
  ⟨199, 237, "fremovexattr", 2, [⟨1, 0, RC, .cstring⟩]⟩, -- :780
  ⟨200, 238, "tkill", 2, []⟩, -- :785
  ⟨-1, 239, "sendfile64", 4, [⟨2, 8, W, .plain⟩]⟩, -- :786
  ⟨202, 240, "futex", 3, [⟨0, 4, R, .plain⟩]⟩, -- :791
  ⟨203, 241, "sched_setaffinity", 3, [⟨2, (-1), R, .plain⟩]⟩, -- :796
  ⟨204, 242, "sched_getaffinity", 3, [⟨2, (-1), W, .plain⟩]⟩, -- :801
  ⟨205, 243, "set_thread_area", 0, []⟩, -- :808
  ⟨211, 244, "get_thread_area", 0, []⟩, -- :809
  ⟨206, 245, "io_setup", 2, []⟩, -- :810
  ⟨207, 246, "io_destroy", 1, []⟩, -- :811
  ⟨208, 247, "io_getevents", 5, []⟩, -- :812
  ⟨209, 248, "io_submit", 3, []⟩, -- :813
  ⟨210, 249, "io_cancel", 3, []⟩, -- :814
  ⟨221, 250, "fadvise64", 4, []⟩, -- :815
  ⟨-1, 251, "ni_syscall", 0, []⟩, -- :816
  ⟨231, 252, "exit_group", 1, []⟩, -- :817
  ⟨212, 253, "lookup_dcookie", 3, []⟩, -- :818
  ⟨213, 254, "epoll_create", 1, []⟩, -- :819
  ⟨233, 255, "epoll_ctl", 4, [⟨3, 12, R, .plain⟩]⟩, -- :820
  ⟨232, 256, "epoll_wait", 4, [⟨1, (-2), WE, (.elt 12)⟩, ⟨1, RET, WE, (.elt 12)⟩]⟩, -- :825
  ⟨216, 257, "remap_file_pages", 5, []⟩, -- :831
  ⟨218, 258, "set_tid_address", 1, []⟩, -- :832
  ⟨222, 259, "timer_create", 3, [⟨1, 64, R, .plain⟩, ⟨2, 8, W, .plain⟩]⟩, -- :833
  ⟨223, 260, "timer_settime", 4, [⟨2, 32, R, .plain⟩, ⟨3, 32, W, .plain⟩]⟩, -- :839
  ⟨224, 261, "timer_gettime", 2, [⟨1, 32, W, .plain⟩]⟩, -- :845
  ⟨225, 262, "timer_getoverrun", 1, []⟩, -- :850
  ⟨226, 263, "timer_delete", 1, []⟩, -- :851
  ⟨227, 264, "clock_settime", 2, [⟨1, 16, R, .plain⟩]⟩, -- :852
  ⟨228, 265, "clock_gettime", 2, [⟨1, 16, W, .plain⟩]⟩, -- :857
  ⟨229, 266, "clock_getres", 2, [⟨1, 16, W, .plain⟩]⟩, -- :862
  ⟨230, 267, "clock_nanosleep", 4, [⟨2, 16, R, .plain⟩, ⟨3, 16, W, .plain⟩]⟩, -- :867
  ⟨-1, 268, "statfs64", 3, [⟨0, 0, RC, .cstring⟩, ⟨2, (-1), W, .plain⟩]⟩, -- :873
  ⟨-1, 269, "fstatfs64", 3, [⟨2, (-1), W, .plain⟩]⟩, -- :879
  ⟨234, 270, "tgkill", 3, []⟩, -- :884
  ⟨235, 271, "utimes", 2, [⟨0, 0, RC, .cstring⟩, ⟨1, 32, R, .plain⟩]⟩, -- :885
  ⟨-1, 272, "fadvise64_64", 4, []⟩, -- :891
  ⟨-1, 273, "ni_syscall", 0, []⟩, -- :892
  ⟨237, 274, "mbind", 6, []⟩, -- :893
  ⟨239, 275, "get_mempolicy", 5, []⟩, -- :894
  ⟨238, 276, "set_mempolicy", 3, []⟩, -- :895
  ⟨240, 277, "mq_open", 4, []⟩, -- :896
  ⟨241, 278, "mq_unlink", 1, [⟨0, 0, RC, .cstring⟩]⟩, -- :897
  ⟨242, 279, "mq_timedsend", 5, [⟨1, (-2), R, .plain⟩, ⟨4, 16, R, .plain⟩]⟩, -- :902
  ⟨243, 280, "mq_timedreceive", 5, [⟨1, (-2), W, .plain⟩, ⟨3, 4, W, .plain⟩, ⟨4, 16, R, .plain⟩]⟩, -- :908
  ⟨244, 281, "mq_notify", 2, [⟨1, 64, R, .plain⟩]⟩, -- :915
  ⟨245, 282, "mq_getsetattr", 3, []⟩, -- :920
  ⟨246, 283, "kexec_load", 4, []⟩, -- :921
  ⟨247, 284, "waitid", 5, [⟨2, 128, W, .plain⟩, ⟨4, 144, W, .plain⟩]⟩, -- :922
  ⟨-1, 285, "ni_syscall", 0, []⟩, -- :928
  ⟨248, 286, "add_key", 5, [⟨0, 0, RC, .cstring⟩, ⟨1, 0, RC, .cstring⟩, ⟨2, (-3), R, .plain⟩]⟩, -- :929
  ⟨249, 287, "request_key", 4, [⟨0, 0, RC, .cstring⟩, ⟨1, 0, RC, .cstring⟩, ⟨2, 0, RC, .cstring⟩]⟩, -- :936
  ⟨250, 288, "keyctl", 5, [⟨1, 0, RC, .cstring⟩, ⟨2, (-3), R, .plain⟩, ⟨2, RET, R, .plain⟩, ⟨3, 0, RC, .cstring⟩]⟩, -- :943
  ⟨251, 289, "ioprio_set", 3, []⟩, -- :951
  ⟨252, 290, "ioprio_get", 2, []⟩, -- :952
  ⟨253, 291, "inotify_init", 0, []⟩, -- :953
  ⟨254, 292, "inotify_add_watch", 3, [⟨1, 0, RC, .cstring⟩]⟩, -- :954
  ⟨255, 293, "inotify_rm_watch", 2, []⟩, -- :959
  ⟨256, 294, "migrate_pages", 4, []⟩, -- :960
  ⟨257, 295, "openat", 4, [⟨1, 0, RC, .cstring⟩]⟩, -- :961
  ⟨258, 296, "mkdirat", 3, [⟨1, 0, RC, .cstring⟩]⟩, -- :966
  ⟨259, 297, "mknodat", 4, [⟨1, 0, RC, .cstring⟩]⟩, -- :971
  ⟨260, 298, "fchownat", 5, [⟨1, 0, RC, .cstring⟩]⟩] -- :976

/-- drsyscall/table_linux.c:981-1293 -/
def table3 : List Sys := [
  ⟨261, 299, "futimesat", 3, [⟨1, 0, RC, .cstring⟩, ⟨2, 32, R, .plain⟩]⟩, -- :981
  ⟨263, 301, "unlinkat", 3, [⟨1, 0, RC, .cstring⟩]⟩, -- :996
  ⟨264, 302, "renameat", 4, [⟨1, 0, RC, .cstring⟩, ⟨3, 0, RC, .cstring⟩]⟩, -- :1001
  ⟨265, 303, "linkat", 5, [⟨1, 0, RC, .cstring⟩, ⟨3, 0, RC, .cstring⟩]⟩, -- :1007
  ⟨266, 304, "symlinkat", 3, [⟨0, 0, RC, .cstring⟩, ⟨2, 0, RC, .cstring⟩]⟩, -- :1013
  ⟨267, 305, "readlinkat", 4, [⟨1, 0, RC, .cstring⟩, ⟨2, (-3), W, .plain⟩, ⟨2, RET, W, .plain⟩]⟩, -- :1019
  ⟨268, 306, "fchmodat", 3, [⟨1, 0, RC, .cstring⟩]⟩, -- :1026
  ⟨269, 307, "faccessat", 3, [⟨1, 0, RC, .cstring⟩]⟩, -- :1031
  ⟨270, 308, "pselect6", 6, []⟩, -- :1036
  ⟨271, 309, "ppoll", 5, []⟩, -- :1037
  ⟨272, 310, "unshare", 1, []⟩, -- :1038
  ⟨273, 311, "set_robust_list", 2, [⟨0, (-1), R, .plain⟩]⟩, -- :1039
  ⟨274, 312, "get_robust_list", 3, []⟩, -- :1044
  ⟨275, 313, "splice", 6, []⟩, -- :1045
  ⟨277, 314, "sync_file_range", 4, []⟩, -- :1046
  ⟨276, 315, "tee", 4, []⟩, -- :1047
  ⟨278, 316, "vmsplice", 4, []⟩, -- :1048
  ⟨279, 317, "move_pages", 6, []⟩, -- :1049
  ⟨309, 318, "getcpu", 3, []⟩, -- :1050
  ⟨281, 319, "epoll_pwait", 6, [⟨1, (-2), WE, (.elt 12)⟩, ⟨1, RET, WE, (.elt 12)⟩, ⟨4, 8, R, .plain⟩]⟩, -- :1051
  ⟨280, 320, "utimensat", 4, [⟨1, 0, RC, .cstring⟩, ⟨2, 32, R, .plain⟩]⟩, -- :1058
  ⟨282, 321, "signalfd", 3, [⟨1, 8, R, .plain⟩]⟩, -- :1064
  ⟨283, 322, "timerfd_create", 2, []⟩, -- :1069
  ⟨284, 323, "eventfd", 1, []⟩, -- :1070
  ⟨285, 324, "fallocate", 4, []⟩, -- :1071
  ⟨286, 325, "timerfd_settime", 4, [⟨2, 32, R, .plain⟩, ⟨3, 32, W, .plain⟩]⟩, -- :1072
  ⟨287, 326, "timerfd_gettime", 2, [⟨1, 32, W, .plain⟩]⟩, -- :1078
  ⟨289, 327, "signalfd4", 4, []⟩, -- :1083
  ⟨290, 328, "eventfd2", 2, []⟩, -- :1084
  ⟨291, 329, "epoll_create1", 1, []⟩, -- :1085
  ⟨292, 330, "dup3", 3, []⟩, -- :1086
  ⟨293, 331, "pipe2", 2, [⟨0, 8, W, .plain⟩, ⟨1, 4, IN, .plain⟩]⟩, -- :1087
  ⟨294, 332, "inotify_init1", 1, []⟩, -- :1093
  ⟨295, 333, "preadv", 0, []⟩, -- :1096
  ⟨296, 334, "pwritev", 0, []⟩, -- :1097
  ⟨297, 335, "rt_tgsigqueueinfo", 0, []⟩, -- :1098
  ⟨298, 336, "perf_event_open", 0, []⟩, -- :1099
  ⟨299, 337, "recvmmsg", 0, []⟩, -- :1100
  ⟨300, 338, "fanotify_init", 0, []⟩, -- :1101
  ⟨301, 339, "fanotify_mark", 0, []⟩, -- :1102
  ⟨302, 340, "prlimit64", 4, [⟨0, 4, IN, .plain⟩, ⟨1, 4, IN, .plain⟩, ⟨2, 16, R, .plain⟩, ⟨3, 16, W, .plain⟩]⟩, -- :1103
  ⟨303, 341, "name_to_handle_at", 0, []⟩, -- :1111
  ⟨304, 342, "open_by_handle_at", 0, []⟩, -- :1112
  ⟨305, 343, "clock_adjtime", 0, []⟩, -- :1113
  ⟨306, 344, "syncfs", 1, [⟨0, 4, IN, .plain⟩]⟩, -- :1114
  ⟨307, 345, "sendmmsg", 0, []⟩, -- :1119
  ⟨308, 346, "setns", 0, []⟩, -- :1120
  ⟨310, 347, "process_vm_readv", 6, [⟨0, 4, IN, .plain⟩, ⟨1, (-2), RE, (.elt 16)⟩, ⟨2, 8, IN, .plain⟩, ⟨3, (-4), RE, (.elt 16)⟩, ⟨4, 8, IN, .plain⟩, ⟨5, 4, IN, .plain⟩]⟩, -- :1121
  ⟨311, 348, "process_vm_writev", 6, [⟨0, 4, IN, .plain⟩, ⟨1, (-2), RE, (.elt 16)⟩, ⟨2, 8, IN, .plain⟩, ⟨3, (-4), RE, (.elt 16)⟩, ⟨4, 8, IN, .plain⟩, ⟨5, 4, IN, .plain⟩]⟩, -- :1131
  ⟨312, 349, "kcmp", 0, []⟩, -- :1141
  ⟨313, 350, "finit_module", 3, [⟨0, 4, IN, .plain⟩, ⟨1, 0, RC, .cstring⟩, ⟨2, 4, IN, .plain⟩]⟩, -- :1142
  ⟨318, 355, "getrandom", 3, [⟨0, (-1), W, .plain⟩, ⟨1, 8, IN, .plain⟩, ⟨2, 4, IN, .plain⟩]⟩, -- :1150
  ⟨334, 386, "rseq", 4, [⟨0, (-1), R, .plain⟩, ⟨1, 4, IN, .plain⟩, ⟨2, 4, IN, .plain⟩, ⟨3, 4, IN, .plain⟩]⟩, -- :1157
  ⟨29, -1, "shmget", 3, []⟩, -- :1168
  ⟨30, -1, "shmat", 3, []⟩, -- :1169
  ⟨31, -1, "shmctl", 3, []⟩, -- :1170
  ⟨41, -1, "socket", 3, []⟩, -- :1171
  ⟨42, -1, "connect", 3, [⟨1, (-2), RC, .sockaddr⟩]⟩, -- :1172
  ⟨43, -1, "accept", 3, [⟨1, (-2), WIC, .sockaddr⟩, ⟨2, 4, WT, .plain⟩]⟩, -- :1177
  ⟨44, -1, "sendto", 6, [⟨1, (-2), R, .plain⟩, ⟨4, (-5), RC, .sockaddr⟩, ⟨5, 4, IN, .plain⟩]⟩, -- :1183
  ⟨45, -1, "recvfrom", 6, [⟨1, (-2), W, .plain⟩, ⟨4, (-5), WIC, .sockaddr⟩, ⟨5, 4, RWP, .plain⟩]⟩, -- :1190
  ⟨46, -1, "sendmsg", 3, [⟨1, 56, RC, .msghdr⟩]⟩, -- :1197
  ⟨47, -1, "recvmsg", 3, [⟨1, 56, WC, .msghdr⟩]⟩, -- :1202
  ⟨48, -1, "shutdown", 2, []⟩, -- :1207
  ⟨49, -1, "bind", 3, [⟨1, (-2), RC, .sockaddr⟩]⟩, -- :1208
  ⟨50, -1, "listen", 2, []⟩, -- :1213
  ⟨51, -1, "getsockname", 3, [⟨1, (-2), WIC, .sockaddr⟩, ⟨2, 4, WT, .plain⟩]⟩, -- :1214
  ⟨52, -1, "getpeername", 3, [⟨1, (-2), WIC, .sockaddr⟩, ⟨2, 4, WT, .plain⟩]⟩, -- :1220
  ⟨53, -1, "socketpair", 4, [⟨3, 8, W, .plain⟩]⟩, -- :1226
  ⟨54, -1, "setsockopt", 5, [⟨3, (-4), R, .plain⟩]⟩, -- :1231
  ⟨55, -1, "getsockopt", 5, [⟨3, (-4), WI, .plain⟩, ⟨4, 4, WT, .plain⟩]⟩, -- :1236
  ⟨64, -1, "semget", 3, []⟩, -- :1242
  ⟨65, -1, "semop", 3, [⟨1, (-2), RE, (.elt 6)⟩]⟩, -- :1243
  ⟨66, -1, "semctl", 4, []⟩, -- :1248
  ⟨67, -1, "shmdt", 1, []⟩, -- :1249
  ⟨68, -1, "msgget", 2, []⟩, -- :1250
  ⟨69, -1, "msgsnd", 4, [⟨1, (-2), RC, .msgbuf⟩]⟩, -- :1251
  ⟨70, -1, "msgrcv", 5, [⟨1, (-2), WC, .msgbuf⟩]⟩, -- :1256
  ⟨71, -1, "msgctl", 3, []⟩, -- :1261
  ⟨158, 384, "arch_prctl", 2, [⟨0, 4, IN, .plain⟩]⟩, -- :1262
  ⟨166, -1, "umount2", 0, []⟩, -- :1269
  ⟨174, -1, "create_module", 0, []⟩, -- :1270
  ⟨177, -1, "get_kernel_syms", 0, []⟩, -- :1271
  ⟨178, -1, "query_module", 0, []⟩, -- :1272
  ⟨181, -1, "getpmsg", 0, []⟩, -- :1273
  ⟨182, -1, "putpmsg", 0, []⟩, -- :1274
  ⟨183, -1, "afs_syscall", 0, []⟩, -- :1275
  ⟨184, -1, "tuxcall", 0, []⟩, -- :1276
  ⟨185, -1, "security", 0, []⟩, -- :1277
  ⟨214, -1, "epoll_ctl_old", 0, []⟩, -- :1278
  ⟨215, -1, "epoll_wait_old", 0, []⟩, -- :1279
  ⟨220, -1, "semtimedop", 4, [⟨1, (-2), RE, (.elt 6)⟩, ⟨3, 16, R, .plain⟩]⟩, -- :1280
  ⟨236, -1, "vserver", 0, []⟩, -- :1286
  ⟨262, -1, "newfstatat", 4, [⟨1, 0, RC, .cstring⟩, ⟨2, 144, W, .plain⟩]⟩, -- :1287
  ⟨288, -1, "paccept", 4, [⟨1, (-2), WIC, .sockaddr⟩, ⟨2, 4, W, .plain⟩]⟩] -- :1293

/-- drsyscall/table_linux.c:46-1375 `syscall_info` -/
def table : List Sys := table0 ++ table1 ++ table2 ++ table3

end Verif.SysArgs
