import Verif.SysReqThms
/-
Property C77, continued: `clone`, `ioctl`, `rt_sigaction`, `futex`, `_sysctl`, and the parameters
whose value has to be defined.
-/

namespace Verif.SysReq
open Verif.SysArgs (Env Rep rdLE sext32)

/-! ## Specification -/

/-- man 2 clone: flags that make the kernel store a thread id for the parent
(CLONE_PARENT_SETTID), use the thread pointer (CLONE_SETTLS), keep an address in the child
(CLONE_CHILD_SETTID, CLONE_CHILD_CLEARTID). -/
def flag (e : Env) (a bit : Nat) : Prop := (e.arg a).testBit bit = true

/-- The kernel's parameters of `clone` on x86-64: flags, stack, parent's thread id, child's
thread id, thread pointer. -/
def PTID : Nat := 2
def CTID : Nat := 3
def TLS : Nat := 4

/-! ## Helpers -/

theorem testBit_u32 (v : Nat) {i : Nat} (hi : i < 32) : (u32 v).testBit i = v.testBit i := by
  unfold u32
  rw [Nat.testBit_mod_two_pow]
  simp [hi]

theorem covered_nil (x : Nat) : Covered (.reps []) x ↔ False :=
  ⟨not_covered_nil x, False.elim⟩

theorem checked_nil (x : Nat) : Checked (.reps []) x ↔ False :=
  ⟨not_checked_nil x, False.elim⟩

/-! ## clone -/

/-- `clone`, the thread id of the parent: with CLONE_PARENT_SETTID and an address that is not
null, its four bytes are checked for being addressable. -/
theorem C77_clone_parent (e : Env) (s : Option Nat) (h : flag e 0 20) (h0 : e.arg PTID ≠ 0)
    (x : Nat) (hx : In (e.arg PTID) 4 x) : Covered (osPre 56 e s) x ∧ PTID ∈ regs 56 e := by
  have h' : (u32 (e.arg 0)).testBit 20 = true := by rw [testBit_u32 _ (by decide)]; exact h
  constructor
  · refine ⟨clone e, by simp [osPre], ⟨2, false, true, e.arg 2, 4⟩, ?_, hx⟩
    unfold clone rep
    have : e.arg 2 ≠ 0 := h0
    simp [h', this]
  · unfold regs cloneRegs PTID
    simp [h']

/-- `clone`, everything that is covered: the parent's thread id and four bytes at the *fifth*
parameter, which on x86-64 is the thread pointer; never the child's thread id, in the
fourth. -/
theorem C77_clone_covered (e : Env) (s : Option Nat) (x : Nat) :
    Covered (osPre 56 e s) x ↔
      (flag e 0 20 ∧ e.arg PTID ≠ 0 ∧ In (e.arg PTID) 4 x) ∨
      ((flag e 0 24 ∨ flag e 0 21) ∧ e.arg TLS ≠ 0 ∧ In (e.arg TLS) 4 x) := by
  have hp : osPre 56 e s = .reps (clone e) := by simp [osPre]
  rw [hp]
  unfold clone flag PTID TLS
  rw [testBit_u32 _ (by decide), testBit_u32 _ (by decide), testBit_u32 _ (by decide)]
  constructor
  · rintro ⟨l, h, r, hr, hx⟩
    cases h
    rcases List.mem_append.1 hr with hr | hr
    · left
      by_cases hc : (e.arg 0).testBit 20 = true ∧ e.arg 2 ≠ 0
      · rw [if_pos hc] at hr
        simp [rep] at hr
        subst hr
        exact ⟨hc.1, hc.2, hx⟩
      · rw [if_neg hc] at hr
        cases hr
    · right
      by_cases hc : ((e.arg 0).testBit 24 = true ∨ (e.arg 0).testBit 21 = true) ∧ e.arg 4 ≠ 0
      · rw [if_pos hc] at hr
        simp [rep] at hr
        subst hr
        exact ⟨hc.1, hc.2, hx⟩
      · rw [if_neg hc] at hr
        cases hr
  · rintro (⟨h1, h2, hx⟩ | ⟨h1, h2, hx⟩)
    · refine ⟨_, rfl, ⟨2, false, true, e.arg 2, 4⟩, List.mem_append_left _ ?_, hx⟩
      rw [if_pos ⟨h1, h2⟩]
      simp [rep]
    · refine ⟨_, rfl, ⟨4, false, true, e.arg 4, 4⟩, List.mem_append_right _ ?_, hx⟩
      rw [if_pos ⟨h1, h2⟩]
      simp [rep]

/-- A `clone` whose child's thread id lies in memory that is never looked at, while four bytes at
the thread pointer are. -/
example : ∃ e : Env, flag e 0 24 ∧ e.arg CTID = 0x3000 ∧
    ¬ Covered (osPre 56 e none) 0x3000 ∧ Covered (osPre 56 e none) 0x4000 := by
  refine ⟨⟨fun i => if i = 0 then 2 ^ 24 else 0x1000 * i, fun _ => none, 0, 0⟩,
    show Nat.testBit (2 ^ 24) 24 = true by decide, by decide, ?_, ?_⟩
  · rw [C77_clone_covered]
    rintro (⟨h, _⟩ | ⟨_, _, h⟩)
    · have h' : Nat.testBit (2 ^ 24) 20 = true := h
      revert h'; decide
    · have : 0x1000 * 4 ≤ 0x3000 ∧ 0x3000 < 0x1000 * 4 + 4 := h
      omega
  · rw [C77_clone_covered]
    right
    refine ⟨Or.inl (show Nat.testBit (2 ^ 24) 24 = true by decide), by decide, ?_⟩
    show 0x1000 * 4 ≤ 0x4000 ∧ 0x4000 < 0x1000 * 4 + 4
    omega

/-- `clone`, the values that have to be defined: the fifth if a child's thread id is asked for —
although that one is in the fourth — and the fourth if a thread pointer is given — although that
one is in the fifth. -/
theorem C77_clone_values (e : Env) (i : Nat) :
    i ∈ regs 56 e ↔ i < 2 ∨ (i = 2 ∧ flag e 0 20) ∨ (i = 3 ∧ flag e 0 19) ∨
      (i = 4 ∧ (flag e 0 24 ∨ flag e 0 21)) := by
  unfold regs cloneRegs flag argCount
  rw [testBit_u32 _ (by decide), testBit_u32 _ (by decide), testBit_u32 _ (by decide),
    testBit_u32 _ (by decide)]
  have hif : ∀ (p : Prop) [Decidable p] (k : Nat),
      (i ∈ (if p then [k] else []) ↔ i = k ∧ p) := by
    intro p _ k
    by_cases hp : p
    · rw [if_pos hp]; simp [hp]
    · rw [if_neg hp]; simp [hp]
  simp only [if_true, List.mem_append, List.mem_range, hif, or_assoc]

/-- Nothing counts as written after `clone`: the thread ids that the kernel has stored stay
undefined. -/
theorem C77_clone_unmarked (e : Env) (s : Option Nat) (x : Nat) : ¬ Covered (osPost 56 e s) x := by
  have : osPost 56 e s = .reps [] := by simp [osPost]
  rw [this]
  exact not_covered_nil x

/-! ## Values -/

/-- `mremap`: the fifth value only with MREMAP_FIXED; `open`: the third only with O_CREAT;
`fcntl`: the third unless the command is one of five that only ask. -/
theorem C77_values (e : Env) (i : Nat) :
    (i ∈ regs 25 e ↔ i < 4 ∨ (i = 4 ∧ flag e 3 1)) ∧
    (i ∈ regs 2 e ↔ i < 2 ∨ (i = 2 ∧ flag e 1 6)) ∧
    (i ∈ regs 72 e ↔ i < 2 ∨ (i = 2 ∧ u32 (e.arg 1) ∉ [1, 3, 9, 11, 1025])) := by
  unfold flag
  refine ⟨?_, ?_, ?_⟩
  · unfold regs mremapRegs argCount
    by_cases h : (e.arg 3).testBit 1 = true <;> simp [h]
  · unfold regs openRegs argCount
    by_cases h : (e.arg 1).testBit 6 = true <;> simp [h]
  · unfold regs fcntlRegs argCount
    by_cases h : u32 (e.arg 1) ∈ [1, 3, 9, 11, 1025]
    · simp only [h]; simp
    · simp only [h]; simp

/-- `open` with O_TMPFILE (bit 22, and O_DIRECTORY, bit 16) and without O_CREAT: the kernel uses
the third value, which is not checked. -/
example (e : Env) (h : e.arg 1 = 2 ^ 22 + 2 ^ 16 + 1) : 2 ∉ regs 2 e := by
  rw [(C77_values e 2).2.1]
  unfold flag
  rw [h]
  rintro (h | ⟨_, h⟩)
  · omega
  · revert h; decide

/-- `semctl`, `shmctl`, `msgctl`: every value has to be defined whatever the command, also the
ones that the command does not use — the table names four and three parameters, so that what the
handlers choose makes no difference. -/
theorem C77_values_all (e : Env) (i : Nat) :
    (i ∈ regs 66 e ↔ i < 4) ∧ (i ∈ regs 71 e ↔ i < 3) ∧ (i ∈ regs 31 e ↔ i < 3) := by
  have h66 : ∀ j ∈ semctlRegs e, j < 4 := by
    intro j hj
    unfold semctlRegs at hj
    dsimp only at hj
    rcases List.mem_append.1 hj with hj | hj
    · simp at hj; omega
    · by_cases h1 : semCmd e ∈ [1, 2, 18, 3, 19, 13, 17]
      · rw [if_pos h1] at hj; simp at hj; omega
      · rw [if_neg h1] at hj
        by_cases h2 : semCmd e ∈ [14, 15, 11, 12]
        · rw [if_pos h2] at hj; simp at hj; omega
        · rw [if_neg h2] at hj
          by_cases h3 : semCmd e = 16
          · rw [if_pos h3] at hj; simp at hj; omega
          · rw [if_neg h3] at hj; cases hj
  have hctl : ∀ cmds, ∀ j ∈ ctlRegs e cmds, j < 3 := by
    intro cmds j hj
    unfold ctlRegs at hj
    rcases List.mem_append.1 hj with hj | hj
    · simp at hj; omega
    · by_cases h1 : u32 (e.arg 1) ∈ cmds
      · rw [if_pos h1] at hj; simp at hj; omega
      · rw [if_neg h1] at hj; cases hj
  refine ⟨?_, ?_, ?_⟩
  · have : regs 66 e = List.range 4 ++ semctlRegs e := by simp [regs, argCount]
    rw [this, List.mem_append, List.mem_range]
    exact ⟨fun h => h.elim id (h66 i), Or.inl⟩
  · have : regs 71 e = List.range 3 ++ ctlRegs e [3, 12, 2, 11, 1] := by simp [regs, argCount]
    rw [this, List.mem_append, List.mem_range]
    exact ⟨fun h => h.elim id (hctl _ i), Or.inl⟩
  · have : regs 31 e = List.range 3 ++ ctlRegs e [3, 14, 2, 13, 1] := by simp [regs, argCount]
    rw [this, List.mem_append, List.mem_range]
    exact ⟨fun h => h.elim id (hctl _ i), Or.inl⟩

/-- `semctl(id, 0, IPC_RMID)` called with three parameters: the fourth, never set, is checked. -/
example (e : Env) (_h : u32 (e.arg 2) = 0) : 3 ∈ regs 66 e := (C77_values_all e 3).1.2 (by decide)

/-- The requests of `prctl` that use the second parameter (man 2 prctl, up to
PR_GET_TIMERSLACK): all but the six whose answer is the return value. -/
theorem C77_values_prctl (e : Env) (i : Nat) (h : u32 (e.arg 0) ∈ List.range' 1 30)
    (hk : u32 (e.arg 0) ≠ 17 ∧ u32 (e.arg 0) ≠ 18) :
    i ∈ regs 157 e ↔ i = 0 ∨ (i = 1 ∧ u32 (e.arg 0) ∉ [3, 7, 13, 21, 27, 30]) := by
  have hr : regs 157 e = List.range 1 ++ prctlRegs e := by simp [regs, argCount]
  rw [hr, List.mem_append, List.mem_range]
  unfold prctlRegs
  generalize u32 (e.arg 0) = q at h hk ⊢
  have key : ∀ q ∈ List.range' 1 30, q ≠ 17 ∧ q ≠ 18 →
      (q ∈ [1, 6, 10, 12, 4, 14, 26, 28, 22, 8, 20, 29, 23, 24, 2, 5, 9, 11, 25, 19, 15, 16] ↔
        q ∉ [3, 7, 13, 21, 27, 30]) := by decide
  rw [← key q h hk]
  by_cases hm : q ∈ [1, 6, 10, 12, 4, 14, 26, 28, 22, 8, 20, 29, 23, 24, 2, 5, 9, 11, 25, 19, 15, 16]
  · rw [if_pos hm]; simp [hm]
  · rw [if_neg hm]; simp [hm]

/-! ## futex -/

/-- `futex(FUTEX_WAIT)`: the timeout's value has to be defined, and its sixteen bytes unless it
is null; for FUTEX_WAKE no further value and no further byte. -/
theorem C77_futex (e : Env) (s : Option Nat) (x i : Nat) :
    (u32 (e.arg 1) = 0 → (Checked (osPre 202 e s) x ↔ e.arg 3 ≠ 0 ∧ In (e.arg 3) 16 x) ∧
      (i ∈ regs 202 e ↔ i < 4)) ∧
    (u32 (e.arg 1) = 1 → ¬ Covered (osPre 202 e s) x ∧ (i ∈ regs 202 e ↔ i < 3)) := by
  have hr : regs 202 e = List.range 3 ++ futexRegs e := by simp [regs, argCount]
  have hp : osPre 202 e s = .reps (futex e) := by simp [osPre]
  rw [hp, hr, List.mem_append, List.mem_range]
  refine ⟨fun h => ⟨?_, ?_⟩, fun h => ⟨?_, ?_⟩⟩
  · unfold futex
    by_cases h3 : e.arg 3 = 0
    · simp only [h, h3]
      simp [not_checked_nil]
    · have : futex e = [⟨3, true, false, e.arg 3, 16⟩] := by simp [futex, rep, h, h3]
      unfold futex at this
      rw [this, checked_one]
      simp [h3]
  · have : futexRegs e = [3] := by simp [futexRegs, h]
    rw [this, List.mem_singleton]; omega
  · have : futex e = [] := by simp [futex, h]
    rw [this]; exact not_covered_nil x
  · have : futexRegs e = [] := by simp [futexRegs, h]
    rw [this]; simp

/-- FUTEX_REQUEUE and FUTEX_CMP_REQUEUE: the word at the second address has to be defined, and the
fifth value, for the second operation also the sixth; the fourth, the number of waiters to move,
which the kernel uses, is not looked at. -/
theorem C77_futex_requeue (e : Env) (s : Option Nat) (x i : Nat)
    (h : u32 (e.arg 1) = 3 ∨ u32 (e.arg 1) = 4) :
    (Checked (osPre 202 e s) x ↔ In (e.arg 4) 4 x) ∧
    (i ∈ regs 202 e ↔ i < 3 ∨ i = 4 ∨ (i = 5 ∧ u32 (e.arg 1) = 4)) := by
  have hr : regs 202 e = List.range 3 ++ futexRegs e := by simp [regs, argCount]
  have hp : osPre 202 e s = .reps [⟨4, true, false, e.arg 4, 4⟩] := by
    rcases h with h | h <;> simp [osPre, futex, rep, h]
  rw [hp, hr, List.mem_append, List.mem_range, checked_one]
  refine ⟨by simp, ?_⟩
  rcases h with h | h <;> simp [futexRegs, h]

/-- With FUTEX_PRIVATE_FLAG (128), the way the thread library calls it, no operation is
recognised: neither the timeout nor its value is checked. -/
theorem C77_futex_private (e : Env) (s : Option Nat) (op : Nat) (hop : op < 128)
    (h : u32 (e.arg 1) = op + 128) (x i : Nat) :
    ¬ Covered (osPre 202 e s) x ∧ (i ∈ regs 202 e ↔ i < 3) := by
  have hr : regs 202 e = List.range 3 ++ futexRegs e := by simp [regs, argCount]
  have hp : osPre 202 e s = .reps (futex e) := by simp [osPre]
  have n0 : ∀ k, k ≤ 4 → ¬ u32 (e.arg 1) = k := by omega
  have hf : futex e = [] := by
    simp [futex, n0 0, n0 1, n0 2, n0 3, n0 4]
  have hg : futexRegs e = [] := by
    simp [futexRegs, n0 0, n0 1, n0 2, n0 3, n0 4]
  rw [hp, hr, hf, hg, List.mem_append, List.mem_range]
  exact ⟨not_covered_nil x, by simp⟩

/-- A wait with a timeout at 0x1000, private. -/
example : ∃ e : Env, u32 (e.arg 1) = 0 + 128 ∧ e.arg 3 = 0x1000 ∧
    ¬ Checked (osPre 202 e none) 0x1000 := by
  refine ⟨⟨fun i => if i = 1 then 128 else 0x1000, fun _ => none, 0, 0⟩, by decide, by decide, ?_⟩
  rintro ⟨l, h, r, hr, _, hx⟩
  exact (C77_futex_private _ none 0 (by decide) (by decide) 0x1000 0).1 ⟨l, h, r, hr, hx⟩

/-! ## rt_sigaction -/

/-- `rt_sigaction` with a new action at `sa`: handler, flags and mask have to be defined, the
restorer only with SA_RESTORER; if the flags cannot be read the tool itself faults. -/
theorem C77_sigaction (e : Env) (s : Option Nat) (h0 : e.arg 1 ≠ 0) :
    (rdLE e.mem (e.arg 1 + 8) 8 = none → osPre 13 e s = .fault) ∧
    (∀ f x, rdLE e.mem (e.arg 1 + 8) 8 = some f →
      (Checked (osPre 13 e s) x ↔ In (e.arg 1) 16 x ∨ In (e.arg 1 + 24) 8 x ∨
        (f.testBit 26 = true ∧ In (e.arg 1 + 16) 8 x))) := by
  have hp : osPre 13 e s = sigaction e := by simp [osPre]
  rw [hp]
  constructor
  · intro h; simp [sigaction, h0, h]
  · intro f x h
    by_cases hb : f.testBit 26 = true
    · have : sigaction e = .reps [⟨1, true, false, e.arg 1, 32⟩] := by
        simp [sigaction, h0, h, hb, rep]
      rw [this, checked_one]
      simp only [hb, true_and]
      unfold In; omega
    · have : sigaction e =
          .reps [⟨1, true, false, e.arg 1, 16⟩, ⟨1, true, false, e.arg 1 + 24, 8⟩] := by
        simp [sigaction, h0, h, hb, rep]
      rw [this, checked_cons, checked_one]
      simp [hb]

/-! ## ioctl -/

/-- `ioctl(SIOCGIFCONF)` with a structure naming `n` bytes at `b`: before the call the structure
has to be defined and the buffer addressable, after it the buffer counts as written up to the
length the kernel has left there. -/
theorem C77_ifconf (e : Env) (s : Option Nat) (h1 : e.arg 1 = 0x8912) (h2 : e.arg 2 ≠ 0)
    (n b : Nat) (hm : (rdLE e.mem (e.arg 2) 16).isSome) (hn : rdLE e.mem (e.arg 2) 4 = some n)
    (hb : rdLE e.mem (e.arg 2 + 8) 8 = some b) (hs : n < 2 ^ 31) (x : Nat) :
    (Checked (osPre 16 e s) x ↔ In (e.arg 2) 16 x) ∧
    (Covered (osPre 16 e s) x ↔ In (e.arg 2) 16 x ∨ In b n x) ∧
    (e.result < 2 ^ 63 → (Covered (osPost 16 e s) x ↔ In b n x)) := by
  obtain ⟨v, hv⟩ := Option.isSome_iff_exists.1 hm
  have hse : sext32 n = n := by
    unfold sext32
    dsimp only
    have : n % 2 ^ 32 = n := Nat.mod_eq_of_lt (by omega)
    rw [this, if_pos hs]
  have hp : osPre 16 e s = .reps [⟨2, true, false, e.arg 2, 16⟩, ⟨2, false, true, b, n⟩] := by
    simp [osPre, preIoctl, h1, h2, ifconfBuf, hv, hn, hb, rep, hse]
  have hq : e.result < 2 ^ 63 → osPost 16 e s = .reps [⟨2, false, true, b, n⟩] := by
    intro hr
    simp [osPost, postIoctl, h1, h2, ifconfBuf, hv, hn, hb, rep, hse, failed_false hr]
  refine ⟨?_, ?_, fun hr => ?_⟩
  · rw [hp, checked_cons, checked_one]; simp
  · rw [hp, covered_cons, covered_one]
  · rw [hq hr, covered_one]

/-- The two requests that send a command, and the size of their structures. -/
def Sends (e : Env) (sz : Nat) : Prop :=
  (e.arg 1 = 0x8028690d ∧ sz = 40) ∨ (e.arg 1 = 0x80306915 ∧ sz = 48)

/-- The structure at the third parameter, in memory: address `a` and its length `n`, message `d`
and its length `k`. -/
structure ReqAt (e : Env) (sz a n d k : Nat) : Prop where
  all : (rdLE e.mem (e.arg 2) sz).isSome
  addr : rdLE e.mem (e.arg 2) 8 = some a
  len : rdLE e.mem (e.arg 2 + 8) 4 = some n
  dlen : rdLE e.mem (e.arg 2 + 26) 2 = some k
  data : rdLE e.mem (e.arg 2 + 32) 8 = some d

theorem pre_send {e : Env} {sz : Nat} (s : Option Nat) (h1 : Sends e sz) (h2 : e.arg 2 ≠ 0) :
    osPre 16 e s = ipmiSend e sz := by
  rcases h1 with ⟨h, rfl⟩ | ⟨h, rfl⟩ <;> simp [osPre, preIoctl, h, h2]

theorem send_some {e : Env} {sz a n d k m : Nat} (hq : ReqAt e sz a n d k)
    (hl : ipmiLen e a n = some m) :
    ipmiSend e sz = .reps [⟨2, true, false, e.arg 2, sz⟩, ⟨2, true, false, a, m⟩,
      ⟨2, true, false, d, k⟩] := by
  obtain ⟨v, hv⟩ := Option.isSome_iff_exists.1 hq.all
  unfold ipmiSend
  rw [hv, hq.addr, hq.len, hq.dlen, hq.data]
  dsimp only
  rw [hl]
  simp [rep, Out.after]

/-- `ioctl(IPMICTL_SEND_COMMAND)` and `_SETTIME`: the structure, the address and the message have
to be defined; of an address of the system interface (type 12) or of a LAN (type 4) all but the
last byte. -/
theorem C77_ipmi_send_partial (e : Env) (s : Option Nat) {sz a n d k t : Nat} (h1 : Sends e sz)
    (h2 : e.arg 2 ≠ 0) (hq : ReqAt e sz a n d k) (ht : rdLE e.mem a 4 = some t) (h0 : 0 < n)
    (hb : n < 2 ^ 32) (x : Nat) :
    Checked (osPre 16 e s) x ↔ In (e.arg 2) sz x ∨
      In a (if t = 12 ∨ t = 4 then n - 1 else n) x ∨ In d k x := by
  have hl : ipmiLen e a n = some (if t = 12 ∨ t = 4 then n - 1 else n) := by
    unfold ipmiLen
    rw [ht]
    dsimp only
    by_cases hc : t = 12 ∨ t = 4
    · have hx : (n + (2 ^ 64 - 1)) % 2 ^ 64 = n - 1 := by omega
      rw [if_pos hc, if_pos hc, hx]
    · rw [if_neg hc, if_neg hc]
  rw [pre_send s h1 h2, send_some hq hl, checked_cons, checked_cons, checked_one]
  simp

theorem ipmiLen_wrap (e : Env) (a n t : Nat) (hn : n = 0) (ht : rdLE e.mem a 4 = some t)
    (htt : t = 12 ∨ t = 4) : ipmiLen e a n = some (2 ^ 64 - 1) := by
  have hx : (n + (2 ^ 64 - 1)) % 2 ^ 64 = 2 ^ 64 - 1 := by omega
  unfold ipmiLen
  rw [ht]
  dsimp only
  rw [if_pos htt, hx]

/-- With an address length of zero and one of these types the length wraps around: the check
runs over the whole address space. -/
theorem C77_ipmi_send_wrap (e : Env) (s : Option Nat) {sz a d k t : Nat} (h1 : Sends e sz)
    (h2 : e.arg 2 ≠ 0) (hq : ReqAt e sz a 0 d k) (ht : rdLE e.mem a 4 = some t)
    (htt : t = 12 ∨ t = 4) (x : Nat) (hx : a ≤ x) (hx' : x < 2 ^ 64 - 1) :
    Checked (osPre 16 e s) x := by
  rw [pre_send s h1 h2, send_some hq (ipmiLen_wrap e a 0 t rfl ht htt), checked_cons, checked_cons]
  right; left
  refine ⟨rfl, hx, ?_⟩
  show x < a + (2 ^ 64 - 1)
  omega

/-- If the address of the request cannot be read the tool itself faults, where the kernel would
answer `EFAULT`. -/
theorem C77_ipmi_send_fault (e : Env) (s : Option Nat) {sz a n d k : Nat} (h1 : Sends e sz)
    (h2 : e.arg 2 ≠ 0) (hq : ReqAt e sz a n d k) (ht : rdLE e.mem a 4 = none) :
    osPre 16 e s = .fault := by
  obtain ⟨v, hv⟩ := Option.isSome_iff_exists.1 hq.all
  have hl : ipmiLen e a n = none := by
    unfold ipmiLen
    rw [ht]
  rw [pre_send s h1 h2]
  unfold ipmiSend
  rw [hv, hq.addr, hq.len, hq.dlen, hq.data]
  dsimp only
  rw [hl]
  rfl

/-- `ioctl(IPMICTL_RECEIVE_MSG)` and its truncating form, after a call that succeeded: exactly
the two buffers count as written — and not the structure itself, whose `recv_type`, `msgid` and
command the kernel fills in. -/
theorem C77_ipmi_receive (e : Env) (s : Option Nat)
    (h1 : e.arg 1 = 0xc030690c ∨ e.arg 1 = 0xc030690b) (h2 : e.arg 2 ≠ 0)
    (hm : (rdLE e.mem (e.arg 2) 48).isSome) (a n d k : Nat)
    (ha : rdLE e.mem (e.arg 2 + 8) 8 = some a) (hn : rdLE e.mem (e.arg 2 + 16) 4 = some n)
    (hk : rdLE e.mem (e.arg 2 + 34) 2 = some k) (hd : rdLE e.mem (e.arg 2 + 40) 8 = some d)
    (x : Nat) :
    (Covered (osPre 16 e s) x ↔ In (e.arg 2) 48 x ∨ In a n x ∨ In d k x) ∧
    (Checked (osPre 16 e s) x ↔ In (e.arg 2 + 8) 12 x ∨ In (e.arg 2 + 34) 2 x ∨
      In (e.arg 2 + 40) 8 x) ∧
    (e.result < 2 ^ 63 → (Covered (osPost 16 e s) x ↔ In a n x ∨ In d k x)) := by
  obtain ⟨v, hv⟩ := Option.isSome_iff_exists.1 hm
  have n1 : e.arg 1 ≠ 0x8912 := by omega
  have n2 : e.arg 1 ≠ 0x8028690d := by omega
  have n3 : e.arg 1 ≠ 0x80306915 := by omega
  have hp : osPre 16 e s = .reps [⟨2, false, true, e.arg 2, 48⟩, ⟨2, true, false, e.arg 2 + 8, 8⟩,
      ⟨2, true, false, e.arg 2 + 16, 4⟩, ⟨2, true, false, e.arg 2 + 40, 8⟩,
      ⟨2, true, false, e.arg 2 + 34, 2⟩, ⟨2, false, true, a, n⟩, ⟨2, false, true, d, k⟩] := by
    simp [osPre, preIoctl, h1, h2, n1, n2, n3, ipmiBufs, hv, ha, hn, hk, hd, rep]
  have hq : e.result < 2 ^ 63 → osPost 16 e s = .reps [⟨2, false, true, a, n⟩,
      ⟨2, false, true, d, k⟩] := by
    intro hr
    simp [osPost, postIoctl, h1, h2, n1, ipmiBufs, hv, ha, hn, hk, hd, rep, failed_false hr]
  refine ⟨?_, ?_, fun hr => ?_⟩
  · rw [hp]
    simp only [covered_cons, covered_nil, or_false]
    unfold In; omega
  · rw [hp]
    simp only [checked_cons, checked_nil]
    unfold In
    simp only [true_and, Bool.false_eq_true, false_and, false_or, or_false]
    omega
  · rw [hq hr, covered_cons, covered_one]

/-! ## _sysctl -/

/-- `_sysctl` with readable arguments: the name and the new value have to be defined; after a
call that returned zero the old value counts as written, up to the length the kernel has left. -/
theorem C77_sysctl (e : Env) (s : Option Nat) (h0 : e.arg 0 ≠ 0) (name n old lenp new len : Nat)
    (h1 : rdLE e.mem (e.arg 0) 8 = some name) (h2 : rdLE e.mem (e.arg 0 + 8) 4 = some n)
    (h3 : rdLE e.mem (e.arg 0 + 16) 8 = some old) (h4 : rdLE e.mem (e.arg 0 + 24) 8 = some lenp)
    (h5 : rdLE e.mem (e.arg 0 + 32) 8 = some new) (h6 : rdLE e.mem (e.arg 0 + 40) 8 = some len)
    (hn : n < 2 ^ 31) (x : Nat) :
    (Checked (osPre 156 e s) x ↔ In name (4 * n) x ∨ (new ≠ 0 ∧ In new len x)) ∧
    (∀ w, e.result = 0 → rdLE e.mem lenp 8 = some w →
      (Covered (osPost 156 e s) x ↔ old ≠ 0 ∧ In old w x)) := by
  have hse : sext32 n * 4 % 2 ^ 64 = 4 * n := by
    have : sext32 n = n := by
      unfold sext32
      dsimp only
      have : n % 2 ^ 32 = n := Nat.mod_eq_of_lt (by omega)
      rw [this, if_pos hn]
    rw [this]; omega
  constructor
  · by_cases hz : new = 0
    · have hp : osPre 156 e s = .reps [⟨0, true, false, name, 4 * n⟩] := by
        simp [osPre, preSysctl, h0, h1, h2, h5, h6, hse, hz, rep]
      rw [hp, checked_one]; simp [hz]
    · have hp : osPre 156 e s = .reps [⟨0, true, false, name, 4 * n⟩,
          ⟨0, true, false, new, len⟩] := by
        simp [osPre, preSysctl, h0, h1, h2, h5, h6, hse, hz, rep]
      rw [hp, checked_cons, checked_one]; simp [hz]
  · intro w hr hw
    by_cases hz : old = 0
    · have hp : osPost 156 e s = .reps [] := by
        simp [osPost, postSysctl, h0, h3, h4, hr, hz]
      rw [hp]
      simp [hz, not_covered_nil]
    · have hp : osPost 156 e s = .reps [⟨0, false, true, old, w⟩] := by
        simp [osPost, postSysctl, h0, h3, h4, hr, hz, hw, rep]
      rw [hp, covered_one]; simp [hz]

/-! ## Concrete cases -/

/-- The bytes `l` at `b`, nothing else. -/
def bytesAt (b : Nat) (l : List Nat) (a : Nat) : Option Nat := if b ≤ a then l[a - b]? else none

/-- `rt_sigaction` with an action at 0x1000 without SA_RESTORER: the restorer is not checked, the
mask is. -/
example : let e : Env := ⟨fun i => if i = 1 then 0x1000 else 0,
      bytesAt 0x1000 (List.replicate 32 0), 0, 0⟩
    ¬ Checked (osPre 13 e none) 0x1010 ∧ Checked (osPre 13 e none) 0x1018 := by
  intro e
  have h := (C77_sigaction e none (by decide)).2 0
  have hm : rdLE e.mem (e.arg 1 + 8) 8 = some 0 := by decide
  rw [h _ hm, h _ hm]
  refine ⟨?_, Or.inr (Or.inl (show 0x1000 + 24 ≤ 0x1018 ∧ 0x1018 < 0x1000 + 24 + 8 by omega))⟩
  rintro (⟨_, h⟩ | ⟨h, _⟩ | ⟨h, _⟩)
  · have : 0x1010 < 0x1000 + 16 := h
    omega
  · have : 0x1000 + 24 ≤ 0x1010 := h
    omega
  · simp at h

/-- The bytes of a structure that asks for 0x40 bytes at 0x2000. -/
def ifconfBytes : List Nat :=
  [0x40, 0, 0, 0, 0, 0, 0, 0, 0, 0x20, 0, 0, 0, 0, 0, 0]

example : let e : Env := ⟨fun i => if i = 1 then 0x8912 else 0x1000, bytesAt 0x1000 ifconfBytes, 0, 0⟩
    Covered (osPost 16 e none) 0x203f ∧ ¬ Covered (osPost 16 e none) 0x2040 := by
  intro e
  have h := fun x => (C77_ifconf e none (by decide) (by decide) 0x40 0x2000 (by decide) (by decide)
    (by decide) (by decide) x).2.2 (by decide)
  rw [h, h]
  unfold In
  omega

/-- The bytes of a command to the system interface at 0x1028, whose address is said to be empty;
no message. -/
def ipmiBytes : List Nat :=
  [0x28, 0x10, 0, 0, 0, 0, 0, 0] ++ List.replicate 32 0 ++ [12, 0, 0, 0]

example : let e : Env := ⟨fun i => if i = 1 then 0x8028690d else 0x1000,
      bytesAt 0x1000 ipmiBytes, 0, 0⟩
    Checked (osPre 16 e none) 0xffffffff0000 := by
  intro e
  exact C77_ipmi_send_wrap (sz := 40) (a := 0x1028) (d := 0) (k := 0) (t := 12) e none
    (Or.inl ⟨by decide, rfl⟩) (by decide)
    ⟨by decide, by decide, by decide, by decide, by decide⟩ (by decide) (Or.inl rfl) _ (by omega)
    (by omega)

/-- The bytes of a structure for receiving: eight bytes for the address at 0x2000, sixteen for
the data at 0x3000. -/
def recvBytes : List Nat :=
  List.replicate 8 0 ++ [0, 0x20, 0, 0, 0, 0, 0, 0] ++ [8, 0, 0, 0, 0, 0, 0, 0] ++
    List.replicate 8 0 ++ [0, 0, 16, 0, 0, 0, 0, 0] ++ [0, 0x30, 0, 0, 0, 0, 0, 0]

/-- After receiving, `recv_type` at the start of the structure does not count as written. -/
example : let e : Env := ⟨fun i => if i = 1 then 0xc030690c else 0x1000,
      bytesAt 0x1000 recvBytes, 0, 0⟩
    ¬ Covered (osPost 16 e none) 0x1000 ∧ Covered (osPost 16 e none) 0x300f := by
  intro e
  have h := fun x => (C77_ipmi_receive e none (Or.inl (by decide)) (by decide) (by decide)
    0x2000 8 0x3000 16 (by decide) (by decide) (by decide) (by decide) x).2.2 (by decide)
  rw [h, h]
  unfold In
  omega

/-- The bytes of the arguments of `_sysctl`: a name of two words at 0x2000, the old value at
0x3000 with its length at 0x1030, no new value. -/
def sysctlBytes : List Nat :=
  [0, 0x20, 0, 0, 0, 0, 0, 0] ++ [2, 0, 0, 0, 0, 0, 0, 0] ++ [0, 0x30, 0, 0, 0, 0, 0, 0] ++
    [0x30, 0x10, 0, 0, 0, 0, 0, 0] ++ List.replicate 16 0 ++ [5, 0, 0, 0, 0, 0, 0, 0]

example : let e : Env := ⟨fun _ => 0x1000, bytesAt 0x1000 sysctlBytes, 0, 0⟩
    Checked (osPre 156 e none) 0x2007 ∧ Covered (osPost 156 e none) 0x3004 ∧
      ¬ Covered (osPost 156 e none) 0x3005 := by
  intro e
  have h := fun x => C77_sysctl e none (by decide) 0x2000 2 0x3000 0x1030 0 0 (by decide)
    (by decide) (by decide) (by decide) (by decide) (by decide) (by decide) x
  have h2 := fun x => (h x).2 5 (by decide) (by decide)
  rw [(h _).1, h2, h2]
  unfold In
  omega

/-- The arguments of `_sysctl` are read without a check: the tool itself faults exactly when they are
given and one of the name, its length, the new value and its length cannot be read; after the call,
when it returned zero and the old value or the place of its length cannot be read. -/
theorem C77_sysctl_fault (e : Env) (s : Option Nat) :
    (osPre 156 e s = .fault ↔ e.arg 0 ≠ 0 ∧
      (rdLE e.mem (e.arg 0) 8 = none ∨ rdLE e.mem (e.arg 0 + 8) 4 = none ∨
        rdLE e.mem (e.arg 0 + 32) 8 = none ∨ rdLE e.mem (e.arg 0 + 40) 8 = none)) ∧
    (osPost 156 e s = .fault ↔ e.result = 0 ∧ e.arg 0 ≠ 0 ∧
      (rdLE e.mem (e.arg 0 + 16) 8 = none ∨ rdLE e.mem (e.arg 0 + 24) 8 = none)) := by
  have h1 : osPre 156 e s = preSysctl e := by simp [osPre]
  have h2 : osPost 156 e s = postSysctl e := by simp [osPost]
  rw [h1, h2]
  constructor
  · unfold preSysctl
    by_cases h0 : e.arg 0 = 0
    · simp [h0]
    · rw [if_neg h0]
      cases rdLE e.mem (e.arg 0) 8 <;> cases rdLE e.mem (e.arg 0 + 8) 4 <;>
        cases rdLE e.mem (e.arg 0 + 32) 8 <;> cases rdLE e.mem (e.arg 0 + 40) 8 <;> simp [h0]
  · unfold postSysctl
    by_cases h0 : e.result = 0 ∧ e.arg 0 ≠ 0
    · rw [if_pos h0]
      cases h3 : rdLE e.mem (e.arg 0 + 16) 8 with
      | none => simpa using h0
      | some old =>
        cases h4 : rdLE e.mem (e.arg 0 + 24) 8 with
        | none => simpa using h0
        | some lenp =>
          dsimp only
          by_cases ho : old = 0
          · simp [ho]
          · rw [if_neg ho]
            cases rdLE e.mem lenp 8 <;> simp
    · rw [if_neg h0]
      constructor
      · intro h; exact absurd h (by simp)
      · rintro ⟨a, b, _⟩; exact absurd ⟨a, b⟩ h0

/-- A null structure is not followed by `ioctl`. -/
theorem C77_ioctl_null (e : Env) (s : Option Nat) (h : e.arg 2 = 0) (x : Nat) :
    ¬ Checked (osPre 16 e s) x ∧ ¬ Covered (osPost 16 e s) x := by
  have h1 : osPre 16 e s = .reps [] := by simp [osPre, preIoctl, h]
  have h2 : osPost 16 e s = .reps [] := by simp [osPost, postIoctl, h]
  rw [h1, h2]
  simp [Checked, Covered]

end Verif.SysReq
