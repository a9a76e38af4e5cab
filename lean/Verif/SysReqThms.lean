import Verif.SysReq
import Verif.SysLinuxThms
/-
Property C77: the system calls that carry a request code, on 64-bit x86 Linux — what is
checked before the call and what counts as written after it, against what the kernel reads and
writes for that request.
-/

namespace Verif.SysReq
open Verif.SysArgs (Env Rep rdLE sext32 StrAt)

/-! ## Specification -/

/-- The bytes `[a, a + n)`. -/
def In (a n x : Nat) : Prop := a ≤ x ∧ x < a + n

/-- The byte is checked for being defined: it lies in a range reported as read. -/
def Checked (o : Out) (x : Nat) : Prop :=
  ∃ l, o = .reps l ∧ ∃ r ∈ l, r.r = true ∧ In r.start r.size x

/-- The byte lies in a reported range: before the call it is at least checked for being
addressable, after the call it counts as written. -/
def Covered (o : Out) (x : Nat) : Prop :=
  ∃ l, o = .reps l ∧ ∃ r ∈ l, In r.start r.size x

/-- One documented request: number of the system call, parameter with the request, request,
whether the kernel writes the buffer (or reads it), parameter with its address, its size. -/
structure Row where
  call : Nat
  reqArg : Nat
  req : Nat
  writes : Bool
  buf : Nat
  size : Nat
deriving DecidableEq, Repr

/-- man 2 shmctl, msgctl, prctl; the structures of <sys/shm.h> and <sys/msg.h> on x86-64. -/
def rows : List Row :=
  [⟨31, 1, 2, true, 2, 112⟩,   -- shmctl IPC_STAT
   ⟨31, 1, 13, true, 2, 112⟩,  -- shmctl SHM_STAT
   ⟨31, 1, 3, true, 2, 72⟩,    -- shmctl IPC_INFO, struct shminfo
   ⟨71, 1, 1, false, 2, 120⟩,  -- msgctl IPC_SET
   ⟨71, 1, 2, true, 2, 120⟩,   -- msgctl IPC_STAT
   ⟨71, 1, 11, true, 2, 120⟩,  -- msgctl MSG_STAT
   ⟨71, 1, 3, true, 2, 32⟩,    -- msgctl IPC_INFO
   ⟨71, 1, 12, true, 2, 32⟩,   -- msgctl MSG_INFO
   ⟨157, 0, 2, true, 1, 4⟩,    -- prctl PR_GET_PDEATHSIG
   ⟨157, 0, 5, true, 1, 4⟩,    -- prctl PR_GET_UNALIGN
   ⟨157, 0, 9, true, 1, 4⟩,    -- prctl PR_GET_FPEMU
   ⟨157, 0, 11, true, 1, 4⟩,   -- prctl PR_GET_FPEXC
   ⟨157, 0, 19, true, 1, 4⟩,   -- prctl PR_GET_ENDIAN
   ⟨157, 0, 25, true, 1, 4⟩,   -- prctl PR_GET_TSC
   ⟨157, 0, 16, true, 1, 16⟩]  -- prctl PR_GET_NAME

/-- Two requests of `shmctl` that come out differently: see `C77_shm_set`, `C77_shm_info`. -/
def shmRows : List Row :=
  [⟨31, 1, 1, false, 2, 112⟩,  -- shmctl IPC_SET
   ⟨31, 1, 14, true, 2, 48⟩]   -- shmctl SHM_INFO, struct shm_info

/-- man 2 semctl: the commands with a buffer of fixed size, passed in the fourth parameter
itself. -/
def semRows : List Row :=
  [⟨66, 2, 1, false, 3, 104⟩,  -- semctl IPC_SET
   ⟨66, 2, 2, true, 3, 104⟩,   -- semctl IPC_STAT
   ⟨66, 2, 18, true, 3, 104⟩,  -- semctl SEM_STAT
   ⟨66, 2, 3, true, 3, 40⟩,    -- semctl IPC_INFO
   ⟨66, 2, 19, true, 3, 40⟩]   -- semctl SEM_INFO

/-- The event carries this request: the low half of the parameter is it. -/
def Row.is (w : Row) (e : Env) : Prop := u32 (e.arg w.reqArg) = w.req

/-! ## Helpers -/

theorem covered_one (r : Rep) (x : Nat) : Covered (.reps [r]) x ↔ In r.start r.size x := by
  constructor
  · rintro ⟨l, h, r', h', hx⟩
    cases h
    rw [List.mem_singleton] at h'
    rw [← h']; exact hx
  · intro h
    exact ⟨_, rfl, r, List.mem_singleton.2 rfl, h⟩

theorem checked_one (r : Rep) (x : Nat) :
    Checked (.reps [r]) x ↔ r.r = true ∧ In r.start r.size x := by
  constructor
  · rintro ⟨l, h, r', h', hx⟩
    cases h
    rw [List.mem_singleton] at h'
    rw [← h']; exact hx
  · intro h
    exact ⟨_, rfl, r, List.mem_singleton.2 rfl, h⟩

theorem not_covered_nil (x : Nat) : ¬ Covered (.reps []) x := by
  rintro ⟨l, h, r, h', _⟩
  cases h; cases h'

theorem not_checked_nil (x : Nat) : ¬ Checked (.reps []) x := by
  rintro ⟨l, h, r, h', _⟩
  cases h; cases h'

theorem checked_cons (r : Rep) (l : List Rep) (x : Nat) :
    Checked (.reps (r :: l)) x ↔ (r.r = true ∧ In r.start r.size x) ∨ Checked (.reps l) x := by
  constructor
  · rintro ⟨l', h, r', h', hx⟩
    cases h
    rcases List.mem_cons.1 h' with h' | h'
    · left; rw [← h']; exact hx
    · right; exact ⟨_, rfl, r', h', hx⟩
  · rintro (h | ⟨l', h, r', h', hx⟩)
    · exact ⟨_, rfl, r, List.mem_cons_self, h⟩
    · cases h
      exact ⟨_, rfl, r', List.mem_cons_of_mem _ h', hx⟩

theorem covered_cons (r : Rep) (l : List Rep) (x : Nat) :
    Covered (.reps (r :: l)) x ↔ In r.start r.size x ∨ Covered (.reps l) x := by
  constructor
  · rintro ⟨l', h, r', h', hx⟩
    cases h
    rcases List.mem_cons.1 h' with h' | h'
    · left; rw [← h']; exact hx
    · right; exact ⟨_, rfl, r', h', hx⟩
  · rintro (h | ⟨l', h, r', h', hx⟩)
    · exact ⟨_, rfl, r, List.mem_cons_self, h⟩
    · cases h
      exact ⟨_, rfl, r', List.mem_cons_of_mem _ h', hx⟩

theorem failed_iff (e : Env) : failed e = true ↔ 2 ^ 63 ≤ e.result := by
  unfold failed; exact decide_eq_true_iff

theorem failed_false {e : Env} (h : e.result < 2 ^ 63) : failed e = false := by
  unfold failed; exact decide_eq_false (by omega)

/-- Before the call: the one range of the request. -/
theorem rows_pre {w : Row} (hw : w ∈ rows) (e : Env) (s : Option Nat) (h : w.is e) :
    osPre w.call e s = .reps [⟨w.buf, !w.writes, w.writes, e.arg w.buf, w.size⟩] := by
  unfold rows at hw
  simp only [List.mem_cons, List.not_mem_nil, or_false] at hw
  unfold Row.is at h
  rcases hw with rfl | rfl | rfl | rfl | rfl | rfl | rfl | rfl | rfl | rfl | rfl | rfl | rfl |
    rfl | rfl <;> dsimp only at h ⊢ <;>
    simp [osPre, shmctl, msgctl, prePrctl, rep, h]

/-- After a call that succeeded: the range if it is written. -/
theorem rows_post {w : Row} (hw : w ∈ rows) (e : Env) (s : Option Nat) (h : w.is e)
    (hr : e.result < 2 ^ 63) :
    osPost w.call e s =
      .reps (if w.writes then [⟨w.buf, false, true, e.arg w.buf, w.size⟩] else []) := by
  have hf := failed_false hr
  unfold rows at hw
  simp only [List.mem_cons, List.not_mem_nil, or_false] at hw
  unfold Row.is at h
  rcases hw with rfl | rfl | rfl | rfl | rfl | rfl | rfl | rfl | rfl | rfl | rfl | rfl | rfl |
    rfl | rfl <;> dsimp only at h ⊢ <;>
    simp [osPost, shmctl, msgctl, postPrctl, rep, h, hf]

/-! ## Requests with one buffer -/

/-- For the documented requests of `shmctl` (other than `IPC_SET` and `SHM_INFO`), `msgctl` and
`prctl` (other than `PR_SET_NAME`): before the call exactly the bytes of the buffer are checked
for being addressable, and for being defined exactly if the kernel reads it; after a call that
succeeded exactly the bytes that the kernel writes count as written. -/
theorem C77_request_partial {w : Row} (hw : w ∈ rows) (e : Env) (s : Option Nat) (h : w.is e)
    (x : Nat) :
    (Covered (osPre w.call e s) x ↔ In (e.arg w.buf) w.size x) ∧
    (Checked (osPre w.call e s) x ↔ w.writes = false ∧ In (e.arg w.buf) w.size x) ∧
    (e.result < 2 ^ 63 →
      (Covered (osPost w.call e s) x ↔ w.writes = true ∧ In (e.arg w.buf) w.size x)) := by
  refine ⟨?_, ?_, ?_⟩
  · rw [rows_pre hw e s h, covered_one]
  · rw [rows_pre hw e s h, checked_one]
    simp
  · intro hr
    rw [rows_post hw e s h hr]
    cases hb : w.writes
    · simp only [Bool.false_eq_true, if_false, false_and, iff_false]
      exact not_covered_nil x
    · simp only [if_true, true_and]
      rw [covered_one]

/-- `msgctl(IPC_SET)`: the 120 bytes of the structure have to be defined. -/
example (e : Env) (s : Option Nat) (h1 : e.arg 1 = 1) (h2 : e.arg 2 = 0x1000) :
    Checked (osPre 71 e s) 0x1077 ∧ ¬ Checked (osPre 71 e s) 0x1078 := by
  have hw : (⟨71, 1, 1, false, 2, 120⟩ : Row) ∈ rows := by decide
  have h := fun x => (C77_request_partial hw e s (by show u32 (e.arg 1) = 1; rw [h1]; rfl) x).2.1
  dsimp only at h
  rw [h, h, h2]
  refine ⟨⟨rfl, ?_⟩, fun hx => ?_⟩
  · unfold In; omega
  · have := hx.2; unfold In at this; omega

/-- A request of `shmctl`, `msgctl` or `prctl` that is in none of the tables: nothing is
reported, before or after. -/
theorem C77_other_request (e : Env) (s : Option Nat) {n a : Nat}
    (hn : (n = 31 ∧ a = 1) ∨ (n = 71 ∧ a = 1) ∨ (n = 157 ∧ a = 0 ∧ u32 (e.arg 0) ≠ 15))
    (h : ∀ w ∈ rows ++ shmRows, w.call = n → u32 (e.arg a) ≠ w.req) :
    osPre n e s = .reps [] ∧ osPost n e s = .reps [] := by
  rcases hn with ⟨rfl, rfl⟩ | ⟨rfl, rfl⟩ | ⟨rfl, rfl, h15⟩
  · simp [rows, shmRows] at h
    simp [osPre, osPost, shmctl, h]
  · simp [rows, shmRows] at h
    simp [osPre, osPost, msgctl, h]
  · simp [rows, shmRows] at h
    simp [osPre, osPost, prePrctl, postPrctl, h, h15]

/-- After a call that failed nothing counts as written: `ioctl`, `semctl`, `msgctl`, `shmctl`
and `_sysctl`, and `prctl` other than `PR_GET_NAME`. -/
theorem C77_failed_partial (e : Env) (s : Option Nat) (hr : 2 ^ 63 ≤ e.result) {n : Nat}
    (hn : n ∈ [16, 66, 71, 31, 156, 157]) (h16 : n = 157 → u32 (e.arg 0) ≠ 16) :
    osPost n e s = .reps [] := by
  have hf : failed e = true := (failed_iff e).2 hr
  simp only [List.mem_cons, List.not_mem_nil, or_false] at hn
  rcases hn with rfl | rfl | rfl | rfl | rfl | rfl
  · simp [osPost, postIoctl, hf]
  · simp [osPost, semctl, hf]
  · simp [osPost, msgctl, hf]
  · simp [osPost, shmctl, hf]
  · have h0 : e.result ≠ 0 := by omega
    simp [osPost, postSysctl, h0]
  · simp [osPost, postPrctl, hf, h16 rfl]

/-- `prctl(PR_GET_NAME, p)` that failed: the sixteen bytes at `p` count as written all the
same. -/
theorem C77_get_name_failed (e : Env) (s : Option Nat) (h : u32 (e.arg 0) = 16) (x : Nat) :
    Covered (osPost 157 e s) x ↔ In (e.arg 1) 16 x := by
  have : osPost 157 e s = .reps [⟨1, false, true, e.arg 1, 16⟩] := by
    simp [osPost, postPrctl, rep, h]
  rw [this, covered_one]

/-- Its hypotheses for a call that failed with `EFAULT`. -/
example : ∃ e : Env, 2 ^ 63 ≤ e.result ∧ Covered (osPost 157 e none) 0x1003 := by
  refine ⟨⟨fun i => if i = 0 then 16 else 0x1000, fun _ => none, 2 ^ 64 - 14, 0⟩, by decide, ?_⟩
  rw [C77_get_name_failed _ none (by rfl)]
  show 0x1000 ≤ 0x1003 ∧ 0x1003 < 0x1000 + 16
  omega

/-- `prctl(PR_SET_NAME, p)` where `p` is a string of `k` characters: all sixteen bytes have to be
defined; the kernel reads none after the terminating one. -/
theorem C77_set_name (e : Env) (s : Option Nat) (h : u32 (e.arg 0) = 15) (x : Nat) :
    Checked (osPre 157 e s) x ↔ In (e.arg 1) 16 x := by
  have : osPre 157 e s = .reps [⟨1, true, false, e.arg 1, 16⟩] := by
    simp [osPre, prePrctl, rep, h]
  rw [this, checked_one]
  simp

/-- The name `"ab"` at 0x1000: the byte at 0x1003, which the kernel does not read, is checked. -/
example : ∃ e : Env, StrAt e.mem (e.arg 1) 2 ∧ Checked (osPre 157 e none) 0x1003 := by
  refine ⟨⟨fun i => if i = 0 then 15 else 0x1000,
    fun a => if a = 0x1000 then some 97 else if a = 0x1001 then some 98 else
      if a = 0x1002 then some 0 else none, 0, 0⟩, ?_, ?_⟩
  · refine ⟨?_, by decide⟩
    intro i hi
    have : i = 0 ∨ i = 1 := by omega
    rcases this with rfl | rfl
    · exact ⟨97, by decide, by decide⟩
    · exact ⟨98, by decide, by decide⟩
  · rw [C77_set_name _ none (by rfl)]
    show 0x1000 ≤ 0x1003 ∧ 0x1003 < 0x1000 + 16
    omega

/-- `shmctl(IPC_SET)`: the kernel reads the structure, but no byte is checked for being defined;
the bytes are checked for being addressable only. -/
theorem C77_shm_set (e : Env) (s : Option Nat) (h : u32 (e.arg 1) = 1) (x : Nat) :
    ¬ Checked (osPre 31 e s) x ∧ (Covered (osPre 31 e s) x ↔ In (e.arg 2) 112 x) ∧
    ¬ Covered (osPost 31 e s) x := by
  have h1 : osPre 31 e s = .reps [⟨2, false, true, e.arg 2, 112⟩] := by
    simp [osPre, shmctl, rep, h]
  have h2 : osPost 31 e s = .reps [] := by
    by_cases hf : failed e = true
    · simp [osPost, shmctl, hf]
    · simp [osPost, shmctl, rep, h, hf]
  rw [h1, h2, checked_one, covered_one]
  exact ⟨by simp, Iff.rfl, not_covered_nil x⟩

/-- `shmctl(SHM_INFO)`: the kernel writes the 48 bytes of `struct shm_info`; 72 bytes have to be
addressable, and 72 bytes count as written. -/
theorem C77_shm_info (e : Env) (s : Option Nat) (h : u32 (e.arg 1) = 14) (x : Nat) :
    (Covered (osPre 31 e s) x ↔ In (e.arg 2) 72 x) ∧
    (e.result < 2 ^ 63 → (Covered (osPost 31 e s) x ↔ In (e.arg 2) 72 x)) := by
  have h1 : osPre 31 e s = .reps [⟨2, false, true, e.arg 2, 72⟩] := by
    simp [osPre, shmctl, rep, h]
  refine ⟨by rw [h1, covered_one], fun hr => ?_⟩
  have h2 : osPost 31 e s = .reps [⟨2, false, true, e.arg 2, 72⟩] := by
    simp [osPost, shmctl, rep, h, failed_false hr]
  rw [h2, covered_one]

/-! ## semctl -/

theorem semCmd_of {e : Env} {q : Nat} (h : u32 (e.arg 2) = q) (hq : q < 0x100) :
    semCmd e = q := by
  have h8 : (e.arg 2).testBit 8 = false := by
    rw [Nat.testBit_eq_decide_div_mod_eq]
    apply decide_eq_false
    unfold u32 at h
    omega
  unfold semCmd
  rw [h8, h]
  simp

/-- The fixed-size commands of `semctl`, before the call.  The kernel takes the buffer at the
fourth parameter; the code takes the fourth parameter as the address of a pointer to the buffer.
If the eight bytes there cannot be read the tool itself faults; otherwise the range starts at
the value found there. -/
theorem C77_semctl {w : Row} (hw : w ∈ semRows) (e : Env) (s : Option Nat) (h : w.is e) :
    (rdLE e.mem (e.arg 3) 8 = none → osPre 66 e s = .fault) ∧
    (∀ v x, rdLE e.mem (e.arg 3) 8 = some v →
      (Covered (osPre 66 e s) x ↔ In v w.size x) ∧
      (Checked (osPre 66 e s) x ↔ w.writes = false ∧ In v w.size x) ∧
      (e.result < 2 ^ 63 → (Covered (osPost 66 e s) x ↔ w.writes = true ∧ In v w.size x))) := by
  have key : ∀ v, rdLE e.mem (e.arg 3) 8 = some v →
      osPre 66 e s = .reps [⟨3, !w.writes, w.writes, v, w.size⟩] ∧
      (e.result < 2 ^ 63 → osPost 66 e s =
        .reps (if w.writes then [⟨3, false, true, v, w.size⟩] else [])) := by
    intro v hv
    unfold semRows at hw
    simp only [List.mem_cons, List.not_mem_nil, or_false] at hw
    unfold Row.is at h
    rcases hw with rfl | rfl | rfl | rfl | rfl <;> dsimp only at h <;>
      have hc := semCmd_of h (by decide) <;>
      refine ⟨by simp [osPre, semctl, semPtr, rep, hc, hv], fun hr => ?_⟩ <;>
      have hf := failed_false hr <;>
      simp [osPost, semctl, semPtr, rep, hc, hv, hf]
  constructor
  · intro hv
    unfold semRows at hw
    simp only [List.mem_cons, List.not_mem_nil, or_false] at hw
    unfold Row.is at h
    rcases hw with rfl | rfl | rfl | rfl | rfl <;> dsimp only at h <;>
      have hc := semCmd_of h (by decide) <;>
      simp [osPre, semctl, semPtr, hc, hv]
  · intro v x hv
    rcases key v hv with ⟨k1, k2⟩
    refine ⟨?_, ?_, ?_⟩
    · rw [k1, covered_one]
    · rw [k1, checked_one]; simp
    · intro hr
      rw [k2 hr]
      cases hb : w.writes
      · simp only [Bool.false_eq_true, if_false, false_and, iff_false]
        exact not_covered_nil x
      · simp only [if_true, true_and]
        rw [covered_one]

/-- Memory that is all zero from 0x1000 to 0x1100, the buffer of the next examples. -/
def zeroBuf (a : Nat) : Option Nat := if 0x1000 ≤ a ∧ a < 0x1100 then some 0 else none

/-- `semctl(IPC_STAT)` into a cleared buffer at 0x1000: no byte of the buffer counts as written. -/
theorem C77_semctl_missed : ∃ (e : Env) (w : Row), w ∈ semRows ∧ w.is e ∧ e.result < 2 ^ 63 ∧
    (∀ x, In (e.arg w.buf) w.size x → (e.mem x).isSome) ∧ w.writes = true ∧
    ∀ x, In (e.arg w.buf) w.size x → ¬ Covered (osPost 66 e none) x := by
  let e : Env := ⟨fun i => if i = 2 then 2 else 0x1000, zeroBuf, 0, 0⟩
  have hw : (⟨66, 2, 2, true, 3, 104⟩ : Row) ∈ semRows := by decide
  have his : (⟨66, 2, 2, true, 3, 104⟩ : Row).is e := by rfl
  have h0 : rdLE e.mem (e.arg 3) 8 = some 0 := by decide
  refine ⟨e, ⟨66, 2, 2, true, 3, 104⟩, hw, his, by decide, ?_, rfl, ?_⟩
  · intro x hx
    have h1 : 0x1000 ≤ x ∧ x < 0x1000 + 104 := hx
    show (zeroBuf x).isSome = true
    unfold zeroBuf
    rw [if_pos (by omega)]; rfl
  · intro x hx hc
    have := (((C77_semctl hw e none his).2 0 x h0).2.2 (by decide)).1 hc
    have h1 : 0x1000 ≤ x ∧ x < 0x1000 + 104 := hx
    have h2 : 0 ≤ x ∧ x < 0 + 104 := this.2
    omega

/-- `GETALL` and `SETALL` on a set that exists: asking the kernel for the number of semaphores
writes beyond a local variable of the tool.  On a set for which the question fails, no byte is
covered. -/
theorem C77_semctl_all (e : Env) (hc : u32 (e.arg 2) = 13 ∨ u32 (e.arg 2) = 17) :
    (∀ k, osPre 66 e (some k) = .smash) ∧
    (∀ x, ¬ Covered (osPre 66 e none) x) ∧
    (∀ k, e.result < 2 ^ 63 → u32 (e.arg 2) = 13 → osPost 66 e (some k) = .smash) := by
  refine ⟨?_, ?_, ?_⟩
  · intro k
    rcases hc with h | h <;> have hc := semCmd_of h (by decide) <;>
      simp [osPre, semctl, semAll, ipcSemLen, hc]
  · intro x
    have hn : osPre 66 e none = semAll e none true (decide (u32 (e.arg 2) = 13)) := by
      rcases hc with h | h <;> have hc := semCmd_of h (by decide) <;>
        simp [osPre, semctl, hc, h]
    rw [hn]
    unfold semAll ipcSemLen semPtr
    dsimp only
    cases rdLE e.mem (e.arg 3) 8 with
    | none => rintro ⟨l, h, _⟩; cases h
    | some p =>
      dsimp only
      rintro ⟨l, h, r, hr, hx⟩
      cases h
      simp [rep, u32] at hr
      subst hr
      unfold In at hx
      dsimp only at hx
      omega
  · intro k hr h
    have hc := semCmd_of h (by decide)
    have hf := failed_false hr
    simp [osPost, semctl, semAll, ipcSemLen, hc, hf]

/-- The commands of `semctl` without memory (removal, one semaphore): nothing is reported and
nothing goes wrong. -/
theorem C77_semctl_plain (e : Env) (s : Option Nat)
    (h : u32 (e.arg 2) ∈ [0, 11, 12, 14, 15, 16]) :
    osPre 66 e s = .reps [] ∧ osPost 66 e s = .reps [] := by
  have hc : semCmd e = u32 (e.arg 2) := by
    apply semCmd_of rfl
    simp only [List.mem_cons, List.not_mem_nil, or_false] at h
    omega
  simp only [List.mem_cons, List.not_mem_nil, or_false] at h
  rcases h with h | h | h | h | h | h <;> rw [h] at hc <;> simp [osPre, osPost, semctl, hc]

end Verif.SysReq
