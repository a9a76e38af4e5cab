import Verif.SysArgsThms
/-
Property C56 for the Linux table: the table as a whole, all plain parameters of all system
calls, and some system calls for which the marks are wrong.
-/

namespace Verif.SysArgs

/-! ## The whole table -/

/-- Every entry of the Linux table meets the conditions that the walk relies on. -/
theorem C56_table : ∀ s ∈ table, TableOk s := by
  decide +kernel

/-- No two entries of the table have the same number on 64-bit x86, nor on 32-bit x86: the
entry found for a number (drsyscall_linux.c:114-158 puts them in a hash table) is the one
that was written for it. -/
theorem C56_numbers :
    ((table.filter (fun s => decide (0 ≤ s.n64))).map (fun s => s.n64.toNat)).Nodup ∧
    ((table.filter (fun s => decide (0 ≤ s.n32))).map (fun s => s.n32.toNat)).Nodup := by
  decide +kernel

example : table.length = 395 := by decide +kernel

/-! ## Every plain parameter of every system call -/

/-- Before the call: for a plain parameter exactly one range is passed to the client, if the
parameter is not null and its first entry stands for at least one byte; it starts at the
parameter's value and has the length of the first entry. -/
theorem C56_pre {s : Sys} (hs : s ∈ table) {p : Nat} (hp : Plain s.args p) (e : Env) (st : St)
    (r : Rep) :
    (r ∈ (preTable e s.args st).1 ∧ r.ord = p) ↔
      ∃ a, s.args.find? (fun a => a.param == p) = some a ∧ a.fl.inlined = false ∧
        e.arg p ≠ 0 ∧ 0 < Count e true s.args a ∧
        r = ⟨p, a.fl.r, a.fl.w, e.arg p, shown (Count e true s.args a)⟩ :=
  (pre_param (C56_table s hs) hp e st).1 r

/-- After a call: for a plain written parameter exactly one range is marked, with the length
of the last entry, cut to the length stored before the call; if the last of two entries gives
no bytes, the first one is used instead. -/
theorem C56_post {s : Sys} (hs : s ∈ table) {p : Nat} (hp : Plain s.args p)
    (hw : ∀ a ∈ s.args, a.param = p → a.fl.w = true) (e : Env) (st : St) (r : Rep) :
    (r ∈ postTable e s.args st ∧ r.ord = p) ↔
      ∃ a, (s.args.filter (fun a => a.param == p)).getLast? = some a ∧ e.arg p ≠ 0 ∧
        0 < Written e s.args (st.known p) (s.args.filter (fun a => a.param == p)) ∧
        r = ⟨p, a.fl.r, a.fl.w, e.arg p,
          Written e s.args (st.known p) (s.args.filter (fun a => a.param == p))⟩ :=
  post_param (C56_table s hs) hp e st hw r

theorem written_le (e : Env) (args : List Arg) (k : Nat) (l : List Arg) :
    Written e args k l ≤ k := by
  unfold Written
  split
  · exact Nat.min_le_right _ _
  · split <;> exact Nat.min_le_right _ _
  · omega

/-- Nothing is marked after a call that was not passed to the client before it: the marked
range starts where the one before the call starts and is not longer. -/
theorem C56_within {s : Sys} (hs : s ∈ table) {p : Nat} (hp : Plain s.args p)
    (hw : ∀ a ∈ s.args, a.param = p → a.fl.w = true) (e1 e2 : Env) (harg : e2.arg = e1.arg)
    (st : St) (hmax : ∀ a ∈ s.args, Count e1 true s.args a ≠ 2 ^ 64 - 1)
    {r : Rep} (hr : r ∈ postTable e2 s.args (preTable e1 s.args st).2) (hro : r.ord = p) :
    ∃ q ∈ (preTable e1 s.args st).1, q.ord = p ∧ q.w = true ∧ q.start = r.start ∧
      r.size ≤ q.size := by
  obtain ⟨b, hb, hne, hpos, hreq⟩ := (C56_post hs hp hw e2 _ r).1 ⟨hr, hro⟩
  have hfind := List.head?_filter (p := fun a : Arg => a.param == p) (l := s.args)
  cases hG : s.args.filter (fun a => a.param == p) with
  | nil => rw [hG] at hb; cases hb
  | cons a l =>
    rw [hG] at hfind
    have ha : a ∈ s.args.filter (fun a => a.param == p) := by rw [hG]; exact List.mem_cons_self
    obtain ⟨ham, hap⟩ := List.mem_filter.1 ha
    have hap : a.param = p := by simpa using hap
    have haw := hw a ham hap
    have hinl : a.fl.inlined = false :=
      ((C56_table s hs).2.2.2 a ham).2.2.1.2.2.2.2.1 haw
    have hk := (pre_param (C56_table s hs) hp e1 st).2 a hfind.symm hinl
    have hle := written_le e2 s.args ((preTable e1 s.args st).2.known p)
      (s.args.filter (fun a => a.param == p))
    rw [hk] at hle hpos hreq
    have hq := (C56_pre hs hp e1 st ⟨p, a.fl.r, a.fl.w, e1.arg p,
      shown (Count e1 true s.args a)⟩).2 ⟨a, hfind.symm, hinl, by rw [← harg]; exact hne,
        by omega, rfl⟩
    refine ⟨_, hq.1, rfl, haw, ?_, ?_⟩
    · rw [hreq]; show e1.arg p = e2.arg p; rw [harg]
    · rw [hreq]
      show Written _ _ _ _ ≤ shown _
      unfold shown
      rw [if_neg (hmax a ham)]
      exact hle

/-- A failed call marks nothing that the table describes. -/
theorem C56_failed (s : Sys) (h : s.n64 ≠ 9 ∧ s.n64 ≠ 25) (e : Env) (self : Bool) (st : St)
    (hf : 2 ^ 63 ≤ e.result) :
    postMemargs s.n64 s.args e self st = osPost s.n64 e self := by
  unfold postMemargs succeeded
  have h1 : ¬ (s.n64 = 9 ∨ s.n64 = 25) := by omega
  have h2 : decide (e.result < 2 ^ 63) = false := by simp; omega
  rw [if_neg h1, h2]
  rfl

/-! ## Sizes taken from the result -/

/-- A parameter with two entries of which the second takes its size from the result
(`read`, `readlink`, `getdents`, `getcwd`, the `xattr` calls, `epoll_wait`): if the result is
positive, the marked range has the length that the result stands for, cut to the length
before the call. -/
theorem C56_result {s : Sys} (hs : s ∈ table) {p : Nat} (hp : Plain s.args p)
    (hw : ∀ a ∈ s.args, a.param = p → a.fl.w = true) {a b : Arg}
    (hG : s.args.filter (fun a => a.param == p) = [a, b])
    (e1 e2 : Env) (harg : e2.arg = e1.arg) (st : St) (hp0 : e1.arg p ≠ 0)
    (hcap : 0 < Count e1 true s.args a) (hpos : 0 < Count e2 false s.args b) (r : Rep) :
    (r ∈ postTable e2 s.args (preTable e1 s.args st).2 ∧ r.ord = p) ↔
      r = ⟨p, b.fl.r, true, e1.arg p,
        min (Count e2 false s.args b) (Count e1 true s.args a)⟩ := by
  have hfind := List.head?_filter (p := fun a : Arg => a.param == p) (l := s.args)
  rw [hG] at hfind
  have ha : a ∈ s.args.filter (fun a => a.param == p) := by rw [hG]; exact List.mem_cons_self
  have hbm : b ∈ s.args.filter (fun a => a.param == p) := by rw [hG]; simp
  obtain ⟨ham, hap⟩ := List.mem_filter.1 ha
  obtain ⟨hbm, hbp⟩ := List.mem_filter.1 hbm
  have hap : a.param = p := by simpa using hap
  have hbp : b.param = p := by simpa using hbp
  have hinl : a.fl.inlined = false :=
    ((C56_table s hs).2.2.2 a ham).2.2.1.2.2.2.2.1 (hw a ham hap)
  have hk := (pre_param (C56_table s hs) hp e1 st).2 a hfind.symm hinl
  have hW : Written e2 s.args ((preTable e1 s.args st).2.known p) [a, b] =
      min (Count e2 false s.args b) (Count e1 true s.args a) := by
    rw [Written, hk, if_neg (by omega)]
  rw [C56_post hs hp hw, hG, hW, harg]
  constructor
  · rintro ⟨c, hc, _, _, hr⟩
    have hc : b = c := by simpa using hc
    rw [hr, ← hc, hw b hbm hbp]
  · intro hr
    refine ⟨b, rfl, hp0, by omega, ?_⟩
    rw [hr, hw b hbm hbp]

/-- If the result is 0 (end of file, end of directory, time-out), the whole range of the first
entry is marked. -/
theorem C56_result_zero {s : Sys} (hs : s ∈ table) {p : Nat} (hp : Plain s.args p)
    (hw : ∀ a ∈ s.args, a.param = p → a.fl.w = true) {a b : Arg}
    (hG : s.args.filter (fun a => a.param == p) = [a, b]) (hb : b.size = RET)
    (e1 e2 : Env) (harg : e2.arg = e1.arg) (st : St) (hp0 : e1.arg p ≠ 0)
    (hsame : Count e2 false s.args a = Count e1 true s.args a)
    (hcap : 0 < Count e1 true s.args a) (hzero : e2.result = 0) :
    ⟨p, b.fl.r, true, e1.arg p, Count e1 true s.args a⟩ ∈
      postTable e2 s.args (preTable e1 s.args st).2 := by
  have hfind := List.head?_filter (p := fun a : Arg => a.param == p) (l := s.args)
  rw [hG] at hfind
  have ha : a ∈ s.args.filter (fun a => a.param == p) := by rw [hG]; exact List.mem_cons_self
  have hbm : b ∈ s.args.filter (fun a => a.param == p) := by rw [hG]; simp
  obtain ⟨ham, hap⟩ := List.mem_filter.1 ha
  obtain ⟨hbm, hbp⟩ := List.mem_filter.1 hbm
  have hap : a.param = p := by simpa using hap
  have hbp : b.param = p := by simpa using hbp
  have hinl : a.fl.inlined = false :=
    ((C56_table s hs).2.2.2 a ham).2.2.1.2.2.2.2.1 (hw a ham hap)
  have hk := (pre_param (C56_table s hs) hp e1 st).2 a hfind.symm hinl
  have hz : Count e2 false s.args b = 0 := by
    unfold Count
    dsimp only
    rw [if_pos hb]
    simp only [Bool.false_eq_true, if_false, hzero]
    split <;> simp
  have hW : Written e2 s.args ((preTable e1 s.args st).2.known p) [a, b] =
      Count e1 true s.args a := by
    rw [Written, hk, if_pos (by rw [hz]; exact Nat.zero_min _), hsame, Nat.min_self]
  refine ((C56_post hs hp hw e2 _ _).2 ⟨b, by rw [hG]; rfl, by rw [harg]; exact hp0, ?_, ?_⟩).1
  · rw [hG, hW]; exact hcap
  · rw [hG, hW, harg, hw b hbm hbp]

/-! ## `read` -/

/-- drsyscall/table_linux.c:50-55 — the entry of `read`. -/
def readSys : Sys := ⟨0, 3, "read", 3, [⟨1, -2, Tab.W, .plain⟩, ⟨1, RET, Tab.W, .plain⟩]⟩

theorem readSys_mem : readSys ∈ table := by decide +kernel

theorem readSys_plain : Plain readSys.args 1 := by
  intro a ha _
  simp [readSys, Tab.W] at ha
  rcases ha with rfl | rfl <;> exact ⟨rfl, rfl⟩

theorem readSys_w : ∀ a ∈ readSys.args, a.param = 1 → a.fl.w = true := by
  intro a ha _
  simp [readSys, Tab.W] at ha
  rcases ha with rfl | rfl <;> rfl

theorem post_mem {e args st r} (h : r ∈ postTable e args st) : ∃ a ∈ args, a.param = r.ord := by
  apply Classical.byContradiction
  intro hn
  exact postLoop_other e args st r.ord args 0 none 0 (fun a ha he => hn ⟨a, ha, he⟩) r h rfl

theorem read_ord {e st r} (h : r ∈ postTable e readSys.args st) : r.ord = 1 := by
  obtain ⟨a, ha, hr⟩ := post_mem h
  simp [readSys] at ha
  rcases ha with rfl | rfl <;> exact hr.symm

/-- The bytes of a range. -/
def Covers (r : Rep) (x : Nat) : Prop := r.start ≤ x ∧ x < r.start + r.size

/-- `read(fd, buf, count)` that returns `n`, `0 < n ≤ count`: exactly the `n` bytes that the
kernel has written are marked. -/
theorem C56_read_exact_partial (e1 e2 : Env) (harg : e2.arg = e1.arg) (st : St)
    (hbuf : e1.arg 1 ≠ 0) (hn : 0 < e2.result) (hle : e2.result ≤ e1.arg 2) (x : Nat) :
    (∃ r ∈ postTable e2 readSys.args (preTable e1 readSys.args st).2, Covers r x) ↔
      e1.arg 1 ≤ x ∧ x < e1.arg 1 + e2.result := by
  have h := C56_result readSys_mem readSys_plain readSys_w (a := ⟨1, -2, Tab.W, .plain⟩)
    (b := ⟨1, RET, Tab.W, .plain⟩) rfl e1 e2 harg st hbuf
  have c1 : Count e1 true readSys.args ⟨1, -2, Tab.W, .plain⟩ = e1.arg 2 := rfl
  have c2 : Count e2 false readSys.args ⟨1, RET, Tab.W, .plain⟩ = e2.result := rfl
  rw [c1, c2] at h
  have h := h (by omega) hn
  constructor
  · rintro ⟨r, hr, hc⟩
    have := (h r).1 ⟨hr, read_ord hr⟩
    rw [this, Nat.min_eq_left hle] at hc
    exact hc
  · intro hx
    refine ⟨_, ((h _).2 rfl).1, ?_⟩
    rw [Nat.min_eq_left hle]
    exact hx

/-- The same does not hold for `n = 0`: at end of file all `count` bytes of the buffer are
marked as defined, although the kernel has written none. -/
theorem C56_read_eof (e1 e2 : Env) (harg : e2.arg = e1.arg) (st : St)
    (hbuf : e1.arg 1 ≠ 0) (hc : 0 < e1.arg 2) (hn : e2.result = 0) (x : Nat) :
    (∃ r ∈ postTable e2 readSys.args (preTable e1 readSys.args st).2, Covers r x) ↔
      e1.arg 1 ≤ x ∧ x < e1.arg 1 + e1.arg 2 := by
  have hz := C56_result_zero readSys_mem readSys_plain readSys_w (a := ⟨1, -2, Tab.W, .plain⟩)
    (b := ⟨1, RET, Tab.W, .plain⟩) rfl rfl e1 e2 harg st hbuf
    (by show e2.arg 2 = e1.arg 2; rw [harg]) hc hn
  have c1 : Count e1 true readSys.args ⟨1, -2, Tab.W, .plain⟩ = e1.arg 2 := rfl
  rw [c1] at hz
  constructor
  · rintro ⟨r, hr, hcov⟩
    obtain ⟨_, _, _, _, hreq⟩ := (C56_post readSys_mem readSys_plain readSys_w e2 _ r).1
      ⟨hr, read_ord hr⟩
    have hk := (pre_param (C56_table _ readSys_mem) readSys_plain e1 st).2
      ⟨1, -2, Tab.W, .plain⟩ rfl rfl
    rw [c1] at hk
    have hle := written_le e2 readSys.args ((preTable e1 readSys.args st).2.known 1)
      (readSys.args.filter (fun a => a.param == 1))
    rw [hk] at hle hreq
    rw [hreq] at hcov
    have h1 : e2.arg 1 ≤ x := hcov.1
    have h2 : x < e2.arg 1 + Written e2 readSys.args (e1.arg 2)
      (readSys.args.filter (fun a => a.param == 1)) := hcov.2
    rw [harg] at h1 h2
    omega
  · intro hx
    exact ⟨_, hz, hx⟩

/-- Not vacuous: a read of 10 bytes into a buffer of 100, and end of file. -/
def readEnv (res : Nat) : Env :=
  { arg := fun i => if i = 1 then 0x5000 else if i = 2 then 100 else 3,
    mem := fun _ => none, result := res }

example : postTable (readEnv 10) readSys.args (preTable (readEnv 0) readSys.args ⟨fun _ => 0, 0, 0, 0⟩).2 =
    [⟨1, false, true, 0x5000, 10⟩] := by decide +kernel

example : postTable (readEnv 0) readSys.args (preTable (readEnv 0) readSys.args ⟨fun _ => 0, 0, 0, 0⟩).2 =
    [⟨1, false, true, 0x5000, 100⟩] := by decide +kernel

/-! ## Other system calls whose marks differ from what the kernel writes -/

/-- drsyscall/table_linux.c:1190-1197 — the entry of `recvfrom` (also `recv`). -/
def recvfromSys : Sys := ⟨45, -1, "recvfrom", 6, [⟨1, -2, Tab.W, .plain⟩,
  ⟨4, -5, Tab.WIC, .sockaddr⟩, ⟨5, 4, Tab.RWP, .plain⟩]⟩

theorem recvfromSys_mem : recvfromSys ∈ table := by decide +kernel

/-- `recvfrom(fd, buf, len, …)`: the whole buffer is marked as defined whatever the number of
bytes received. -/
theorem C56_recvfrom_short (e1 e2 : Env) (harg : e2.arg = e1.arg) (st : St)
    (hbuf : e1.arg 1 ≠ 0) (hlen : 0 < e1.arg 2) :
    ⟨1, false, true, e1.arg 1, e1.arg 2⟩ ∈
      postTable e2 recvfromSys.args (preTable e1 recvfromSys.args st).2 := by
  have hp : Plain recvfromSys.args 1 := by
    intro a ha h1
    simp [recvfromSys] at ha
    rcases ha with rfl | rfl | rfl
    · exact ⟨rfl, rfl⟩
    · cases h1
    · cases h1
  have hw : ∀ a ∈ recvfromSys.args, a.param = 1 → a.fl.w = true := by
    intro a ha h1
    simp [recvfromSys] at ha
    rcases ha with rfl | rfl | rfl
    · rfl
    · cases h1
    · cases h1
  have hk := (pre_param (C56_table _ recvfromSys_mem) hp e1 st).2 ⟨1, -2, Tab.W, .plain⟩ rfl rfl
  have c1 : Count e1 true recvfromSys.args ⟨1, -2, Tab.W, .plain⟩ = e1.arg 2 := rfl
  have hW : Written e2 recvfromSys.args (e1.arg 2) (recvfromSys.args.filter (fun a => a.param == 1))
      = e1.arg 2 := by
    show min (e2.arg 2) (e1.arg 2) = e1.arg 2
    rw [harg, Nat.min_self]
  rw [c1] at hk
  refine ((C56_post recvfromSys_mem hp hw e2 _ _).2 ⟨⟨1, -2, Tab.W, .plain⟩, rfl,
    by rw [harg]; exact hbuf, ?_, ?_⟩).1
  · rw [hk, hW]; exact hlen
  · rw [hk, hW, harg]; rfl

/-- `recvfrom(fd, buf, len, flags, NULL, p)`: before the call the length at `p` is ignored
because the address is null; after it, four bytes at `p` are marked as written all the same,
though the kernel does not touch them (and an unaddressable `p` is reported as an error). -/
theorem C56_recvfrom_null :
    ∃ e1 e2 : Env, ∃ st : St, e1.arg = e2.arg ∧ e1.arg 4 = 0 ∧ e1.arg 5 = 0x7000 ∧
      (∀ r ∈ (preTable e1 recvfromSys.args st).1, r.ord ≠ 5) ∧
      ⟨5, true, true, 0x7000, 4⟩ ∈
        postTable e2 recvfromSys.args (preTable e1 recvfromSys.args st).2 := by
  refine ⟨⟨fun i => if i = 1 then 0x5000 else if i = 2 then 100 else if i = 5 then 0x7000 else 0,
    fun _ => none, 0, 0⟩, ⟨fun i => if i = 1 then 0x5000 else if i = 2 then 100 else
      if i = 5 then 0x7000 else 0, fun _ => none, 7, 0⟩, ⟨fun _ => 0, 0, 0, 0⟩, rfl, rfl, rfl,
    by decide +kernel, by decide +kernel⟩

/-- drsyscall/table_linux.c:1177-1183 — the entry of `accept`. -/
def acceptSys : Sys := ⟨43, -1, "accept", 3, [⟨1, -2, Tab.WIC, .sockaddr⟩, ⟨2, 4, Tab.WT, .plain⟩]⟩

theorem acceptSys_mem : acceptSys ∈ table := by decide +kernel

/-- `accept(fd, addr, len)`: the length is read by the kernel, but it is only checked for
being addressable, whatever the options are. -/
theorem C56_accept_len (e : Env) (st : St) (uninit : Bool) :
    ∀ r ∈ (preTable e acceptSys.args st).1, r.ord = 2 → act uninit true r = .checkAddressable := by
  intro r hr hro
  have hp : Plain acceptSys.args 2 := by
    intro a ha h1
    simp [acceptSys] at ha
    rcases ha with rfl | rfl
    · cases h1
    · exact ⟨rfl, rfl⟩
  obtain ⟨a, ha, _, _, _, hreq⟩ := (C56_pre acceptSys_mem hp e st r).1 ⟨hr, hro⟩
  cases ha
  rw [hreq]
  cases uninit <;> rfl

/-- drsyscall/table_linux.c:492-493 — `readv` and `writev` have no entries: whatever memory the
vectors describe, nothing is checked before and nothing is marked after the call, and the call
is not treated as unknown either. -/
theorem C56_readv (e1 e2 : Env) (self : Bool) (st : St) (n : Int) (hn : n = 19 ∨ n = 20) :
    (∃ s ∈ table, s.n64 = n ∧ s.args = []) ∧
    (∀ s ∈ table, s.n64 = n → (preMemargs n s.args e1 self st).1 = [] ∧
      postMemargs n s.args e2 self st = []) := by
  have hall : ∀ s ∈ table, s.n64 = 19 ∨ s.n64 = 20 → s.args = [] := by decide +kernel
  have hex : (∃ s ∈ table, s.n64 = 19 ∧ s.args = []) ∧ (∃ s ∈ table, s.n64 = 20 ∧ s.args = []) := by
    decide +kernel
  refine ⟨?_, ?_⟩
  · rcases hn with rfl | rfl
    · exact hex.1
    · exact hex.2
  · intro s hs hsn
    rw [hall s hs (by omega)]
    unfold preMemargs postMemargs
    rcases hn with rfl | rfl
    · refine ⟨rfl, ?_⟩
      split <;> rfl
    · refine ⟨rfl, ?_⟩
      split <;> rfl

/-- `capget`: the table takes the size of the pointer types `cap_user_header_t` and
`cap_user_data_t`, so that at most 8 of the 24 bytes that the kernel writes are marked. -/
theorem C56_capget (e : Env) (st : St) : ∃ s ∈ table, s.n64 = 125 ∧
    ∀ r ∈ postTable e s.args st, r.size ≤ 8 := by
  refine ⟨⟨125, 184, "capget", 2, [⟨0, 8, Tab.R, .plain⟩, ⟨1, 8, Tab.W, .plain⟩]⟩,
    by decide +kernel, rfl, ?_⟩
  intro r hr
  have hm : (⟨125, 184, "capget", 2, [⟨0, 8, Tab.R, .plain⟩, ⟨1, 8, Tab.W, .plain⟩]⟩ : Sys) ∈ table := by
    decide +kernel
  simp only [postTable, postLoop] at hr
  simp [invalid, Tab.R, Tab.W, MAX_ARGS, zeroArg] at hr
  rw [postArg_plain rfl rfl rfl] at hr
  rcases hr with hr
  split at hr
  · simp at hr
    rw [hr]
    show min (getSize e false _ 1 _) _ ≤ 8
    exact Nat.le_trans (Nat.min_le_left _ _) (by simp [getSize, RET])
  · cases hr

/-- `read(fd, buf, (size_t) -1)`: the count is mistaken for the marker of a string and the
range passed to the client is empty. -/
theorem C56_all_ones (e : Env) (st : St) (hbuf : e.arg 1 ≠ 0) (hc : e.arg 2 = 2 ^ 64 - 1) :
    ⟨1, false, true, e.arg 1, 0⟩ ∈ (preTable e readSys.args st).1 := by
  refine ((C56_pre readSys_mem readSys_plain e st _).2
    ⟨⟨1, -2, Tab.W, .plain⟩, rfl, rfl, hbuf, ?_, ?_⟩).1
  · show 0 < e.arg 2; omega
  · show _ = Rep.mk 1 false true (e.arg 1) (shown (e.arg 2))
    rw [hc]; rfl

/-- When a system call counts as successful: `mmap` and `mremap` return addresses, of which only the last
page means an error; for all others the sign bit does. -/
theorem C56_success (n : Int) (e : Env) :
    succeeded n e = true ↔
      if n = 9 ∨ n = 25 then e.result < 2 ^ 64 - 4096 else e.result < 2 ^ 63 := by
  unfold succeeded
  split <;> simp

/-- What the tool does with a reported range: before the call it is checked, for definedness exactly if the
kernel reads it (also if it writes it too) and uninitialised reads are looked for; after the call it is
marked as defined. -/
theorem C56_act (uninit : Bool) (r : Rep) :
    (act uninit true r = .checkDefined ↔ uninit = true ∧ r.r = true) ∧
    (act uninit true r = .checkAddressable ↔ ¬ (uninit = true ∧ r.r = true)) ∧
    act uninit false r = .write := by
  unfold act
  cases uninit <;> cases r.r <;> simp

end Verif.SysArgs
