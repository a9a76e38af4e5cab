import Verif.SysArgsProps
/-
Property C57: the system call arguments that have to be followed into memory on Linux —
vectors of buffers, message headers, socket addresses, strings and arrays of strings,
descriptor sets.
-/

namespace Verif.SysArgs

/-! ## Specification -/

/-- The addresses of `n` bytes from `a` on, in order. -/
def span (a n : Nat) : List Nat := (List.range n).map (a + ·)

/-- The addresses of the bytes of a list of ranges, in order. -/
def addrs (l : List Rep) : List Nat := l.flatMap (fun r => span r.start r.size)

/-- Memory holds at `a` the vector `l` of buffers (first byte, length). -/
def IovAt (m : Nat → Option Nat) : Nat → List (Nat × Nat) → Prop
  | _, [] => True
  | a, (b, n) :: t => rdLE m a 8 = some b ∧ rdLE m (a + 8) 8 = some n ∧ IovAt m (a + 16) t

/-- The addresses of all bytes of the buffers, in order. -/
def dataOf (l : List (Nat × Nat)) : List Nat := l.flatMap (fun x => span x.1 x.2)

/-- Total length of the buffers. -/
def lenOf (l : List (Nat × Nat)) : Nat := (l.map (·.2)).sum

/-- A string of `k` bytes before its nul at `a`. -/
def StrAt (m : Nat → Option Nat) (a k : Nat) : Prop :=
  (∀ j, j < k → ∃ c, m (a + j) = some c ∧ c ≠ 0) ∧ m (a + k) = some 0

/-- A null-terminated array at `a` of pointers to strings (address, length). -/
def StrsAt (m : Nat → Option Nat) : Nat → List (Nat × Nat) → Prop
  | a, [] => rdLE m a 8 = some 0
  | a, (s, k) :: t => rdLE m a 8 = some s ∧ s ≠ 0 ∧ StrAt m s k ∧ StrsAt m (a + 8) t

/-! ## Lemmas -/

theorem span_length (a n : Nat) : (span a n).length = n := by simp [span]

theorem mem_span {a n x : Nat} : x ∈ span a n ↔ a ≤ x ∧ x < a + n := by
  unfold span
  rw [List.mem_map]
  constructor
  · rintro ⟨y, hy, rfl⟩
    have := List.mem_range.1 hy
    omega
  · intro h
    exact ⟨x - a, List.mem_range.2 (by omega), by omega⟩

theorem span_take (a n k : Nat) : (span a n).take k = span a (min k n) := by
  unfold span
  rw [← List.map_take, List.take_range]

theorem mem_addrs {l : List Rep} {x : Nat} :
    x ∈ addrs l ↔ ∃ r ∈ l, r.start ≤ x ∧ x < r.start + r.size := by
  unfold addrs
  rw [List.mem_flatMap]
  constructor
  · rintro ⟨r, hr, hx⟩; exact ⟨r, hr, mem_span.1 hx⟩
  · rintro ⟨r, hr, hx⟩; exact ⟨r, hr, mem_span.2 hx⟩

theorem addrs_append (a b : List Rep) : addrs (a ++ b) = addrs a ++ addrs b := by
  simp [addrs]

theorem iovLoop_exact (e : Env) (ord : Nat) (fl : Flags) (limit : Nat) :
    ∀ (l : List (Nat × Nat)) (iov sofar : Nat), IovAt e.mem iov l → sofar ≤ limit →
      sofar + lenOf l < 2 ^ 64 →
      addrs (iovLoop e ord fl limit l.length iov sofar) = (dataOf l).take (limit - sofar) := by
  intro l
  induction l with
  | nil => intro iov sofar _ _ _; simp [iovLoop, addrs, dataOf]
  | cons x l ih =>
    obtain ⟨b, n⟩ := x
    intro iov sofar hat hs htot
    obtain ⟨h1, h2, h3⟩ := hat
    have htot' : sofar + n + lenOf l < 2 ^ 64 := by
      simp only [lenOf, List.map_cons, List.sum_cons] at htot ⊢
      omega
    have hmod : (sofar + n) % 2 ^ 64 = sofar + n := Nat.mod_eq_of_lt (by omega)
    have hdata : dataOf ((b, n) :: l) = span b n ++ dataOf l := rfl
    rw [List.length_cons, iovLoop, h1, h2, hdata]
    dsimp only
    rw [hmod]
    by_cases hd : limit < sofar + n
    · simp only [decide_eq_true hd, if_true]
      rw [List.take_append_of_le_length (by rw [span_length]; omega), span_take,
        Nat.min_eq_left (by omega)]
      split
      · simp [addrs]
      · have : limit - sofar = 0 := by omega
        rw [this]; rfl
    · simp only [decide_eq_false hd, Bool.false_eq_true, if_false]
      rw [hmod, addrs_append, ih (iov + 16) (sofar + n) h3 (by omega) htot',
        List.take_append, span_length]
      congr 1
      · rw [List.take_of_length_le (by rw [span_length]; omega)]
        split
        · simp [addrs]
        · have : n = 0 := by omega
          rw [this]; rfl
      · congr 1; omega

/-! ## Vectors of buffers -/

/-- `check_iov` with a limit: the array itself, and then exactly the first `limit` bytes of
the buffers (all of them if there are fewer). -/
theorem C57_iov (e : Env) (ord : Nat) (fl : Flags) (limit : Nat)
    (l : List (Nat × Nat)) (iov : Nat) (hat : IovAt e.mem iov l) (htot : lenOf l < 2 ^ 64)
    (h0 : iov ≠ 0) (hne : l ≠ []) (hlen : l.length * 16 < 2 ^ 64) :
    addrs (checkIov e ord fl iov l.length limit) =
      span iov (16 * l.length) ++ (dataOf l).take limit := by
  unfold checkIov
  have hl : l.length ≠ 0 := by
    intro h; exact hne (List.length_eq_zero_iff.1 h)
  rw [if_neg (by omega), Nat.mod_eq_of_lt hlen]
  have := iovLoop_exact e ord fl limit l iov 0 hat (Nat.zero_le _) (by omega)
  show span iov (l.length * 16) ++ addrs (iovLoop e ord fl limit l.length iov 0) = _
  rw [this, Nat.mul_comm]
  rfl

theorem dataOf_length (l : List (Nat × Nat)) : (dataOf l).length = lenOf l := by
  induction l with
  | nil => rfl
  | cons x l ih =>
    simp only [dataOf, lenOf, List.flatMap_cons, List.length_append, List.map_cons, List.sum_cons] at ih ⊢
    rw [ih]; simp [span]

theorem iovLoop_flags {e : Env} {ord : Nat} {fl : Flags} {limit : Nat} (n : Nat) :
    ∀ {iov sofar : Nat} {r : Rep}, r ∈ iovLoop e ord fl limit n iov sofar → r.r = fl.r ∧ r.w = fl.w := by
  induction n with
  | zero => intro iov sofar r h; simp [iovLoop] at h
  | succ n ih =>
    intro iov sofar r h
    rw [iovLoop] at h
    split at h
    · dsimp only at h
      split at h
      · split at h
        · rw [List.mem_singleton] at h; subst h; exact ⟨rfl, rfl⟩
        · simp at h
      · rcases List.mem_append.1 h with h | h
        · split at h
          · rw [List.mem_singleton] at h; subst h; exact ⟨rfl, rfl⟩
          · simp at h
        · exact ih h
    · exact ih h

theorem checkIov_flags {e : Env} {ord : Nat} {fl : Flags} {iov n limit : Nat} {r : Rep}
    (h : r ∈ checkIov e ord fl iov n limit) : r.r = fl.r ∧ r.w = fl.w := by
  rw [checkIov] at h
  split at h
  · simp at h
  · rcases List.mem_cons.1 h with h | h
    · subst h; exact ⟨rfl, rfl⟩
    · exact iovLoop_flags n h

/-- `process_vm_readv` that returned `n` bytes: the first `n` bytes of the local buffers are
marked as written (and the local vector itself). -/
theorem C57_vm_readv (e : Env) (self : Bool) (l : List (Nat × Nat))
    (hat : IovAt e.mem (e.arg 1) l) (htot : lenOf l < 2 ^ 64) (h0 : e.arg 1 ≠ 0)
    (hne : l ≠ []) (hlen : l.length * 16 < 2 ^ 64) (hn : e.arg 2 = l.length)
    (hr : 0 < e.result) (hr2 : e.result < 2 ^ 63) :
    addrs (osPost 310 e self) = span (e.arg 1) (16 * l.length) ++ (dataOf l).take e.result ∧
      ∀ r ∈ osPost 310 e self, act true false r = .write := by
  constructor
  · show addrs (postVm e true self) = _
    unfold postVm
    rw [if_neg (by omega), if_pos rfl, hn]
    exact C57_iov e 1 _ e.result l _ hat htot h0 hne hlen
  · intro r _; rfl

/-- `process_vm_writev` of this process that returned `n` bytes: the first `n` bytes of the remote buffers
are marked as written (and the remote vector itself); for another process nothing is marked. -/
theorem C57_vm_writev (e : Env) (l : List (Nat × Nat))
    (hat : IovAt e.mem (e.arg 3) l) (htot : lenOf l < 2 ^ 64) (h0 : e.arg 3 ≠ 0)
    (hne : l ≠ []) (hlen : l.length * 16 < 2 ^ 64) (hn : e.arg 4 = l.length)
    (hr : 0 < e.result) (hr2 : e.result < 2 ^ 63) :
    addrs (osPost 311 e true) = span (e.arg 3) (16 * l.length) ++ (dataOf l).take e.result ∧
      osPost 311 e false = [] := by
  constructor
  · show addrs (postVm e false true) = _
    unfold postVm
    rw [if_neg (by omega), if_neg (by simp), if_pos rfl, hn]
    exact C57_iov e 3 _ e.result l _ hat htot h0 hne hlen
  · show postVm e false false = _
    unfold postVm
    rw [if_neg (by omega), if_neg (by simp), if_neg (by simp)]

/-- Before `process_vm_writev` all bytes of the local vector and buffers are checked for definedness, and
nothing else. -/
theorem C57_vm_writev_pre (e : Env) (self : Bool) (l : List (Nat × Nat))
    (hat : IovAt e.mem (e.arg 1) l) (htot : lenOf l < 2 ^ 64) (h0 : e.arg 1 ≠ 0)
    (hne : l ≠ []) (hlen : l.length * 16 < 2 ^ 64) (hn : e.arg 2 = l.length) :
    addrs (osPre 311 e self) = span (e.arg 1) (16 * l.length) ++ dataOf l ∧
      ∀ r ∈ osPre 311 e self, act true true r = .checkDefined := by
  have he : osPre 311 e self = checkIov e 1 { r := true } (e.arg 1) (e.arg 2) (2 ^ 64 - 1) := by
    show preVm e false self = _
    unfold preVm
    simp
  rw [he, hn]
  constructor
  · rw [C57_iov e 1 _ _ l _ hat htot h0 hne hlen, List.take_of_length_le]
    have := dataOf_length l
    omega
  · intro r hr
    have := checkIov_flags hr
    simp [act, this]

/-- Before `process_vm_readv` the local buffers are checked for addressability; the buffers read from are
checked for definedness if they are in this process. -/
theorem C57_vm_readv_pre (e : Env) (l l' : List (Nat × Nat))
    (hat : IovAt e.mem (e.arg 1) l) (htot : lenOf l < 2 ^ 64) (h0 : e.arg 1 ≠ 0)
    (hne : l ≠ []) (hlen : l.length * 16 < 2 ^ 64) (hn : e.arg 2 = l.length)
    (hat' : IovAt e.mem (e.arg 3) l') (htot' : lenOf l' < 2 ^ 64) (h0' : e.arg 3 ≠ 0)
    (hne' : l' ≠ []) (hlen' : l'.length * 16 < 2 ^ 64) (hn' : e.arg 4 = l'.length) (u : Bool) :
    addrs ((osPre 310 e true).filter fun r => act true true r = .checkDefined) =
      span (e.arg 3) (16 * l'.length) ++ dataOf l' ∧
    addrs ((osPre 310 e u).filter fun r => act true true r = .checkAddressable) =
      span (e.arg 1) (16 * l.length) ++ dataOf l ∧
    (osPre 310 e false).filter (fun r => act true true r = .checkDefined) = [] := by
  have hr : ∀ r ∈ checkIov e 3 { r := true } (e.arg 3) (e.arg 4) (2 ^ 64 - 1),
      act true true r = .checkDefined := by
    intro r hr; simp [act, checkIov_flags hr]
  have hw : ∀ r ∈ checkIov e 1 { w := true } (e.arg 1) (e.arg 2) (2 ^ 64 - 1),
      act true true r = .checkAddressable := by
    intro r hr; simp [act, checkIov_flags hr]
  have he : ∀ u, osPre 310 e u =
      (if u then checkIov e 3 { r := true } (e.arg 3) (e.arg 4) (2 ^ 64 - 1) else []) ++
        checkIov e 1 { w := true } (e.arg 1) (e.arg 2) (2 ^ 64 - 1) := by
    intro u
    show preVm e true u = _
    unfold preVm
    simp
  have l1 : ∀ L : List Rep, (∀ r ∈ L, act true true r = .checkDefined) →
      L.filter (fun r => act true true r = .checkDefined) = L ∧
      L.filter (fun r => act true true r = .checkAddressable) = [] := by
    intro L h
    refine ⟨List.filter_eq_self.2 fun r hr => by simp [h r hr], List.filter_eq_nil_iff.2 fun r hr => ?_⟩
    simp [h r hr]
  have l2 : ∀ L : List Rep, (∀ r ∈ L, act true true r = .checkAddressable) →
      L.filter (fun r => act true true r = .checkAddressable) = L ∧
      L.filter (fun r => act true true r = .checkDefined) = [] := by
    intro L h
    refine ⟨List.filter_eq_self.2 fun r hr => by simp [h r hr], List.filter_eq_nil_iff.2 fun r hr => ?_⟩
    simp [h r hr]
  have d1 : addrs (checkIov e 3 { r := true } (e.arg 3) (e.arg 4) (2 ^ 64 - 1)) =
      span (e.arg 3) (16 * l'.length) ++ dataOf l' := by
    rw [hn', C57_iov e 3 _ _ l' _ hat' htot' h0' hne' hlen', List.take_of_length_le]
    have := dataOf_length l'
    omega
  have d2 : addrs (checkIov e 1 { w := true } (e.arg 1) (e.arg 2) (2 ^ 64 - 1)) =
      span (e.arg 1) (16 * l.length) ++ dataOf l := by
    rw [hn, C57_iov e 1 _ _ l _ hat htot h0 hne hlen, List.take_of_length_le]
    have := dataOf_length l
    omega
  refine ⟨?_, ?_, ?_⟩
  · rw [he, List.filter_append, if_pos rfl, (l1 _ hr).1, (l2 _ hw).2, List.append_nil, d1]
  · rw [he, List.filter_append, (l2 _ hw).1, ← d2]
    cases u
    · rfl
    · rw [if_pos rfl, (l1 _ hr).2]; rfl
  · rw [he, List.filter_append, (l2 _ hw).2]; rfl

/-! ## Message headers -/

/-- What the header at `msg` says, in memory `m`. -/
structure MsgAt (m : Nat → Option Nat) (msg name namelen iov : Nat) (l : List (Nat × Nat))
    (ctl ctlLen : Nat) : Prop where
  h_name : rdLE m msg 8 = some name
  h_namelen : rdLE m (msg + 8) 4 = some namelen
  h_iov : rdLE m (msg + 16) 8 = some iov
  h_iovlen : rdLE m (msg + 24) 8 = some l.length
  h_ctl : rdLE m (msg + 32) 8 = some ctl
  h_ctlLen : rdLE m (msg + 40) 8 = some ctlLen
  h_vec : IovAt m iov l

/-- `recvmsg` that returned `n`: marked are the flags, the vector, the first `n` bytes of the
buffers, the address (cut to the length `st.sockLen` of the per-thread record), the length of
the control data and the control data (cut to the capacity before the call). -/
theorem C57_recvmsg_post (e : Env) (st : St) (msg name namelen iov : Nat)
    (l : List (Nat × Nat)) (ctl ctlLen : Nat) (h : MsgAt e.mem msg name namelen iov l ctl ctlLen)
    (hnl : namelen < 2 ^ 32) (htot : lenOf l < 2 ^ 64) (h0 : iov ≠ 0)
    (hne : l ≠ []) (hlen : l.length * 16 < 2 ^ 64) :
    addrs (checkMsghdr e false st 1 { w := true, ct := true } msg).1 =
      span (msg + 48) 4 ++ (span iov (16 * l.length) ++ (dataOf l).take e.result) ++
        (if name = 0 then [] else span name (min namelen st.sockLen)) ++
        (span (msg + 40) 8 ++ (if st.ctl = 0 then [] else span st.ctl (min ctlLen st.ctlLen))) := by
  unfold checkMsghdr
  dsimp only
  rw [if_neg (by simp), h.h_name, h.h_namelen, h.h_iov, h.h_iovlen, h.h_ctlLen]
  dsimp only
  rw [if_neg h0, ← C57_iov e 1 { w := true, ct := true } e.result l iov h.h_vec htot h0 hne hlen]
  generalize checkIov e 1 { w := true, ct := true } iov l.length e.result = C
  rw [Nat.mod_eq_of_lt hnl]
  by_cases hn : name = 0
  · rw [if_pos hn, if_pos hn]
    by_cases hc : st.ctl = 0
    · simp [hc, addrs]
    · by_cases hm : 0 < min ctlLen st.ctlLen
      · rw [if_pos ⟨hc, hm⟩, if_neg hc]; simp [addrs]
      · have : min ctlLen st.ctlLen = 0 := by omega
        rw [if_neg (by omega), if_neg hc, this]; simp [addrs, span]
  · rw [if_neg hn, if_neg hn]
    by_cases hc : st.ctl = 0
    · simp [hc, addrs, handleSockaddr]
    · by_cases hm : 0 < min ctlLen st.ctlLen
      · rw [if_pos ⟨hc, hm⟩, if_neg hc]; simp [addrs, handleSockaddr]
      · have : min ctlLen st.ctlLen = 0 := by omega
        rw [if_neg (by omega), if_neg hc, this]; simp [addrs, span, handleSockaddr]

/-- Before `recvmsg` the record `sockLen` is not set: it keeps the value that an earlier system
call of the thread left there (0 if there was none). -/
theorem C57_recvmsg_sockLen (e : Env) (st : St) (msg : Nat) :
    (checkMsghdr e true st 1 { w := true, ct := true } msg).2.sockLen = st.sockLen := by
  unfold checkMsghdr
  dsimp only
  rw [if_pos rfl]
  dsimp only
  split
  · split
    · rfl
    · rfl
  · rfl

/-- Hence the address that `recvmsg` stored is not marked as defined unless an earlier call
left a length: here nobody did, and of the 16 bytes of the address none is marked. -/
theorem C57_recvmsg_name_missed (e1 e2 : Env) (msg name namelen iov : Nat)
    (l : List (Nat × Nat)) (ctl ctlLen : Nat)
    (h : MsgAt e2.mem msg name namelen iov l ctl ctlLen) (hnl : namelen < 2 ^ 32)
    (htot : lenOf l < 2 ^ 64) (h0 : iov ≠ 0) (hne : l ≠ []) (hlen : l.length * 16 < 2 ^ 64)
    (st : St) (hst : st.sockLen = 0) :
    let st' := (checkMsghdr e1 true st 1 { w := true, ct := true } msg).2
    addrs (checkMsghdr e2 false st' 1 { w := true, ct := true } msg).1 =
      span (msg + 48) 4 ++ (span iov (16 * l.length) ++ (dataOf l).take e2.result) ++
        (span (msg + 40) 8 ++
          (if st'.ctl = 0 then [] else span st'.ctl (min ctlLen st'.ctlLen))) := by
  dsimp only
  rw [C57_recvmsg_post e2 _ msg name namelen iov l ctl ctlLen h hnl htot h0 hne hlen,
    C57_recvmsg_sockLen, hst, Nat.min_zero]
  have : (if name = 0 then [] else span name 0) = [] := by split <;> rfl
  rw [this, List.append_nil]

/-- Before `sendmsg`: the header, the address, the vector and the control data are checked,
but no byte of the data to be sent. -/
theorem C57_sendmsg_data (e : Env) (st : St) (msg name namelen iov : Nat) (l : List (Nat × Nat))
    (ctl ctlLen : Nat) (h : MsgAt e.mem msg name namelen iov l ctl ctlLen)
    (htot : lenOf l < 2 ^ 64) (h0 : iov ≠ 0) (hne : l ≠ []) (hlen : l.length * 16 < 2 ^ 64) :
    addrs (checkMsghdr e true st 1 { r := true, ct := true } msg).1 =
      span msg 56 ++ (if name = 0 then [] else
        addrs (handleSockaddr e true st 1 { r := true } name (namelen % 2 ^ 32)).1) ++
        span iov (16 * l.length) ++ (if ctl = 0 then [] else span ctl ctlLen) := by
  have hi := C57_iov e 1 { r := true, ct := true } 0 l iov h.h_vec htot h0 hne hlen
  simp only [List.take_zero, List.append_nil] at hi
  unfold checkMsghdr
  dsimp only
  rw [if_pos rfl, h.h_name, h.h_namelen, h.h_iov, h.h_iovlen, h.h_ctl, h.h_ctlLen]
  dsimp only
  rw [if_neg h0, ← hi]
  generalize checkIov e 1 { r := true, ct := true } iov l.length 0 = C
  by_cases hn : name = 0 <;> by_cases hc : ctl = 0 <;> simp [hn, hc, addrs]

/-- A message with one buffer of four bytes at 0x3000; header at 0x1000, vector at 0x2000. -/
def msgMem (a : Nat) : Option Nat :=
  if a = 0x1011 then some 0x20 else if a = 0x1018 then some 1 else
  if a = 0x2001 then some 0x30 else if a = 0x2008 then some 4 else some 0

/-- `sendmsg` of four bytes that are not defined: the bytes are in no range that is checked. -/
theorem C57_sendmsg_missed : ∃ (e : Env) (st : St), IovAt e.mem 0x2000 [(0x3000, 4)] ∧
    MsgAt e.mem 0x1000 0 0 0x2000 [(0x3000, 4)] 0 0 ∧
    ∀ r ∈ (checkMsghdr e true st 1 { r := true, ct := true } 0x1000).1,
      ¬ (r.start ≤ 0x3000 ∧ 0x3000 < r.start + r.size) := by
  refine ⟨⟨fun _ => 0x1000, msgMem, 0, 0⟩, ⟨fun _ => 0, 0, 0, 0⟩, ?_, ?_, ?_⟩
  · refine ⟨by decide +kernel, by decide +kernel, trivial⟩
  · exact ⟨by decide +kernel, by decide +kernel, by decide +kernel, by decide +kernel,
      by decide +kernel, by decide +kernel, by decide +kernel, by decide +kernel, trivial⟩
  · decide +kernel

/-- Not vacuous: `recvmsg` of three of the four bytes with this header. -/
example : addrs (checkMsghdr ⟨fun _ => 0x1000, msgMem, 3, 0⟩ false ⟨fun _ => 0, 0, 0, 0⟩ 1
    { w := true, ct := true } 0x1000).1 =
      span 0x1030 4 ++ (span 0x2000 16 ++ [0x3000, 0x3001, 0x3002]) ++ span 0x1028 8 := by
  decide +kernel

/-- Before `recvmsg` the length of the address is read into four of eight bytes of a local
variable that is not initialised: the range passed to the client has the rest of that variable
in its length. -/
theorem C57_recvmsg_junk (e : Env) (st : St) (msg name namelen : Nat)
    (h1 : rdLE e.mem msg 8 = some name) (h2 : rdLE e.mem (msg + 8) 4 = some namelen)
    (h3 : name ≠ 0) :
    ⟨1, false, true, name, namelen + 2 ^ 32 * e.junk⟩ ∈
      (checkMsghdr e true st 1 { w := true, ct := true } msg).1 := by
  unfold checkMsghdr
  dsimp only
  rw [if_pos rfl, h1, h2]
  dsimp only
  rw [if_neg h3, if_neg (by simp)]
  simp

/-! ## Strings -/

theorem cscan_str (m : Nat → Option Nat) : ∀ (k n a : Nat), StrAt m a k → k < n →
    cscan m a n = k := by
  intro k
  induction k with
  | zero =>
    intro n a h hn
    obtain ⟨n, rfl⟩ : ∃ n', n = n' + 1 := ⟨n - 1, by omega⟩
    have h0 : m a = some 0 := h.2
    rw [cscan, h0]
    rfl
  | succ k ih =>
    intro n a h hn
    obtain ⟨n, rfl⟩ : ∃ n', n = n' + 1 := ⟨n - 1, by omega⟩
    obtain ⟨c, hc, hc0⟩ := h.1 0 (by omega)
    rw [Nat.add_zero] at hc
    rw [cscan, hc]
    dsimp only
    rw [if_neg hc0, ih n (a + 1) ⟨?_, ?_⟩ (by omega)]
    · intro j hj
      have := h.1 (j + 1) (by omega)
      rw [show a + (j + 1) = a + 1 + j by omega] at this
      exact this
    · have := h.2
      rw [show a + (k + 1) = a + 1 + k by omega] at this
      exact this

/-- A string parameter (`open`, `stat`, ...) shorter than 4096 bytes: exactly the string with
its nul is checked. -/
theorem C57_string (e : Env) (st : St) (a : Arg) (hct : a.fl.ct = true) (hm : a.misc = .cstring)
    (hr : a.fl.r = true) {start k : Nat} (h0 : start ≠ 0) (hs : StrAt e.mem start k)
    (hk : k < 4096) :
    osHandle e true st a start 0 = some ([⟨a.param, true, a.fl.w, start, k + 1⟩], st) := by
  unfold osHandle
  rw [hct, hm]
  have : handleCstring e true a.param a.fl start (0 % 2 ^ 32) false =
      some [⟨a.param, a.fl.r, a.fl.w, start, cscan e.mem start 4096 + 1⟩] := by
    unfold handleCstring
    rw [if_neg h0]
    simp [hr, MAX_PATH]
  simp only [Bool.not_true, Bool.false_eq_true, if_false]
  rw [this, cscan_str e.mem k 4096 start hs hk, hr]
  rfl

/-- A buffer of `n` bytes that the kernel filled without a nul (`prctl(PR_GET_NAME)` and the
like): `n + 1` bytes are marked, one more than the buffer has. -/
theorem C57_string_unterminated (e : Env) (ord start n : Nat) (h0 : start ≠ 0) (hn : 0 < n)
    (h : ∀ j, j < n → ∃ c, e.mem (start + j) = some c ∧ c ≠ 0) :
    handleCstring e false ord { w := true } start n false =
      some [⟨ord, false, true, start, n + 1⟩] := by
  have hc : ∀ (n a : Nat), (∀ j, j < n → ∃ c, e.mem (a + j) = some c ∧ c ≠ 0) →
      cscan e.mem a n = n := by
    intro n
    induction n with
    | zero => intro a _; rfl
    | succ n ih =>
      intro a h
      obtain ⟨c, hc, hc0⟩ := h 0 (by omega)
      rw [Nat.add_zero] at hc
      rw [cscan, hc]
      dsimp only
      rw [if_neg hc0, ih (a + 1)]
      intro j hj
      have := h (j + 1) (by omega)
      rw [show a + (j + 1) = a + 1 + j by omega] at this
      exact this
  unfold handleCstring
  rw [if_neg h0]
  have hn' : n ≠ 0 := by omega
  simp [hn', hc n start h]

/-- The arrays of `execve`: each string with its nul is checked, in order, and nothing else — in
particular not the array of pointers itself. -/
theorem C57_strings (e : Env) (ord : Nat) : ∀ (l : List (Nat × Nat)) (n a : Nat),
    StrsAt e.mem a l → l.length < n → (∀ x ∈ l, x.2 < 4096) →
    strArray e true ord n a = l.map (fun x => ⟨ord, true, false, x.1, x.2 + 1⟩) := by
  intro l
  induction l with
  | nil =>
    intro n a h hn _
    obtain ⟨n, rfl⟩ : ∃ n', n = n' + 1 := ⟨n - 1, by simp at hn; omega⟩
    have h : rdLE e.mem a 8 = some 0 := h
    rw [strArray, h]
    rfl
  | cons x l ih =>
    obtain ⟨s, k⟩ := x
    intro n a h hn hk
    obtain ⟨n, rfl⟩ : ∃ n', n = n' + 1 := ⟨n - 1, by simp at hn; omega⟩
    obtain ⟨h1, h2, h3, h4⟩ := h
    rw [strArray, h1]
    dsimp only
    rw [if_neg h2, ih n (a + 8) h4 (by simp at hn; omega)
      (fun y hy => hk y (List.mem_cons_of_mem _ hy))]
    have hk' : k < 4096 := hk (s, k) List.mem_cons_self
    have : handleCstring e true ord { r := true } s 0 false =
        some [⟨ord, true, false, s, k + 1⟩] := by
      unfold handleCstring
      rw [if_neg h2]
      simp [MAX_PATH, cscan_str e.mem k 4096 s h3 hk']
    rw [this]
    rfl

/-- Array at 0x2000 with the strings "a" at 0x3000 and "" at 0x3008. -/
def strMem (a : Nat) : Option Nat :=
  if a = 0x2001 then some 0x30 else if a = 0x2008 then some 8 else if a = 0x2009 then some 0x30 else
  if a = 0x3000 then some 97 else if a < 0x4000 then some 0 else none

example : StrsAt strMem 0x2000 [(0x3000, 1), (0x3008, 0)] := by
  refine ⟨by decide +kernel, by decide, ⟨?_, by decide⟩, by decide +kernel, by decide,
    ⟨?_, by decide⟩, ?_⟩
  · intro j hj
    have : j = 0 := by omega
    subst this
    exact ⟨97, rfl, by decide⟩
  · intro j hj; omega
  · show rdLE strMem _ 8 = some 0
    decide +kernel

/-! ## Descriptor sets -/

/-- `select` and `pselect6` with a number of descriptors that is a multiple of 8: exactly the
bytes that hold the bits of each set that is given are checked. -/
theorem C57_select_partial (e : Env) (ps : Bool) (k : Nat) (hk : e.arg 0 = 8 * k)
    (hb : 8 * k < 2 ^ 31) (o : Nat) (ho : o = 1 ∨ o = 2 ∨ o = 3) (r : Rep) :
    (r ∈ preSelect e ps ∧ r.ord = o) ↔ e.arg o ≠ 0 ∧ r = ⟨o, true, false, e.arg o, k⟩ := by
  have hsz : (if e.arg 0 % 2 ^ 32 < 2 ^ 31 then e.arg 0 % 2 ^ 32 / 8
      else (2 ^ 64 - (2 ^ 32 - e.arg 0 % 2 ^ 32) / 8) % 2 ^ 64) = k := by
    rw [Nat.mod_eq_of_lt (by omega), if_pos (by omega), hk]
    omega
  have hone : ∀ (c : Prop) [Decidable c] (x : Rep), (r ∈ (if c then [] else [x])) ↔ ¬ c ∧ r = x := by
    intro c _ x
    split <;> simp [*]
  unfold preSelect
  dsimp only
  rw [hsz]
  constructor
  · rintro ⟨hr, hro⟩
    simp only [List.mem_append, hone] at hr
    rcases hr with (((hr | hr) | hr) | hr) | hr
    · rcases hr with ⟨h1, rfl⟩; subst hro; exact ⟨h1, rfl⟩
    · rcases hr with ⟨h1, rfl⟩; subst hro; exact ⟨h1, rfl⟩
    · rcases hr with ⟨h1, rfl⟩; subst hro; exact ⟨h1, rfl⟩
    · rcases hr with ⟨_, rfl⟩; rcases ho with h | h | h <;> rw [h] at hro <;> cases hro
    · split at hr
      · rw [hone] at hr
        rcases hr with ⟨_, rfl⟩; rcases ho with h | h | h <;> rw [h] at hro <;> cases hro
      · cases hr
  · rintro ⟨h1, rfl⟩
    refine ⟨?_, rfl⟩
    simp only [List.mem_append, hone]
    rcases ho with rfl | rfl | rfl
    · exact Or.inl (Or.inl (Or.inl (Or.inl ⟨h1, rfl⟩)))
    · exact Or.inl (Or.inl (Or.inl (Or.inr ⟨h1, rfl⟩)))
    · exact Or.inl (Or.inl (Or.inr ⟨h1, rfl⟩))

/-- For other numbers the last byte is left out: for fewer than 8 descriptors no byte of any
set is checked. -/
theorem C57_select_missed (e : Env) (ps : Bool) (hn : e.arg 0 < 8) :
    ∀ r ∈ preSelect e ps, r.ord = 1 ∨ r.ord = 2 ∨ r.ord = 3 → r.size = 0 := by
  intro r hr hro
  have hsz : (if e.arg 0 % 2 ^ 32 < 2 ^ 31 then e.arg 0 % 2 ^ 32 / 8
      else (2 ^ 64 - (2 ^ 32 - e.arg 0 % 2 ^ 32) / 8) % 2 ^ 64) = 0 := by
    rw [Nat.mod_eq_of_lt (by omega), if_pos (by omega)]
    omega
  have hone : ∀ (c : Prop) [Decidable c] (x : Rep), (r ∈ (if c then [] else [x])) → r = x := by
    intro c _ x h
    split at h
    · cases h
    · simpa using h
  unfold preSelect at hr
  dsimp only at hr
  rw [hsz] at hr
  simp only [List.mem_append] at hr
  rcases hr with (((hr | hr) | hr) | hr) | hr
  · rw [hone _ _ hr]
  · rw [hone _ _ hr]
  · rw [hone _ _ hr]
  · rw [hone _ _ hr] at hro
    rcases hro with h | h | h <;> cases h
  · split at hr
    · rw [hone _ _ hr] at hro
      rcases hro with h | h | h <;> cases h
    · cases hr

/-- Not vacuous: `select(1, &set, ...)`. -/
example : preSelect ⟨fun i => if i = 0 then 1 else if i = 1 then 0x5000 else 0, fun _ => none, 0, 0⟩
    false = [⟨1, true, false, 0x5000, 0⟩] := by decide

/-- `poll`: before the call the descriptor and the events of each of the `n` entries are
checked, after it the two bytes of the returned events of each entry are marked. -/
theorem C57_poll (e : Env) (h0 : e.arg 0 ≠ 0) (x : Nat) :
    (x ∈ addrs (osPre 7 e false) ↔ ∃ i, i < e.arg 1 ∧ e.arg 0 + 8 * i ≤ x ∧
      x < e.arg 0 + 8 * i + 6) ∧
    (x ∈ addrs (osPost 7 e false) ↔ ∃ i, i < e.arg 1 ∧ e.arg 0 + 8 * i + 6 ≤ x ∧
      x < e.arg 0 + 8 * i + 8) := by
  have hp : ∀ pre, pollReps e pre = (List.range (e.arg 1)).map fun i =>
      if pre then ⟨0, true, false, e.arg 0 + 8 * i, 6⟩
      else ⟨0, false, true, e.arg 0 + 8 * i + 6, 2⟩ := by
    intro pre; unfold pollReps; rw [if_neg h0]
  constructor
  · rw [mem_addrs]
    show (∃ r ∈ pollReps e true, _) ↔ _
    rw [hp]
    constructor
    · rintro ⟨r, hr, hx⟩
      obtain ⟨i, hi, rfl⟩ := List.mem_map.1 hr
      exact ⟨i, List.mem_range.1 hi, hx⟩
    · rintro ⟨i, hi, hx⟩
      exact ⟨_, List.mem_map.2 ⟨i, List.mem_range.2 hi, rfl⟩, hx⟩
  · rw [mem_addrs]
    show (∃ r ∈ pollReps e false, _) ↔ _
    rw [hp]
    constructor
    · rintro ⟨r, hr, hx⟩
      obtain ⟨i, hi, rfl⟩ := List.mem_map.1 hr
      refine ⟨i, List.mem_range.1 hi, hx.1, ?_⟩
      have : x < e.arg 0 + 8 * i + 6 + 2 := hx.2
      omega
    · rintro ⟨i, hi, hx⟩
      refine ⟨_, List.mem_map.2 ⟨i, List.mem_range.2 hi, rfl⟩, hx.1, ?_⟩
      show x < e.arg 0 + 8 * i + 6 + 2
      omega

/-- ... also if the call failed: the table-driven part looks at the result, this one does
not. -/
theorem C57_poll_failed (e : Env) (st : St) (hf : 2 ^ 63 ≤ e.result) :
    postMemargs 7 [] e false st = pollReps e false := by
  unfold postMemargs
  have : succeeded 7 e = false := by
    unfold succeeded
    rw [if_neg (by decide)]
    simp; omega
  rw [this]
  rfl

/-- `arch_prctl(ARCH_SET_FS, base)`: the eight bytes at the new base are treated as written by
the kernel (which only puts the number in a register), before and after the call;
`arch_prctl(ARCH_GET_GS, p)`: the eight bytes that the kernel writes at `p` are not marked. -/
theorem C57_arch_prctl (e : Env) :
    (e.arg 0 = 0x1002 → osPre 158 e false = [⟨1, false, true, e.arg 1, 8⟩] ∧
      osPost 158 e false = [⟨1, false, true, e.arg 1, 8⟩]) ∧
    (e.arg 0 = 0x1004 → osPre 158 e false = [] ∧ osPost 158 e false = []) := by
  constructor
  · intro h
    have : archPrctl e = [⟨1, false, true, e.arg 1, 8⟩] := by simp [archPrctl, h]
    exact ⟨this, this⟩
  · intro h
    have : archPrctl e = [] := by simp [archPrctl, h]
    exact ⟨this, this⟩

/-! ## Socket addresses -/

/-- An address that is passed in: every range lies within the `len` bytes that are passed
(and the two bytes of the family).  For AF_UNIX a length of at least 2 is needed. -/
theorem C57_sockaddr_within_partial (e : Env) (st : St) (ord ptr len : Nat) (h2 : 2 ≤ len)
    (hlen : len < 2 ^ 64) :
    ∀ r ∈ (handleSockaddr e true st ord { r := true, ct := true } ptr len).1,
      ptr ≤ r.start ∧ r.start + r.size ≤ ptr + len := by
  have hscan : ∀ n a, cscan e.mem a n ≤ n := by
    intro n
    induction n with
    | zero => intro a; simp [cscan]
    | succ n ih =>
      intro a
      rw [cscan]
      split
      · omega
      · split
        · omega
        · have := ih (a + 1); omega
  have hl : (len + 2 ^ 64 - 2) % 2 ^ 64 = len - 2 := by
    rw [show len + 2 ^ 64 - 2 = (len - 2) + 2 ^ 64 by omega, Nat.add_mod_right,
      Nat.mod_eq_of_lt (by omega)]
  intro r hr
  unfold handleSockaddr strnlen at hr
  simp only [Bool.not_true, Bool.false_eq_true, if_false, Bool.and_false,
    if_true] at hr
  split at hr
  · simp at hr; rw [hr]; exact ⟨Nat.le_refl _, by show ptr + 2 ≤ _; omega⟩
  · split at hr
    · rcases List.mem_append.1 hr with h | h
      · simp at h; rw [h]; exact ⟨Nat.le_refl _, by show ptr + 2 ≤ _; omega⟩
      · have := mem_single h
        rw [this]
        have hn := hscan (min (len - 2) 108) (ptr + 2)
        refine ⟨Nat.le_add_right _ _, ?_⟩
        dsimp only
        rw [hl]
        omega
    · rcases List.mem_append.1 hr with h | h
      · simp at h; rw [h]; exact ⟨Nat.le_refl _, by show ptr + 2 ≤ _; omega⟩
      · obtain ⟨f, hf, rfl⟩ := List.mem_map.1 h
        have := (List.mem_filter.1 hf).2
        simp at this
        exact ⟨by show ptr ≤ ptr + f.1; omega, by show ptr + f.1 + f.2 ≤ _; omega⟩

/-- With a length of 1 the subtraction in the AF_UNIX case wraps around, and up to 108 bytes
behind the address are checked. -/
theorem C57_sockaddr_wrap : ∃ (e : Env) (st : St), ∃ r ∈
    (handleSockaddr e true st 1 { r := true, ct := true } 0x1000 1).1,
      r = ⟨1, true, false, 0x1002, 108⟩ := by
  refine ⟨⟨fun _ => 0, fun a => if a = 0x1001 then some 0 else some 1, 0, 0⟩,
    ⟨fun _ => 0, 0, 0, 0⟩, _, ?_, rfl⟩
  decide +kernel

/-- An Internet address of full length: family, port and address are checked, not the
padding. -/
theorem C57_sockaddr_inet (e : Env) (st : St) (ord ptr len : Nat) (hf : rdLE e.mem ptr 2 = some 2)
    (hlen : 8 ≤ len) :
    addrs (handleSockaddr e true st ord { r := true, ct := true } ptr len).1 =
      span ptr 2 ++ span (ptr + 2) 2 ++ span (ptr + 4) 4 := by
  unfold handleSockaddr
  simp only [Bool.not_true, Bool.false_eq_true, if_false, Bool.and_false, if_true]
  rw [hf]
  have h4 : 4 ≤ len := by omega
  simp [sockFields, addrs, hlen, h4]

/-- Not vacuous: an Internet address at 0x1000, and what is checked if only six bytes are
passed. -/
example : (handleSockaddr ⟨fun _ => 0, fun a => some (if a = 0x1000 then 2 else 0), 0, 0⟩ true
    ⟨fun _ => 0, 0, 0, 0⟩ 1 { r := true, ct := true } 0x1000 16).1 =
      [⟨1, true, false, 0x1000, 2⟩, ⟨1, true, false, 0x1002, 2⟩, ⟨1, true, false, 0x1004, 4⟩] ∧
    (handleSockaddr ⟨fun _ => 0, fun a => some (if a = 0x1000 then 2 else 0), 0, 0⟩ true
    ⟨fun _ => 0, 0, 0, 0⟩ 1 { r := true, ct := true } 0x1000 6).1 =
      [⟨1, true, false, 0x1000, 2⟩, ⟨1, true, false, 0x1002, 2⟩] := by
  decide +kernel

/-- An address that is filled in (`accept`, `getsockname`, `recvfrom`): after the call the
marked part is the length that the kernel returned, cut to the length passed in. -/
theorem C57_sockaddr_out (e1 e2 : Env) (st : St) (ord ptr l1 l2 : Nat) :
    let x := handleSockaddr e1 true st ord { w := true, inout := true, ct := true } ptr l1
    x.1 = [⟨ord, false, true, ptr, l1⟩] ∧
    (handleSockaddr e2 false x.2 ord { w := true, inout := true, ct := true } ptr l2).1 =
      [⟨ord, false, true, ptr, min l2 l1⟩] := by
  simp [handleSockaddr]

/-- `msgsnd` and `msgrcv`: the type word and the text; after `msgrcv` as much text as was
received. -/
theorem C57_msgbuf (e : Env) (ord ptr len : Nat) :
    addrs (checkMsgbuf e true ord { r := true, ct := true } ptr len) = span ptr 8 ++ span (ptr + 8) len ∧
    addrs (checkMsgbuf e true ord { w := true, ct := true } ptr len) = span ptr 8 ++ span (ptr + 8) len ∧
    addrs (checkMsgbuf e false ord { w := true, ct := true } ptr len) =
      span ptr 8 ++ span (ptr + 8) e.result ∧
    checkMsgbuf e false ord { r := true, ct := true } ptr len = [] := by
  simp [checkMsgbuf, addrs]

/-- Before `recvmsg` the place and capacity of the control data are recorded for the time after the
call. -/
theorem C57_recvmsg_ctl (e : Env) (st : St) (msg name namelen iov : Nat)
    (l : List (Nat × Nat)) (ctl ctlLen : Nat) (h : MsgAt e.mem msg name namelen iov l ctl ctlLen) :
    (checkMsghdr e true st 1 { w := true, ct := true } msg).2.ctl = ctl ∧
    (checkMsghdr e true st 1 { w := true, ct := true } msg).2.ctlLen = ctlLen := by
  unfold checkMsghdr
  dsimp only
  rw [if_pos rfl, h.h_ctl, h.h_ctlLen]
  exact ⟨rfl, rfl⟩

end Verif.SysArgs
