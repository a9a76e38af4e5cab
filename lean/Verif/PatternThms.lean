import Verif.PatternInv

/-!
# C55: pattern mode reports accesses to guarded heap memory, and only those

`AppByte`, `Guard`, `Barred`, `damage` and `Reach` of `PatternInv` are the
specification; the model is in `Pattern`.
-/

namespace Verif.Pattern

/-- **C55.** At every moment every redzone, padding and freed byte that was not
    overwritten since the pattern was put there holds the byte of the pattern
    that belongs at its address. -/
theorem C55_intact {k : Cfg} (hk : Good k) {s : St} {d : Nat → Prop} (hr : Reach k s d) {x : Nat}
    (hg : Guard k s.chunks x) (hd : ¬ d x) :
    s.mem x = if x % 2 = 0 then UInt8.ofNat (k.pat % 256) else UInt8.ofNat (k.pat / 256 % 256) :=
  (reach_inv hk hr).2 x hg hd

theorem looksBad_intact {k : Cfg} (hk : Good k) {m : Mem} {a n : Nat}
    (h : intact k.pat m a (if n ≤ 2 then 2 else 4)) : looksBad k m a n = true := by
  unfold looksBad
  split
  · rename_i hn
    rw [if_pos hn] at h
    simp only [Bool.or_eq_true, decide_eq_true_eq]
    by_cases ha : a % 2 = 0
    · exact Or.inl ((rd2_P k hk.pat m ha).mpr h)
    · exact Or.inr ((rd2_R k m (by omega)).mpr h)
  · rename_i hn
    rw [if_neg hn] at h
    simp only [Bool.or_eq_true, decide_eq_true_eq]
    by_cases ha : a % 2 = 0
    · exact Or.inl ((rd4_P k hk.pat m ha).mpr h)
    · exact Or.inr ((rd4_R k m (by omega)).mpr h)

/-- A window of more than half a redzone satisfies the pre-check. -/
theorem preCheck_window {k : Cfg} (hk : Good k) {m : Mem} {a lo hi : Nat} (hlo4 : lo % 4 = 0)
    (hhi4 : hi % 4 = 0) (hlo : lo ≤ down4 a + 4) (hhi : down4 a + 4 ≤ hi)
    (hlen : k.rz < 2 * (hi - lo)) (hint : ∀ x, lo ≤ x → x < hi → m x = patByte k.pat x) :
    preCheck k m a = true := by
  have h4 := hk.rz4
  have hrz := hk.rz
  rw [preCheck_iff k hk.pat]
  have ha : down4 a % 4 = 0 := by unfold down4; omega
  generalize down4 a = A at *
  generalize hA : A + 4 = B at *
  obtain ⟨q, hq⟩ : ∃ q, k.rz = 4 * q := ⟨k.rz / 4, by omega⟩
  have e : k.rz / 4 = q := by omega
  rw [e]
  refine ⟨max lo (B - 4 * q), min hi (B + 4 * q), by omega, by omega, by omega, by omega, by omega,
    by omega, by omega, ?_⟩
  intro x h1 h2
  exact hint x (by omega) (by omega)

/-- Everything but the compare itself. -/
theorem detect_core {k : Cfg} (hk : Good k) {s : St} {d : Nat → Prop} (hr : Reach k s d)
    {c : Chunk} (hc : c ∈ s.chunks) {a n lo hi : Nat} (hn : 1 ≤ n)
    (hchk : ∃ q ∈ checks k a n, rd s.mem q.addr q.w = q.val)
    (hown : ∀ x, a ≤ x → x < a + (if n ≤ 2 then 2 else 4) → body k c x ∧ ¬ d x)
    (hlo4 : lo % 4 = 0) (hhi4 : hi % 4 = 0) (hlo : lo ≤ down4 a + 4) (hhi : down4 a + 4 ≤ hi)
    (hlen : k.rz < 2 * (hi - lo)) (hwin : ∀ x, lo ≤ x → x < hi → body k c x ∧ ¬ d x) :
    0 < (access k s.chunks s.mem a n).1 := by
  obtain ⟨hl, hi⟩ := reach_inv hk hr
  rw [access_pos]
  refine ⟨hchk, ?_, ?_, ?_⟩
  · exact looksBad_intact hk fun x h1 h2 => hi x ⟨c, hc, (hown x h1 h2).1⟩ (hown x h1 h2).2
  · exact preCheck_window hk hlo4 hhi4 hlo hhi hlen
      fun x h1 h2 => hi x ⟨c, hc, (hwin x h1 h2).1⟩ (hwin x h1 h2).2
  · refine lookup_body hl hc hn (hown a (Nat.le_refl _) ?_).1
    split <;> omega

/-- **C55.** With the compares pattern mode starts with: an access that starts in
    a redzone, in padding or in a freed block, at an even address or of one
    byte, is reported if its first bytes (two for an access of one or two bytes,
    four for larger ones) are undamaged guard bytes of one chunk, and so is a
    window of more than half a redzone around them. -/
theorem C55_detect {k : Cfg} (hk : Good k) (hfour : k.four = false) {s : St} {d : Nat → Prop}
    (hr : Reach k s d) {c : Chunk} (hc : c ∈ s.chunks) {a n lo hi : Nat} (hn : 1 ≤ n)
    (hpar : a % 2 = 0 ∨ n = 1)
    (hown : ∀ x, a ≤ x → x < a + (if n ≤ 2 then 2 else 4) → body k c x ∧ ¬ d x)
    (hlo4 : lo % 4 = 0) (hhi4 : hi % 4 = 0) (hlo : lo ≤ down4 a + 4) (hhi : down4 a + 4 ≤ hi)
    (hlen : k.rz < 2 * (hi - lo)) (hwin : ∀ x, lo ≤ x → x < hi → body k c x ∧ ¬ d x) :
    0 < (access k s.chunks s.mem a n).1 := by
  refine detect_core hk hr hc hn ?_ hown hlo4 hhi4 hlo hhi hlen hwin
  have hint : intact k.pat s.mem a (if n ≤ 2 then 2 else 4) := fun x h1 h2 =>
    (reach_inv hk hr).2 x ⟨c, hc, (hown x h1 h2).1⟩ (hown x h1 h2).2
  unfold checks
  by_cases h2 : n > 2
  · rw [if_pos h2]
    rw [if_neg (by omega)] at hint
    exact ⟨_, List.mem_singleton.mpr rfl, (rd4_P k hk.pat s.mem (a := a) (by omega)).mpr hint⟩
  · rw [if_neg h2]
    rw [if_pos (by omega)] at hint
    by_cases h3 : n = 2
    · rw [if_pos h3, hfour]
      exact ⟨_, List.mem_singleton.mpr rfl, (rd2_P k hk.pat s.mem (a := a) (by omega)).mpr hint⟩
    · rw [if_neg h3, if_pos (by omega), hfour]
      by_cases ha : a % 2 = 0
      · exact ⟨⟨a, 2, k.pat⟩, by simp, (rd2_P k hk.pat s.mem ha).mpr hint⟩
      · exact ⟨⟨a, 2, swap k.pat⟩, by simp, (rd2_R k s.mem (a := a) (by omega)).mpr hint⟩

/-- **C55.** The same with the four-byte compares pattern mode falls back to:
    here the four bytes from the access on, or — for two bytes at an even address
    and one byte at an odd one, if the displacement allows it — the four bytes
    starting two before it have to be undamaged guard bytes.  For one byte at an
    even address only the former: see `C55_four_misses`. -/
theorem C55_detect_four_partial {k : Cfg} (hk : Good k) (hfour : k.four = true) {s : St}
    {d : Nat → Prop} (hr : Reach k s d) {c : Chunk} (hc : c ∈ s.chunks) {a b n lo hi : Nat}
    (hn : 1 ≤ n) (hpar : a % 2 = 0 ∨ n = 1)
    (hb : b = a ∨ (b + 2 = a ∧ k.nodisp = false ∧
      ((n = 2 ∧ a % 2 = 0) ∨ (n = 1 ∧ a % 2 = 1))))
    (hown : ∀ x, b ≤ x → x < b + 4 → body k c x ∧ ¬ d x)
    (hlo4 : lo % 4 = 0) (hhi4 : hi % 4 = 0) (hlo : lo ≤ down4 a + 4) (hhi : down4 a + 4 ≤ hi)
    (hlen : k.rz < 2 * (hi - lo)) (hwin : ∀ x, lo ≤ x → x < hi → body k c x ∧ ¬ d x) :
    0 < (access k s.chunks s.mem a n).1 := by
  have hint : intact k.pat s.mem b 4 := fun x h1 h2 =>
    (reach_inv hk hr).2 x ⟨c, hc, (hown x h1 h2).1⟩ (hown x h1 h2).2
  have hown' : ∀ x, a ≤ x → x < a + (if n ≤ 2 then 2 else 4) → body k c x ∧ ¬ d x := by
    intro x h1 h2
    refine hown x (by omega) ?_
    split at h2 <;> omega
  refine detect_core hk hr hc hn ?_ hown' hlo4 hhi4 hlo hhi hlen hwin
  unfold checks
  by_cases h2 : n > 2
  · rw [if_pos h2]
    obtain rfl : b = a := by omega
    exact ⟨_, List.mem_singleton.mpr rfl, (rd4_P k hk.pat s.mem (a := b) (by omega)).mpr hint⟩
  · rw [if_neg h2]
    by_cases h3 : n = 2
    · rw [if_pos h3, hfour]
      rcases hb with rfl | ⟨hb, hnd, -⟩
      · refine ⟨⟨b, 4, P32 k⟩, ?_, (rd4_P k hk.pat s.mem (a := b) (by omega)).mpr hint⟩
        cases k.nodisp <;> simp
      · obtain rfl : b = a - 2 := by omega
        exact ⟨⟨a - 2, 4, P32 k⟩, by simp [hnd], (rd4_P k hk.pat s.mem (a := a - 2) (by omega)).mpr hint⟩
    · rw [if_neg h3, if_pos (by omega), hfour]
      rcases hb with rfl | ⟨hb, hnd, hh⟩
      · by_cases ha : b % 2 = 0
        · refine ⟨⟨b, 4, P32 k⟩, ?_, (rd4_P k hk.pat s.mem ha).mpr hint⟩
          cases k.nodisp <;> simp
        · refine ⟨⟨b, 4, R32 k⟩, ?_, (rd4_R k s.mem (a := b) (by omega)).mpr hint⟩
          cases k.nodisp <;> simp
      · obtain rfl : b = a - 2 := by omega
        exact ⟨⟨a - 2, 4, R32 k⟩, by simp [hnd], (rd4_R k s.mem (a := a - 2) (by omega)).mpr hint⟩

/-- **C55.** A heap overflow: an access at or behind the requested end of a live
    block, with its first bytes before the end of the redzone, is reported as
    long as the bytes behind the block are undamaged. -/
theorem C55_overflow {k : Cfg} (hk : Good k) (hfour : k.four = false) {s : St} {d : Nat → Prop}
    (hr : Reach k s d) {c : Chunk} (hc : c ∈ s.chunks)
    (hun : ∀ x, c.base + c.req ≤ x → x < c.base + c.pad + k.rz → ¬ d x)
    {a n : Nat} (hn : 1 ≤ n) (hpar : a % 2 = 0 ∨ n = 1) (ha : c.base + c.req ≤ a)
    (he : a + (if n ≤ 2 then 2 else 4) ≤ c.base + c.pad + k.rz) :
    0 < (access k s.chunks s.mem a n).1 := by
  have hf := (reach_inv hk hr).1.fit c hc
  have h4 := hk.rz4
  have hrz := hk.rz
  unfold fits at hf
  have hw : 2 ≤ (if n ≤ 2 then 2 else 4) := by split <;> omega
  refine C55_detect hk hfour hr hc hn hpar (lo := up4 (c.base + c.req))
    (hi := c.base + c.pad + k.rz) ?_ (by unfold up4; omega) (by omega)
    (by unfold up4 down4; omega) (by unfold down4; omega) (by unfold up4; omega) ?_
  · intro x h1 h2
    refine ⟨?_, hun x (by omega) (by omega)⟩
    unfold body
    omega
  · intro x h1 h2
    have : c.base + c.req ≤ x := by unfold up4 at h1; omega
    refine ⟨?_, hun x this h2⟩
    unfold body
    omega

/-- **C55.** A heap underflow: the same for the redzone before a block. -/
theorem C55_underflow {k : Cfg} (hk : Good k) (hfour : k.four = false) {s : St} {d : Nat → Prop}
    (hr : Reach k s d) {c : Chunk} (hc : c ∈ s.chunks)
    (hun : ∀ x, c.base ≤ x + k.rz → x < c.base → ¬ d x)
    {a n : Nat} (hn : 1 ≤ n) (hpar : a % 2 = 0 ∨ n = 1) (ha : c.base ≤ a + k.rz)
    (he : a + (if n ≤ 2 then 2 else 4) ≤ c.base) :
    0 < (access k s.chunks s.mem a n).1 := by
  have hf := (reach_inv hk hr).1.fit c hc
  have h4 := hk.rz4
  have hrz := hk.rz
  unfold fits at hf
  have hw : 2 ≤ (if n ≤ 2 then 2 else 4) := by split <;> omega
  refine C55_detect hk hfour hr hc hn hpar (lo := c.base - k.rz)
    (hi := c.base) ?_ (by omega) (by omega)
    (by unfold down4; omega) (by unfold down4; omega) (by omega) ?_
  · intro x h1 h2
    refine ⟨?_, hun x (by omega) (by omega)⟩
    unfold body
    omega
  · intro x h1 h2
    refine ⟨?_, hun x (by omega) h2⟩
    unfold body
    omega

/-- **C55.** A use after free: an access to a freed block that has not been handed
    out again is reported. -/
theorem C55_use_after_free {k : Cfg} (hk : Good k) (hfour : k.four = false) {s : St}
    {d : Nat → Prop} (hr : Reach k s d) {c : Chunk} (hc : c ∈ s.chunks) (hfree : c.live = false)
    (hun : ∀ x, c.base ≤ x + k.rz → x < c.base + c.pad + k.rz → ¬ d x)
    {a n : Nat} (hn : 1 ≤ n) (hpar : a % 2 = 0 ∨ n = 1) (ha : c.base ≤ a)
    (he : a < c.base + c.pad) :
    0 < (access k s.chunks s.mem a n).1 := by
  have hf := (reach_inv hk hr).1.fit c hc
  have h4 := hk.rz4
  have hrz := hk.rz
  unfold fits at hf
  have hw : (if n ≤ 2 then 2 else 4) ≤ 4 := by split <;> omega
  refine C55_detect hk hfour hr hc hn hpar (lo := c.base - k.rz)
    (hi := c.base + c.pad + k.rz) ?_ (by omega) (by omega)
    (by unfold down4; omega) (by unfold down4; omega) (by omega) ?_
  · intro x h1 h2
    refine ⟨⟨by omega, by omega, by simp [hfree]⟩, hun x (by omega) (by omega)⟩
  · intro x h1 h2
    exact ⟨⟨by omega, by omega, by simp [hfree]⟩, hun x (by omega) h2⟩

theorem barred_not_app {k : Cfg} {cs : List Chunk} (hl : Lay k cs) {x : Nat}
    (hb : Barred k cs x) : ¬ AppByte cs x := by
  rintro ⟨c, hc, hv, h1, h2⟩
  obtain ⟨d, hd, g1, g2, g3⟩ := hb
  have ec := overlapping_eq hl hc (a := x) (e := x) (by omega)
    (by have := hl.fit c hc; unfold fits at this; omega) (by omega)
  by_cases hx : d.base ≤ x + k.rz
  · have ed := overlapping_eq hl hd (a := x) (e := x) (by omega) g2 hx
    rw [ec] at ed
    cases ed
    exact g3 ⟨hv, h1, h2⟩
  · have ed := overlapping_eq hl hd (a := x) (e := d.base) (by omega) g2 (by omega)
    have ec := overlapping_eq hl hc (a := x) (e := d.base) (by omega)
      (by have := hl.fit c hc; unfold fits at this; omega) (by omega)
    rw [ec] at ed
    cases ed
    exact g3 ⟨hv, h1, h2⟩

/-- **C55.** No false alarms: whatever the memory holds, an access that is
    reported touches a byte of the heap that is not the application's. -/
theorem C55_sound {k : Cfg} (hk : Good k) {s : St} {d : Nat → Prop} (hr : Reach k s d)
    {a n : Nat} (hn : 1 ≤ n) (h : 0 < (access k s.chunks s.mem a n).1) :
    ∃ x, a ≤ x ∧ x < a + n ∧ Barred k s.chunks x ∧ ¬ AppByte s.chunks x := by
  have hl := (reach_inv hk hr).1
  rw [access_pos] at h
  obtain ⟨x, h1, h2, h3⟩ := lookup_sound hk hl hn h.2.2.2
  exact ⟨x, h1, h2, h3, barred_not_app hl h3⟩

/-- **C55.** An access inside the application's blocks raises nothing and changes
    nothing, even if the data there looks like the pattern. -/
theorem C55_app_quiet {k : Cfg} (hk : Good k) {s : St} {d : Nat → Prop} (hr : Reach k s d)
    {a n : Nat} (hn : 1 ≤ n) (h : ∀ x, a ≤ x → x < a + n → AppByte s.chunks x) :
    (access k s.chunks s.mem a n).1 = 0 ∧ (access k s.chunks s.mem a n).2 = s.mem := by
  have h0 : ¬ 0 < (access k s.chunks s.mem a n).1 := by
    intro hp
    obtain ⟨x, h1, h2, -, h4⟩ := C55_sound hk hr hn hp
    exact h4 (h x h1 h2)
  refine ⟨by omega, ?_⟩
  funext x
  rw [access_mem, if_neg (fun g => h0 g.1)]

/-- **C55.** One access is reported at most once, for a pattern without zero
    bytes. -/
theorem C55_once {k : Cfg} (hk : Good k) (hlow : k.pat % 256 ≠ 0) (hhigh : k.pat / 256 ≠ 0)
    (cs : List Chunk) (m : Mem) (a n : Nat) : (access k cs m a n).1 ≤ 1 := by
  unfold access
  generalize checks k a n = l
  induction l with
  | nil => simp [runChecks]
  | cons c r ih =>
    rw [runChecks]
    split
    · dsimp only
      unfold handleMemRef
      split
      · dsimp only
        rw [runChecks_zero k hk.pat hlow hhigh _ _ _ _ _ (by rw [wr0, if_pos rfl])]
        simp
      · simpa using ih
    · exact ih

/-- The events brought about by the tool and its allocator. -/
def Ev.tool : Ev → Prop
  | .store _ _ => False
  | .other => False
  | _ => True

/-- **C55, partial.** Pattern mode leaves the application's data alone: a byte of a
    live block keeps its value through every action of the tool, except that a
    report for an access starting at that very byte sets it to 0.  The full claim
    has no exception; `C55_clobber` shows that it fails. -/
theorem C55_transparent_partial {k : Cfg} (hk : Good k) {s s' : St} {d : Nat → Prop}
    (hr : Reach k s d) {e : Ev} (ht : e.tool) (h : Step k e s s') {x : Nat}
    (hx : AppByte s.chunks x) (hx' : AppByte s'.chunks x) :
    s'.mem x = s.mem x ∨
      ∃ n, e = .check x n ∧ 0 < (access k s.chunks s.mem x n).1 ∧ s'.mem x = 0 := by
  have hl := (reach_inv hk hr).1
  have hl' := lay_step hl h
  have hrz := hk.rz
  have hrz4 := hk.rz4
  have hhs4 := hk.hs4
  -- a live byte of another chunk keeps away from a chunk in the middle
  have away : ∀ {pre post : List Chunk} {c : Chunk}, Lay k (pre ++ c :: post) →
      AppByte (pre ++ post) x → x < c.base - k.rz ∨ c.base + c.pad + k.rz ≤ x := by
    intro pre post c hl ⟨q, hq, hv, h1, h2⟩
    obtain ⟨-, g1, g2⟩ := lay_mid hl
    have hf := hl.fit q (by
      rcases List.mem_append.mp hq with h | h
      · simp [h]
      · simp [h])
    unfold fits at hf
    rcases List.mem_append.mp hq with h | h
    · have := g1 q h
      unfold gap at this
      omega
    · have := g2 q h
      unfold gap at this
      omega
  have out : ∀ {pre post M : List Chunk}, AppByte (pre ++ (M ++ post)) x →
      (∀ q ∈ M, q.live = false) → AppByte (pre ++ post) x := by
    rintro pre post M ⟨q, hq, hv, hh⟩ hM
    simp only [List.mem_append] at hq
    rcases hq with hq | hq | hq
    · exact ⟨q, by simp [hq], hv, hh⟩
    · rw [hM q hq] at hv; cases hv
    · exact ⟨q, by simp [hq], hv, hh⟩
  cases h with
  | @malloc m pre post c live ok below above =>
    left
    have ha := away hl' hx
    unfold fits at ok
    show handleMalloc k m c x = m x
    unfold handleMalloc
    rw [writePattern_out hk (by omega) (by unfold up4; omega),
      writePattern_out hk (by omega) (by unfold up4; omega)]
  | @free m pre post c live =>
    left
    have ha := away hl (out (M := [_]) hx' (by simp))
    have hf := (lay_mid hl).1
    unfold fits at hf
    show handleFree k m c x = m x
    unfold handleFree
    rw [writePattern_out hk (by omega) (by unfold up4; omega)]
  | @reuse m pre post c freed =>
    left
    have ha := away hl hx'
    have hf := (lay_mid hl).1
    unfold fits at hf
    show handleReuse k m c x = m x
    unfold handleReuse zero
    rw [if_neg (by omega)]
  | @split m pre post c d' e freed cfreed dfreed cbase dbase size cok dok =>
    left
    have ha := away hl (out (M := [e]) hx (by simp [freed]))
    unfold fits at cok dok
    show newRedzone k (newRedzone k m _ _) _ _ x = m x
    unfold newRedzone
    rw [writePattern_out hk (by omega) (by unfold up4; omega),
      writePattern_out hk (by omega) (by unfold up4; omega)]
  | @join m pre post c d' e cfreed dfreed freed adj base size req =>
    left
    have ha := away hl' (out (M := [e]) hx' (by simp [freed]))
    have hf := hl.fit d' (by simp)
    unfold fits at hf
    show newRedzone k m _ _ x = m x
    unfold newRedzone
    rw [writePattern_out hk (by omega) (by unfold up4; omega)]
  | @resize m pre post c req live size =>
    left
    have hf := (lay_mid hl).1
    unfold fits at hf
    -- either the byte is of another chunk, or of this one before and after
    have hcase : (x < c.base - k.rz ∨ c.base + c.pad + k.rz ≤ x) ∨
        (c.base ≤ x ∧ x < c.base + c.req ∧ x < c.base + req) := by
      obtain ⟨q, hq, hv, h1, h2⟩ := hx
      simp only [List.mem_append, List.mem_cons] at hq
      rcases hq with hq | rfl | hq
      · exact Or.inl (away hl ⟨q, by simp [hq], hv, h1, h2⟩)
      · obtain ⟨q', hq', hv', h1', h2'⟩ := hx'
        simp only [List.mem_append, List.mem_cons] at hq'
        rcases hq' with hq' | rfl | hq'
        · exact Or.inl (away hl ⟨q', by simp [hq'], hv', h1', h2'⟩)
        · exact Or.inr ⟨h1, h2, h2'⟩
        · exact Or.inl (away hl ⟨q', by simp [hq'], hv', h1', h2'⟩)
      · exact Or.inl (away hl ⟨q, by simp [hq], hv, h1, h2⟩)
    show handleResize k m c req x = m x
    unfold handleResize
    by_cases g1 : c.req < req
    · rw [if_pos g1]
      show writePattern k (zero m _ _) _ _ x = m x
      rw [writePattern_out hk (by omega) (by unfold up4; omega)]
      unfold zero
      rw [if_neg (by omega)]
    · rw [if_neg g1]
      by_cases g2 : req < c.req
      · rw [if_pos g2, writePattern_out hk (by omega) (by unfold up4; omega)]
      · rw [if_neg g2]
  | store a v => exact ht.elim
  | @check m cs a n =>
    show (access k cs m a n).2 x = m x ∨ _
    rw [access_mem]
    split
    · rename_i h
      right
      obtain ⟨h1, rfl⟩ := h
      refine ⟨n, rfl, h1, ?_⟩
      show (access k cs m x n).2 x = 0
      rw [access_mem, if_pos ⟨h1, rfl⟩]
    · exact Or.inl rfl
  | other away => exact ht.elim

/-! ## A concrete heap, and what pattern mode misses -/

/-- The default settings: pattern 0xf1fd, redzones of 16 bytes. -/
def k0 : Cfg := ⟨0xf1fd, 16, 48, false, false⟩

/-- The same after the switch to four-byte compares. -/
def k4 : Cfg := ⟨0xf1fd, 16, 48, true, false⟩

theorem good0 : Good k0 := ⟨by decide, by decide, by decide, by decide, by decide⟩
theorem good4 : Good k4 := ⟨by decide, by decide, by decide, by decide, by decide⟩

/-- A block of 14 bytes at 1024, padded to 16. -/
def c0 : Chunk := ⟨1024, 14, 16, true⟩

/-- Memory after it was handed out. -/
def m0 (k : Cfg) : Mem := handleMalloc k (fun _ => 0) c0

theorem reach0 (k : Cfg) (hf : fits k c0) :
    Reach k ⟨m0 k, [c0]⟩ (damage k (.malloc c0) ⟨fun _ => 0, []⟩ fun _ => False) :=
  .step (.start fun _ => 0) (.malloc (pre := []) (post := []) rfl hf (by simp) (by simp))

theorem fit0 : fits k0 c0 := by unfold fits; decide
theorem fit4 : fits k4 c0 := by unfold fits; decide

/-- A two-byte overflow at the padding, a read just before the block, and after
    the free a read of the first byte: all reported, once each. -/
example : (access k0 [c0] (m0 k0) 1038 2).1 = 1 ∧ (access k0 [c0] (m0 k0) 1020 4).1 = 1 ∧
    (access k0 [{ c0 with live := false }] (handleFree k0 (m0 k0) c0) 1024 1).1 = 1 := by
  decide +kernel

example : 0 < (access k0 [c0] (m0 k0) 1038 2).1 :=
  C55_overflow good0 rfl (reach0 k0 fit0) (c := c0) (by simp)
    (by intro x _ _ h; exact h.1) (by decide) (Or.inl rfl) (by decide) (by decide)

example : 0 < (access k0 [c0] (m0 k0) 1020 4).1 :=
  C55_underflow good0 rfl (reach0 k0 fit0) (c := c0) (by simp)
    (by intro x _ _ h; exact h.1) (by decide) (Or.inl rfl) (by decide) (by decide)

example : 0 < (access k4 [c0] (m0 k4) 1054 2).1 :=
  C55_detect_four_partial good4 rfl (reach0 k4 fit4) (c := c0) (b := 1052) (lo := 1040) (hi := 1056)
    (by simp) (by decide) (Or.inl rfl) (Or.inr ⟨rfl, rfl, Or.inl ⟨rfl, rfl⟩⟩)
    (by intro x h1 h2; refine ⟨?_, fun h => h.1⟩; unfold body; simp only [c0, k4]; omega)
    (by decide) (by decide) (by decide) (by decide) (by decide)
    (by intro x h1 h2; refine ⟨?_, fun h => h.1⟩; unfold body; simp only [c0, k4]; omega)

example : 0 < (access k0 [{ c0 with live := false }] (handleFree k0 (m0 k0) c0) 1027 1).1 :=
  C55_use_after_free good0 rfl
    (.step (reach0 k0 fit0) (.free (pre := []) (post := []) (c := c0) rfl))
    (c := { c0 with live := false }) (by simp) rfl
    (by intro x _ _ h; exact h.1.1) (by decide) (Or.inr rfl) (by decide) (by decide)

/-- Data of the application that equals the pattern is left in peace. -/
example : (access k0 [c0] (wr (m0 k0) 1032 (P32 k0) 4) 1032 4).1 = 0 := by decide +kernel

/-- **C55.** Missed: a read of the last byte of a redzone (two bytes are compared,
    and the second one is the application's). -/
theorem C55_last_byte_missed : Barred k0 [c0] 1023 ∧ (access k0 [c0] (m0 k0) 1023 1).1 = 0 :=
  ⟨⟨c0, by simp, by decide, by decide, by decide⟩, by decide +kernel⟩

/-- **C55.** Missed: a four-byte access in the middle of a redzone at an odd
    address (only the pattern itself is compared, not its reverse). -/
theorem C55_odd_missed : (∀ x, 1041 ≤ x → x < 1045 → Barred k0 [c0] x) ∧
    (access k0 [c0] (m0 k0) 1041 4).1 = 0 := by
  refine ⟨fun x h1 h2 => ⟨c0, by simp, ?_, ?_, ?_⟩, by decide +kernel⟩ <;>
    (simp only [c0, k0]; omega)

/-- **C55.** Missed: an eight-byte access that starts six bytes before the end of a
    block and so runs over it (only the first four bytes are compared). -/
theorem C55_tail_missed : AppByte [c0] 1037 ∧ Barred k0 [c0] 1038 ∧ Barred k0 [c0] 1039 ∧
    (access k0 [c0] (m0 k0) 1032 8).1 = 0 :=
  ⟨⟨c0, by simp, by decide, by decide, by decide⟩,
    ⟨c0, by simp, by decide, by decide, by decide⟩,
    ⟨c0, by simp, by decide, by decide, by decide⟩, by decide +kernel⟩

/-- **C55.** Missed after the switch to four-byte compares: a one-byte access at
    the last even address of a redzone, which the two-byte compares report.  The
    compare `[ref-2]` with the pattern is meant for it, but the code moves the
    displacement of the wrong operand. -/
theorem C55_four_misses : Barred k4 [c0] 1022 ∧
    (access k0 [c0] (m0 k0) 1022 1).1 = 1 ∧ (access k4 [c0] (m0 k4) 1022 1).1 = 0 :=
  ⟨⟨c0, by simp, by decide, by decide, by decide⟩, by decide +kernel, by decide +kernel⟩

/-- **C55.** Missed: the second error in the same redzone, after the tool has cleared
    a byte in its middle on the first report. -/
theorem C55_second_missed : (access k0 [c0] (m0 k0) 1044 4).1 = 1 ∧
    (access k0 [c0] (m0 k0) 1048 4).1 = 1 ∧
    (access k0 [c0] (access k0 [c0] (m0 k0) 1044 4).2 1048 4).1 = 0 := by
  decide +kernel

/-- **C55.** The tool changes the application's data: the last two bytes of the
    block are stored as `fd f1`; a read of four bytes there, running over the
    end, is reported, and the first of the two bytes becomes 0. -/
theorem C55_clobber : ∃ (s : St) (d : Nat → Prop), Reach k0 s d ∧ AppByte s.chunks 1036 ∧
    s.mem 1036 = 0xfd ∧ (access k0 s.chunks s.mem 1036 4).2 1036 = 0 := by
  refine ⟨⟨_, [c0]⟩, _, .step (.step (reach0 k0 fit0) (.store 1036 0xfd)) (.store 1037 0xf1),
    ⟨c0, by simp, by decide, by decide, by decide⟩, ?_, ?_⟩
  · decide +kernel
  · decide +kernel

end Verif.Pattern
