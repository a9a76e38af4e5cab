import Verif.HeapStatRun

/-!
# C68: helper lemmas about what the snapshots hold
-/

namespace Verif.HeapStat

/-! ## Specification -/

/-- Error of `tot_mallocs`: every `realloc` in place counts as an allocation or as a free. -/
def driftOf : Ev → Int
  | .resize b b' => if b.req + b.pad < b'.req + b'.pad then 1 else -1
  | _ => 0

/-- The error after the events. -/
def drift (evs : List Ev) : Int := (evs.map driftOf).sum

/-- The snapshot holds what was live after the events `p`. -/
def Holds (c : Cfg) (p : List Ev) (x : Snap) : Prop :=
  Exact c.hdr (live p) x ∧ x.mallocs = (live p).length + drift p

/-- The bytes counted as occupied after the events `p`. -/
def occ (c : Cfg) (p : List Ev) : Int :=
  (total Blk.req (live p) : Int) + (total Blk.pad (live p) : Int) +
    ((c.hdr * (live p).length : Nat) : Int)

/-- What the application and the allocator may do: sizes that can be handled, fewer than `2^32`
blocks, only live blocks are freed or resized, a resized block keeps its call stack. -/
def ValidStep (hdr : Nat) (l : List Blk) : Ev → Prop
  | .malloc b => Fits hdr b ∧ l.length + 1 < 4294967296
  | .free b => b ∈ l
  | .resize b b' => b ∈ l ∧ b'.cs = b.cs ∧ Fits hdr b'
  | .tick => True
  | .dump _ => True

/-- A valid sequence of events, starting with the live blocks `l`. -/
def Valid (hdr : Nat) : List Blk → List Ev → Prop
  | _, [] => True
  | l, e :: es => ValidStep hdr l e ∧ Valid hdr (liveStep l e) es

/-- A block that is resized in place to the same or a larger size does not get less space. -/
def Grows : Ev → Prop
  | .resize b b' => b.req ≤ b'.req → b.pad ≤ b'.pad
  | _ => True

/-- The snapshot was taken in the course of some event, when the time reached its stamp, and holds
what was live then. -/
def Recorded (c : Cfg) (f0 : Nat) (past : List Ev) (x : Snap) : Prop :=
  ∃ p e sp sq, (p ++ [e]) <+: past ∧ run c (init f0) p = .ok sp ∧
    run c (init f0) (p ++ [e]) = .ok sq ∧ sp.stamp < x.stamp ∧ x.stamp ≤ sq.stamp ∧
    Holds c (p ++ [e]) x

/-! ## Invariants -/

/-- Between two events. -/
structure Good (c : Cfg) (f0 : Nat) (past : List Ev) (s : State) : Prop where
  ran : run c (init f0) past = .ok s
  pos : Pos s
  cur : Holds c past (s.snaps s.idx)
  fit : ∀ b ∈ live past, Fits c.hdr b
  len : (live past).length < 4294967296
  hist : ∀ i, i ≠ s.idx → 0 < stamps s i → Recorded c f0 past (s.snaps i)
  peak : ∃ p, p <+: past ∧ Holds c p s.peak
  cover : (∀ e ∈ past, Grows e) → ∀ p, p <+: past →
    100 * occ c p ≤ (100 + c.thr) * s.peak.occupied ∨ occ c p ≤ (s.snaps s.idx).occupied

/-- During the event `e`. -/
structure Mid (c : Cfg) (f0 : Nat) (past : List Ev) (e : Ev) (s0 s : State) : Prop where
  time : s0.stamp ≤ s.stamp
  pos : Pos s
  cur : Holds c (past ++ [e]) (s.snaps s.idx)
  hist : ∀ i, i ≠ s.idx → 0 < stamps s i → Recorded c f0 past (s.snaps i) ∨
    (s0.stamp < stamps s i ∧ stamps s i ≤ s.stamp ∧ Holds c (past ++ [e]) (s.snaps i))
  peak : ∃ p, p <+: past ++ [e] ∧ Holds c p s.peak
  cover : (∀ e' ∈ past ++ [e], Grows e') → ∀ p, p <+: past ++ [e] →
    100 * occ c p ≤ (100 + c.thr) * s.peak.occupied ∨ occ c p ≤ (s.snaps s.idx).occupied

theorem holds_occ (c : Cfg) (p : List Ev) (x : Snap) (h : Holds c p x) : x.occupied = occ c p :=
  h.1.occupied

theorem occ_nonneg (c : Cfg) (p : List Ev) : 0 ≤ occ c p := by
  unfold occ; omega

theorem holds_stamp (c : Cfg) (p : List Ev) (x : Snap) (t : Nat) (h : Holds c p x) :
    Holds c p { x with stamp := t } :=
  ⟨⟨h.1.asked, h.1.usable, h.1.occupied, h.1.nodes⟩, h.2⟩

theorem recorded_mono (c : Cfg) (f0 : Nat) (p q : List Ev) (x : Snap) (h : p <+: q)
    (hr : Recorded c f0 p x) : Recorded c f0 q x := by
  obtain ⟨a, e, sp, sq, h1, h2⟩ := hr
  exact ⟨a, e, sp, sq, h1.trans h, h2⟩

/-- After the check the peak covers the snapshot in progress. -/
theorem check_covers (c : Cfg) (s : State) (h0 : 0 ≤ s.peak.occupied) :
    100 * (s.snaps s.idx).occupied ≤ (100 + c.thr) * (checkPeak c s).peak.occupied ∧
    s.peak.occupied ≤ (checkPeak c s).peak.occupied := by
  have hmul : 0 ≤ (c.thr : Int) * s.peak.occupied := Int.mul_nonneg (by omega) h0
  unfold checkPeak
  by_cases hn : newPeak c s = true
  · rw [if_pos hn]
    unfold newPeak at hn
    rw [Bool.and_eq_true, decide_eq_true_eq] at hn
    dsimp only
    have : 0 ≤ (c.thr : Int) * (s.snaps s.idx).occupied := Int.mul_nonneg (by omega) (by omega)
    rw [Int.add_mul]
    omega
  · rw [if_neg hn]
    refine ⟨?_, Int.le_refl _⟩
    rw [Int.add_mul]
    by_cases hgt : (s.snaps s.idx).occupied > s.peak.occupied
    · have : exceeds (s.snaps s.idx).occupied s.peak.occupied c.thr = false := by
        cases he : exceeds (s.snaps s.idx).occupied s.peak.occupied c.thr with
        | false => rfl
        | true =>
          refine absurd ?_ hn
          unfold newPeak
          rw [he, decide_eq_true hgt]
          rfl
      unfold exceeds at this
      rw [if_pos hgt, decide_eq_false_iff_not] at this
      omega
    · omega

/-- The invariant of the peak after a check. -/
theorem check_keeps (c : Cfg) (s : State) (Q : Int → Prop) (h0 : 0 ≤ s.peak.occupied)
    (h : ∀ o, Q o → 100 * o ≤ (100 + c.thr) * s.peak.occupied ∨ o ≤ (s.snaps s.idx).occupied) :
    ∀ o, Q o → 100 * o ≤ (100 + c.thr) * (checkPeak c s).peak.occupied := by
  intro o ho
  obtain ⟨h1, h2⟩ := check_covers c s h0
  rcases h o ho with h3 | h3
  · have : (100 + (c.thr : Int)) * s.peak.occupied ≤ (100 + c.thr) * (checkPeak c s).peak.occupied :=
      Int.mul_le_mul_of_nonneg_left h2 (by omega)
    omega
  · omega

theorem check_peak_eq (c : Cfg) (s : State) :
    (checkPeak c s).peak = s.peak ∨ (checkPeak c s).peak = s.snaps s.idx := by
  unfold checkPeak; split
  · exact Or.inr rfl
  · exact Or.inl rfl

/-- The check before a free keeps the invariant. -/
theorem good_check (c : Cfg) (f0 : Nat) (past : List Ev) (s : State) (h : Good c f0 past s) :
    (∃ p, p <+: past ∧ Holds c p (checkPeak c s).peak) ∧
    ((∀ e ∈ past, Grows e) → ∀ p, p <+: past →
      100 * occ c p ≤ (100 + c.thr) * (checkPeak c s).peak.occupied) := by
  obtain ⟨p0, hp0, hh⟩ := h.peak
  constructor
  · rcases check_peak_eq c s with e | e
    · rw [e]; exact h.peak
    · rw [e]; exact ⟨past, List.prefix_rfl, h.cur⟩
  · intro hg p hp
    refine check_keeps c s (fun o => ∃ p, p <+: past ∧ o = occ c p) ?_ ?_ _ ⟨p, hp, rfl⟩
    · rw [holds_occ c p0 _ hh]; exact occ_nonneg c p0
    · rintro o ⟨q, hq, rfl⟩
      exact h.cover hg q hq

/-- `take` keeps the invariant. -/
theorem mid_take (c : Cfg) (f0 : Nat) (past : List Ev) (e : Ev) (s0 s s' : State)
    (h : Mid c f0 past e s0 s) (ht : take c s = .ok s') : Mid c f0 past e s0 s' := by
  have t := take_taken c s s' ht
  have hcur : Holds c (past ++ [e]) { s.snaps s.idx with stamp := s.stamp + s.freq } :=
    holds_stamp c _ _ _ h.cur
  obtain ⟨p0, hp0, hh⟩ := h.peak
  let s1 : State := { s with
    stamp := s.stamp + s.freq
    snaps := setSnap s.snaps s.idx { s.snaps s.idx with stamp := s.stamp + s.freq } }
  have hpk : s'.peak = (checkPeak c s1).peak := t.peak
  have hs1 : s1.snaps s1.idx = { s.snaps s.idx with stamp := s.stamp + s.freq } :=
    setSnap_eq _ _ _
  have hs1o : (s1.snaps s1.idx).occupied = (s.snaps s.idx).occupied := by rw [hs1]
  constructor
  · rw [t.stamp]; have := h.time; omega
  · exact t.pos h.pos
  · rw [t.cur]; exact hcur
  · intro i hi hpos
    by_cases e1 : i = s.idx
    · subst e1
      right
      have e2 := t.old hi
      show s0.stamp < (s'.snaps s.idx).stamp ∧ (s'.snaps s.idx).stamp ≤ s'.stamp ∧ _
      rw [e2, t.stamp]
      refine ⟨?_, Nat.le_refl _, hcur⟩
      show s0.stamp < s.stamp + s.freq
      have := h.time
      have := h.pos.1
      omega
    · have e2 := t.rest i e1 hi
      have hpos : 0 < (s'.snaps i).stamp := hpos
      show Recorded c f0 past (s'.snaps i) ∨
        (s0.stamp < (s'.snaps i).stamp ∧ (s'.snaps i).stamp ≤ s'.stamp ∧ _)
      rw [e2] at hpos ⊢
      rcases h.hist i e1 hpos with h1 | ⟨h1, h2, h3⟩
      · exact Or.inl h1
      · refine Or.inr ⟨h1, ?_, h3⟩
        have h2 : (s.snaps i).stamp ≤ s.stamp := h2
        rw [t.stamp]; omega
  · rw [hpk]
    rcases check_peak_eq c s1 with e1 | e1
    · rw [e1]; exact h.peak
    · rw [e1, hs1]; exact ⟨_, List.prefix_rfl, hcur⟩
  · intro hg p hp
    left
    rw [hpk]
    refine check_keeps c s1 (fun o => ∃ p, p <+: past ++ [e] ∧ o = occ c p) ?_ ?_ _ ⟨p, hp, rfl⟩
    · show 0 ≤ s.peak.occupied
      rw [holds_occ c p0 _ hh]; exact occ_nonneg c p0
    · rintro o ⟨q, hq, rfl⟩
      rw [hs1o]
      exact h.cover hg q hq

theorem mid_cnt (c : Cfg) (f0 : Nat) (past : List Ev) (e : Ev) (s0 s : State) (x : Int) (a : Nat)
    (h : Mid c f0 past e s0 s) : Mid c f0 past e s0 { s with cnt := x, afCur := a } :=
  ⟨h.time, h.pos, h.cur, h.hist, h.peak, h.cover⟩

/-- The end of the event. -/
theorem mid_good (c : Cfg) (f0 : Nat) (past : List Ev) (e : Ev) (s s' : State)
    (h : Good c f0 past s) (hstep : step c s e = .ok s') (hm : Mid c f0 past e s s')
    (hv : ValidStep c.hdr (live past) e) : Good c f0 (past ++ [e]) s' := by
  have hran := run_snoc c past e _ s s' h.ran hstep
  refine ⟨hran, hm.pos, hm.cur, ?_, ?_, ?_, hm.peak, hm.cover⟩
  · rw [live_snoc]
    intro b hb
    cases e with
    | malloc b' =>
      rcases List.mem_cons.mp hb with e | hb
      · rw [e]; exact hv.1
      · exact h.fit b hb
    | free b' => exact h.fit b (List.mem_of_mem_erase hb)
    | resize b1 b2 =>
      rcases List.mem_cons.mp hb with e | hb
      · rw [e]; exact hv.2.2
      · exact h.fit b (List.mem_of_mem_erase hb)
    | tick => exact h.fit b hb
    | dump d => exact h.fit b hb
  · rw [live_snoc]
    have hl := h.len
    cases e with
    | malloc b' => exact hv.2
    | free b' => exact Nat.lt_of_le_of_lt List.length_erase_le hl
    | resize b1 b2 =>
      show (b2 :: (live past).erase b1).length < _
      have := total_erase (fun _ => 1) b1 (live past) hv.1
      rw [total_len, total_len] at this
      rw [List.length_cons]; omega
    | tick => exact hl
    | dump d => exact hl
  · intro i hi hpos
    rcases hm.hist i hi hpos with h1 | ⟨h1, h2, h3⟩
    · exact recorded_mono c f0 past _ _ (List.prefix_append _ _) h1
    · exact ⟨past, e, s, s', List.prefix_rfl, h.ran, hran, h1, h2, h3⟩

theorem prefix_snoc (p q : List Ev) (e : Ev) (h : p <+: q ++ [e]) : p <+: q ∨ p = q ++ [e] := by
  rcases List.prefix_concat_iff.mp (by simpa using h) with h | h
  · right; simpa using h
  · left; exact h

theorem drift_snoc (p : List Ev) (e : Ev) : drift (p ++ [e]) = drift p + driftOf e := by
  unfold drift; rw [List.map_append, List.sum_append]; simp

/-- The start of an event that changes the heap: `s1` is `s`, perhaps with a new peak. -/
theorem mid_pre (c : Cfg) (f0 : Nat) (past : List Ev) (e : Ev) (s s1 : State) (x : Snap)
    (h : Good c f0 past s) (h1 : s1 = s ∨ s1 = checkPeak c s)
    (hx : Holds c (past ++ [e]) x)
    (hocc : Grows e → s1 = checkPeak c s ∨ (s.snaps s.idx).occupied ≤ x.occupied) :
    Mid c f0 past e s { s1 with snaps := setSnap s1.snaps s1.idx x } := by
  have hi : s1.idx = s.idx := by
    rcases h1 with h1 | h1
    · rw [h1]
    · rw [h1, checkPeak_idx]
  have hsn : s1.snaps = s.snaps := by
    rcases h1 with h1 | h1
    · rw [h1]
    · rw [h1, checkPeak_snaps]
  have hstamp : s1.stamp = s.stamp := by
    rcases h1 with h1 | h1
    · rw [h1]
    · rw [h1, checkPeak_stamp]
  have hfreq : s1.freq = s.freq := by
    rcases h1 with h1 | h1
    · rw [h1]
    · rw [h1, checkPeak_freq]
  have hchk := good_check c f0 past s h
  have hpre : past <+: past ++ [e] := List.prefix_append _ _
  have hpos : Pos s := h.pos
  constructor
  · show s.stamp ≤ s1.stamp
    rw [hstamp]
  · refine ⟨by show 0 < s1.freq; rw [hfreq]; exact hpos.1, fun i hi' => ?_⟩
    have hi' : i < s1.idx := hi'
    show 0 < (setSnap s1.snaps s1.idx x i).stamp
    rw [setSnap_ne _ _ _ _ (by omega), hsn]
    exact hpos.2 i (by omega)
  · show Holds c (past ++ [e]) (setSnap s1.snaps s1.idx x s1.idx)
    rw [setSnap_eq]; exact hx
  · intro i hne hp
    have hne : i ≠ s1.idx := hne
    have hp : 0 < (setSnap s1.snaps s1.idx x i).stamp := hp
    show Recorded c f0 past (setSnap s1.snaps s1.idx x i) ∨ _
    rw [setSnap_ne _ _ _ _ hne, hsn] at hp ⊢
    exact Or.inl (h.hist i (by rw [← hi]; exact hne) hp)
  · show ∃ p, p <+: past ++ [e] ∧ Holds c p s1.peak
    rcases h1 with h1 | h1
    · rw [h1]
      obtain ⟨p, hp, hh⟩ := h.peak
      exact ⟨p, hp.trans hpre, hh⟩
    · rw [h1]
      obtain ⟨p, hp, hh⟩ := hchk.1
      exact ⟨p, hp.trans hpre, hh⟩
  · intro hg p hp
    show 100 * occ c p ≤ (100 + c.thr) * s1.peak.occupied ∨
      occ c p ≤ (setSnap s1.snaps s1.idx x s1.idx).occupied
    rw [setSnap_eq]
    have hg' : ∀ e' ∈ past, Grows e' := fun e' he => hg e' (List.mem_append_left _ he)
    rcases prefix_snoc p past e hp with hp | hp
    · rcases hocc (hg e (List.mem_append_right _ (List.mem_singleton.mpr rfl))) with h2 | h2
      · left; rw [h2]; exact hchk.2 hg' p hp
      · rcases h1 with h1 | h1
        · rw [h1]
          rcases h.cover hg' p hp with h3 | h3
          · exact Or.inl h3
          · right; omega
        · left; rw [h1]; exact hchk.2 hg' p hp
    · right
      rw [hp, holds_occ c _ _ hx]

/-- An event that does not change the heap. -/
theorem holds_same (c : Cfg) (past : List Ev) (e : Ev) (x : Snap) (h : Holds c past x)
    (hl : ∀ l, liveStep l e = l) (hd : driftOf e = 0) : Holds c (past ++ [e]) x := by
  unfold Holds
  rw [live_snoc, hl, drift_snoc, hd, Int.add_zero]
  exact h

/-- One event keeps the invariant. -/
theorem good_step (c : Cfg) (f0 : Nat) (past : List Ev) (e : Ev) (s s' : State)
    (h : Good c f0 past s) (hv : ValidStep c.hdr (live past) e) (hs : step c s e = .ok s') :
    Good c f0 (past ++ [e]) s' := by
  refine mid_good c f0 past e s s' h hs ?_ hv
  have hpost : ∀ d s1 s2, Mid c f0 past e s s1 → post c d s1 = .ok s2 → Mid c f0 past e s s2 :=
    fun d s1 s2 hm hp => post_ind c (Mid c f0 past e s)
      (fun s1 x a hm => mid_cnt c f0 past e s s1 x a hm)
      (fun s1 s2 hm ht => mid_take c f0 past e s s1 s2 hm ht) d s1 s2 hm hp
  cases e with
  | malloc b =>
    rw [step_malloc] at hs
    obtain ⟨x, h1, h2⟩ := account_ok _ _ _ _ _ _ _ _ _ hs
    obtain ⟨x', e1, e2, e3, e4⟩ := pre_malloc c.hdr (live past) _ b h.cur.1 hv.1 hv.2
    rw [h1] at e1; injection e1 with e1; subst e1
    refine hpost _ _ _ (mid_pre c f0 past (.malloc b) s s x h (Or.inl rfl) ?_ (fun _ => Or.inr ?_)) h2
    · refine ⟨by rw [live_snoc]; exact e2, ?_⟩
      rw [e3, h.cur.2, drift_snoc, live_snoc]
      show _ = ((b :: live past).length : Int) + (drift past + 0)
      rw [List.length_cons]; push_cast; omega
    · rw [e2.occupied, h.cur.1.occupied, total_cons, total_cons, List.length_cons, Nat.mul_succ]
      push_cast; omega
  | free b =>
    rw [step_free] at hs
    obtain ⟨x, h1, h2⟩ := account_ok _ _ _ _ _ _ _ _ _ hs
    rw [checkPeak_snaps, checkPeak_idx] at h1
    obtain ⟨x', e1, e2, e3, e4⟩ := pre_free c.hdr (live past) _ b h.cur.1
      (h.fit b hv) hv h.len
    rw [h1] at e1; injection e1 with e1; subst e1
    refine hpost _ _ _ (mid_pre c f0 past (.free b) s (checkPeak c s) x h (Or.inr rfl) ?_
      (fun _ => Or.inl rfl)) h2
    refine ⟨by rw [live_snoc]; exact e2, ?_⟩
    rw [e3, h.cur.2, drift_snoc, live_snoc]
    show _ = (((live past).erase b).length : Int) + (drift past + 0)
    have := total_erase (fun _ => 1) b (live past) hv
    rw [total_len, total_len] at this
    omega
  | resize b b' =>
    rw [step_resize] at hs
    obtain ⟨x, h1, h2⟩ := account_ok _ _ _ _ _ _ _ _ _ hs
    have hsn : (if b'.req < b.req then checkPeak c s else s).snaps
        (if b'.req < b.req then checkPeak c s else s).idx = s.snaps s.idx := by
      split
      · rw [checkPeak_snaps, checkPeak_idx]
      · rfl
    rw [hsn] at h1
    obtain ⟨x', e1, e2, e3, e4⟩ := pre_resize c.hdr (live past) _ b b' h.cur.1
      (h.fit b hv.1) hv.2.2 hv.1 hv.2.1 h.len
    rw [h1] at e1; injection e1 with e1; subst e1
    refine hpost _ _ _ (mid_pre c f0 past (.resize b b') s
      (if b'.req < b.req then checkPeak c s else s) x h ?_ ?_ ?_) h2
    · split
      · exact Or.inr rfl
      · exact Or.inl rfl
    · refine ⟨by rw [live_snoc]; exact e2, ?_⟩
      rw [e3, h.cur.2, drift_snoc, live_snoc]
      show _ = ((b' :: (live past).erase b).length : Int) +
        (drift past + (if b.req + b.pad < b'.req + b'.pad then 1 else -1))
      have := total_erase (fun _ => 1) b (live past) hv.1
      rw [total_len, total_len] at this
      rw [List.length_cons]
      push_cast
      omega
    · intro hg
      by_cases hlt : b'.req < b.req
      · left; rw [if_pos hlt]
      · right
        have hg : b.req ≤ b'.req → b.pad ≤ b'.pad := hg
        have hp := hg (by omega)
        have t1 := total_erase Blk.req b (live past) hv.1
        have t2 := total_erase Blk.pad b (live past) hv.1
        have t3 := total_erase (fun _ => 1) b (live past) hv.1
        rw [total_len, total_len] at t3
        rw [e2.occupied, h.cur.1.occupied, total_cons, total_cons, List.length_cons,
          show (List.erase (live past) b).length + 1 = (live past).length by omega]
        omega
  | tick =>
    have hm : Mid c f0 past .tick s s := by
      have hc := holds_same c past .tick _ h.cur (fun _ => rfl) rfl
      refine ⟨Nat.le_refl _, h.pos, hc, fun i hi hp => Or.inl (h.hist i hi hp), ?_, ?_⟩
      · obtain ⟨p, hp, hh⟩ := h.peak
        exact ⟨p, hp.trans (List.prefix_append _ _), hh⟩
      · intro hg p hp
        rcases prefix_snoc p past .tick hp with hp | hp
        · exact h.cover (fun e' he => hg e' (List.mem_append_left _ he)) p hp
        · right; rw [hp, holds_occ c _ _ hc]
    exact mid_take c f0 past .tick s s s' hm hs
  | dump d =>
    injection hs with hs
    subst hs
    let s1 : State := { s with
      snaps := setSnap s.snaps s.idx { s.snaps s.idx with stamp := s.stamp + elapsed c s d } }
    have hs1 : s1.snaps s1.idx = { s.snaps s.idx with stamp := s.stamp + elapsed c s d } :=
      setSnap_eq _ _ _
    have hs1o : (s1.snaps s1.idx).occupied = (s.snaps s.idx).occupied := by rw [hs1]
    have hc : Holds c (past ++ [.dump d]) (s1.snaps s1.idx) := by
      rw [hs1]
      exact holds_stamp c _ _ _ (holds_same c past (.dump d) _ h.cur (fun _ => rfl) rfl)
    obtain ⟨p0, hp0, hh⟩ := h.peak
    have hd : dumpState c d s = checkPeak c s1 := rfl
    rw [hd]
    refine ⟨?_, ?_, ?_, ?_, ?_, ?_⟩
    · rw [checkPeak_stamp]
    · refine ⟨by rw [checkPeak_freq]; exact h.pos.1, fun i hi => ?_⟩
      rw [checkPeak_idx] at hi
      have hi : i < s.idx := hi
      show 0 < ((checkPeak c s1).snaps i).stamp
      rw [checkPeak_snaps]
      show 0 < (setSnap s.snaps s.idx _ i).stamp
      rw [setSnap_ne _ _ _ _ (by omega)]
      exact h.pos.2 i hi
    · rw [checkPeak_snaps, checkPeak_idx]; exact hc
    · intro i hi hp
      rw [checkPeak_idx] at hi
      have hi : i ≠ s.idx := hi
      have hp : 0 < ((checkPeak c s1).snaps i).stamp := hp
      have he : (checkPeak c s1).snaps i = s.snaps i := by
        rw [checkPeak_snaps]; exact setSnap_ne _ _ _ _ hi
      rw [he] at hp ⊢
      exact Or.inl (h.hist i hi hp)
    · rcases check_peak_eq c s1 with e1 | e1
      · rw [e1]; exact ⟨p0, hp0.trans (List.prefix_append _ _), hh⟩
      · rw [e1]; exact ⟨_, List.prefix_rfl, hc⟩
    · intro hg p hp
      left
      refine check_keeps c s1 (fun o => ∃ p, p <+: past ++ [.dump d] ∧ o = occ c p) ?_ ?_ _
        ⟨p, hp, rfl⟩
      · show 0 ≤ s.peak.occupied
        rw [holds_occ c p0 _ hh]; exact occ_nonneg c p0
      · rintro o ⟨q, hq, rfl⟩
        rw [hs1o]
        rcases prefix_snoc q past (.dump d) hq with hq | hq
        · exact h.cover (fun e' he => hg e' (List.mem_append_left _ he)) q hq
        · right; rw [hq, ← hs1o, holds_occ c _ _ hc]

theorem good_init (c : Cfg) (f0 : Nat) (hf : 0 < f0) : Good c f0 [] (init f0) := by
  have he : Holds c [] ({} : Snap) := by
    refine ⟨⟨rfl, rfl, ?_, fun cs => rfl⟩, rfl⟩
    show (0 : Int) = 0 + 0 + ((c.hdr * 0 : Nat) : Int)
    omega
  refine ⟨rfl, ⟨hf, fun i hi => absurd hi (Nat.not_lt_zero _)⟩, he,
    fun b hb => absurd hb List.not_mem_nil, by decide, fun i _ hp => absurd hp (Nat.lt_irrefl 0),
    ⟨[], List.prefix_rfl, he⟩, ?_⟩
  intro _ p hp
  right
  rw [List.prefix_nil.mp hp]
  show occ c [] ≤ 0
  unfold occ
  show (0 : Int) + 0 + ((c.hdr * 0 : Nat) : Int) ≤ 0
  omega

/-- A whole run. -/
theorem good_run (c : Cfg) (f0 : Nat) : ∀ evs past s s', Good c f0 past s →
    Valid c.hdr (live past) evs → run c s evs = .ok s' → Good c f0 (past ++ evs) s' := by
  intro evs
  induction evs with
  | nil =>
    intro past s s' hg _ h
    injection h with h; subst h
    rw [List.append_nil]; exact hg
  | cons e evs ih =>
    intro past s s' hg hv h
    rw [run] at h
    cases h1 : step c s e with
    | error f => rw [h1] at h; exact nomatch h
    | ok s1 =>
      rw [h1] at h
      have := ih (past ++ [e]) s1 s' (good_step c f0 past e s s1 hg hv.1 h1)
        (by rw [live_snoc]; exact hv.2) h
      rwa [List.append_assoc, List.singleton_append] at this

end Verif.HeapStat
