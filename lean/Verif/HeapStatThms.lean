import Verif.HeapStatHist

/-!
# C68: the snapshots of Dr. Heapstat: theorems

The documentation promises a set of snapshots spaced evenly over the run, each with the space
requested, the space allocated and the space used, in total and per allocation site, and one at the
time of peak usage (/repo/drheapstat/docs/using.dox:56-69, 246-263).
-/

namespace Verif.HeapStat

/-! ## Even spacing -/

/-- **Even spacing.**  For an even number of snapshots, whatever the application does, as long as the
time is below `n * 2^31` units: the time of the last snapshot is a multiple of the current period,
for every multiple of the period up to it exactly one completed snapshot has that time, it is among
those that are written, and once the array has been filled there are at least half as many as there
are places. -/
theorem C68_even_partial (c : Cfg) (he : 2 ∣ c.n) (hn : 2 ≤ c.n) (f0 : Nat) (hf : 0 < f0)
    (evs : List Ev) (s : State) (h : run c (init f0) evs = .ok s)
    (hb : s.stamp < c.n * 2147483648) :
    ∃ m, s.stamp = s.freq * m ∧ (s.fills = 0 → m = s.idx) ∧ (0 < s.fills → c.n / 2 ≤ m) ∧
      ∀ k, 1 ≤ k → k ≤ m → ∃ i, i < c.n ∧ i ≠ s.idx ∧ (s.snaps i).stamp = s.freq * k ∧
        (∀ j, j < c.n → j ≠ s.idx → (s.snaps j).stamp = s.freq * k → j = i) ∧
        s.snaps i ∈ written c s := by
  obtain ⟨m, hm⟩ := run_spread c he hn f0 hf evs s h hb
  refine ⟨m, hm.stamp, fun h0 => (hm.fresh h0).1, hm.full, fun k h1 h2 => ?_⟩
  obtain ⟨i, a, b, e⟩ := hm.all k h1 h2
  have hpos : 0 < s.freq * k := Nat.mul_pos hm.pos (by omega)
  refine ⟨i, a, b, e, fun j hj1 hj2 hj3 => ?_, ?_⟩
  · refine hm.uniq j i hj1 a hj2 b ?_ ?_ ?_
    · show 0 < (s.snaps j).stamp; rw [hj3]; exact hpos
    · show s.freq ∣ (s.snaps j).stamp; rw [hj3]; exact ⟨k, rfl⟩
    · show (s.snaps j).stamp = _; rw [hj3, e]
  · unfold written
    refine List.mem_map.mpr ⟨i, List.mem_range.mpr ?_, rfl⟩
    by_cases h0 : s.fills = 0
    · rw [if_pos h0]
      rcases Nat.lt_or_ge s.idx i with h3 | h3
      · have := (hm.fresh h0).2 i h3 a
        rw [e] at this; omega
      · omega
    · rw [if_neg h0]; exact a

/-- Four places, seven snapshots: the time is 12, the period is 4 and the snapshots at 4, 8 and 12 are
there (place 1 is in progress). -/
example : (match run ⟨4, 5, 8, .clock⟩ (init 1) (List.replicate 7 .tick) with
    | .ok s => (s.freq, s.stamp, s.idx, (List.range 4).map (fun i => (s.snaps i).stamp))
    | .error _ => (0, 0, 0, [])) = (4, 12, 1, [12, 12, 8, 4]) := by decide +kernel

/-- **An odd number of snapshots is not spaced evenly** although the option allows it: with three
places the period becomes 2 at time 3 and from then on all snapshots are taken at odd times: after
eight of them the period is 8 and the completed ones are at 15 and 19. -/
theorem C68_odd :
    (match run ⟨3, 5, 8, .clock⟩ (init 1) (List.replicate 8 .tick) with
    | .ok s => some (s.freq, s.stamp, s.idx, (List.range 3).map (fun i => (s.snaps i).stamp))
    | .error _ => none) = some (8, 19, 0, [19, 15, 19]) := by decide +kernel

/-! ## The period -/

/-- The slot that may be overwritten is not one of the multiples. -/
theorem count_free (n m f r : Nat) (σ : Nat → Nat) (hf : 0 < f) (hr : r < n) (hs : Stop σ f r)
    (h1 : ∀ k, 1 ≤ k → k ≤ m → ∃ i, i < n ∧ σ i = f * k) : m + 1 ≤ n := by
  have hx : ∀ k, ∃ i, k < m → i < n ∧ σ i = f * (k + 1) := by
    intro k
    by_cases hk : k < m
    · obtain ⟨i, a, b⟩ := h1 (k + 1) (by omega) (by omega)
      exact ⟨i, fun _ => ⟨a, b⟩⟩
    · exact ⟨0, fun h => absurd h hk⟩
  have := Finset.card_le_card_of_injOn (s := Finset.range m) (t := (Finset.range n).erase r)
    (fun k => Classical.choose (hx k)) (by
      intro k hk
      have hk := Finset.mem_range.mp (Finset.mem_coe.mp hk)
      obtain ⟨a, b⟩ := Classical.choose_spec (hx k) hk
      refine Finset.mem_coe.mpr (Finset.mem_erase.mpr ⟨?_, Finset.mem_range.mpr a⟩)
      intro e
      have e : Classical.choose (hx k) = r := e
      rw [e] at b
      rcases stop_iff hs with h | h
      · rw [h] at b
        have := Nat.mul_pos hf (Nat.succ_pos k)
        rw [Nat.succ_eq_add_one] at this
        omega
      · exact h ⟨k + 1, b⟩) (by
      intro k hk k' hk' e
      have hk := Finset.mem_range.mp (Finset.mem_coe.mp hk)
      have hk' := Finset.mem_range.mp (Finset.mem_coe.mp hk')
      have e1 := (Classical.choose_spec (hx k) hk).2
      have e2 := (Classical.choose_spec (hx k') hk').2
      have e : Classical.choose (hx k) = Classical.choose (hx k') := e
      rw [e, e2] at e1
      have := Nat.eq_of_mul_eq_mul_left hf e1
      omega)
  rw [Finset.card_range, Finset.card_erase_of_mem (Finset.mem_range.mpr hr), Finset.card_range] at this
  omega

/-- At the time `n * 2^31` the doubled period is 0 and the next snapshot divides by it. -/
theorem take_last (c : Cfg) (s : State) (m : Nat) (h : Spread c.n m s) (hn : 2 ≤ c.n)
    (hf : s.freq ≤ 2147483648) (hb : c.n * 2147483648 ≤ s.stamp + s.freq) :
    take c s = .error .divZero := by
  have hpos := h.pos
  have hlt := h.lt
  have hst : s.stamp + s.freq = s.freq * (m + 1) := by rw [h.stamp, Nat.mul_succ]
  have hm : c.n ≤ m + 1 := by
    rw [hst] at hb
    have h1 : s.freq * (m + 1) ≤ (m + 1) * 2147483648 := by
      rw [Nat.mul_comm]; exact Nat.mul_le_mul_left _ hf
    exact Nat.le_of_mul_le_mul_right (Nat.le_trans hb h1) (by omega)
  have hcur : stamped s s.idx = s.freq * (m + 1) := by
    unfold stamped; rw [if_pos rfl, hst]
  have hoth : ∀ i, i ≠ s.idx → stamped s i = stamps s i := by
    intro i hi; unfold stamped; rw [if_neg hi]
  have hall : ∀ k, 1 ≤ k → k ≤ m + 1 → ∃ i, i < c.n ∧ stamped s i = s.freq * k := by
    intro k h1 h2
    by_cases hk : k = m + 1
    · exact ⟨s.idx, hlt, by rw [hcur, hk]⟩
    · obtain ⟨i, a, b, e⟩ := h.all k h1 (by omega)
      exact ⟨i, a, by rw [hoth i b, e]⟩
  rcases first_stop (stamped s) s.freq c.n (c.n - (s.idx + 1)) (s.idx + 1) (by omega) with
    ⟨r, h1, h2, h3, h4⟩ | h1
  · have := count_free c.n (m + 1) s.freq r (stamped s) hpos h2 h4 hall
    omega
  · have hslots : ∀ i, i < c.n → ∃ k, 1 ≤ k ∧ k ≤ m + 1 ∧ stamped s i = s.freq * k := by
      intro i hi
      rcases Nat.lt_trichotomy i s.idx with h5 | h5 | h5
      · obtain ⟨k, a, b, e⟩ := h.below i h5
        exact ⟨k, a, by omega, by rw [hoth i (by omega), e]⟩
      · exact ⟨m + 1, by omega, Nat.le_refl _, by rw [h5, hcur]⟩
      · obtain ⟨h6, h7⟩ := not_stop (h1 i (by omega) hi)
        rw [hoth i (by omega)] at h6 h7
        rcases h.above i h5 hi with ⟨k, a, b, e⟩ | h8 | h8
        · exact ⟨k, a, by omega, by rw [hoth i (by omega), e]⟩
        · omega
        · exact absurd h7 h8
    have hle : m + 1 ≤ c.n := by
      have hx : ∀ k, ∃ i, k < m + 1 → i < c.n ∧ stamped s i = s.freq * (k + 1) := by
        intro k
        by_cases hk : k < m + 1
        · obtain ⟨i, a, b⟩ := hall (k + 1) (by omega) (by omega)
          exact ⟨i, fun _ => ⟨a, b⟩⟩
        · exact ⟨0, fun h => absurd h hk⟩
      have := Finset.card_le_card_of_injOn (s := Finset.range (m + 1)) (t := Finset.range c.n)
        (fun k => Classical.choose (hx k)) (by
          intro k hk
          have hk := Finset.mem_range.mp (Finset.mem_coe.mp hk)
          exact Finset.mem_coe.mpr (Finset.mem_range.mpr (Classical.choose_spec (hx k) hk).1)) (by
          intro k hk k' hk' e
          have hk := Finset.mem_range.mp (Finset.mem_coe.mp hk)
          have hk' := Finset.mem_range.mp (Finset.mem_coe.mp hk')
          have e1 := (Classical.choose_spec (hx k) hk).2
          have e2 := (Classical.choose_spec (hx k') hk').2
          have e : Classical.choose (hx k) = Classical.choose (hx k') := e
          rw [e, e2] at e1
          have := Nat.eq_of_mul_eq_mul_left hpos e1
          omega)
      rwa [Finset.card_range, Finset.card_range] at this
    have hfeq : s.freq = 2147483648 := by
      have e : m + 1 = c.n := by omega
      rw [hst, e, Nat.mul_comm s.freq] at hb
      have := Nat.le_of_mul_le_mul_left hb (by omega)
      omega
    have hr : rounds c.n = 34 * (c.n + 1) := rfl
    have hk : rounds c.n = (rounds c.n - (c.n - (s.idx + 1)) - 1 + 1) + (c.n - (s.idx + 1)) := by
      rw [hr]; omega
    have hseek : seek c.n (stamped s) (rounds c.n) (s.idx, s.fills, s.freq) = .error .divZero := by
      rw [hk, seek_end c.n (stamped s) s.freq s.fills hpos (c.n - (s.idx + 1)) s.idx _
        (by omega) (fun j a b => h1 j (by omega) b), seek_succ]
      have ha : advance c.n (c.n - 1, s.fills, s.freq) = (0, s.fills + 1, 0) := by
        unfold advance
        rw [if_pos (by show c.n - 1 + 1 ≥ c.n; omega)]
        show (0, s.fills + 1, s.freq * 2 % 4294967296) = _
        rw [hfeq]
      rw [ha]
      obtain ⟨k, k1, k2, e⟩ := hslots 0 (by omega)
      have : stamped s 0 > 0 := by rw [e]; exact Nat.mul_pos hpos (by omega)
      rw [if_pos this, if_pos rfl]
    rw [take_eq, hseek]

/-- **The period ends in a division by zero.**  The period is an `unsigned int` that is doubled
whenever the array is full; for every even number of snapshots there is a number of ticks after which
it is 0 and the next snapshot kills the process. -/
theorem C68_period_overflow (c : Cfg) (he : 2 ∣ c.n) (hn : 2 ≤ c.n) :
    ∃ t, run c (init 1) (List.replicate t .tick) = .error .divZero := by
  have key : ∀ d (s : State) m k, c.n * 2147483648 - s.stamp ≤ d → Spread c.n m s →
      s.freq = 2 ^ k → k ≤ 31 → ∃ t, run c s (List.replicate t .tick) = .error .divZero := by
    intro d
    induction d with
    | zero =>
      intro s m k hd hs hk hk31
      refine ⟨1, ?_⟩
      show (match take c s with
        | .error f => Except.error f
        | .ok s' => run c s' []) = _
      have hp : s.freq ≤ 2147483648 := by
        rw [hk]
        exact Nat.pow_le_pow_right (by omega) hk31
      rw [take_last c s m hs hn hp (by omega)]
    | succ d ih =>
      intro s m k hd hs hk hk31
      have hp : s.freq ≤ 2147483648 := by
        rw [hk]
        exact Nat.pow_le_pow_right (by omega) hk31
      by_cases hb : s.stamp + s.freq < c.n * 2147483648
      · obtain ⟨s', m', h1, h2, h3, h4⟩ := take_spread c s m hs he hn hb
        have hpos := hs.pos
        have hk' : ∃ k', s'.freq = 2 ^ k' ∧ k' ≤ 31 := by
          rcases h4 with ⟨h4, _⟩ | ⟨h4, _, h5⟩
          · exact ⟨k, by rw [h4, hk], hk31⟩
          · refine ⟨k + 1, by rw [h4, hk, Nat.pow_succ], ?_⟩
            rcases Nat.lt_or_ge k 31 with h6 | h6
            · omega
            · have : k = 31 := by omega
              rw [hk, this] at h5
              exact absurd h5 (by decide)
        obtain ⟨k', e1, e2⟩ := hk'
        obtain ⟨t, ht⟩ := ih s' m' k' (by rw [h3]; omega) h2 e1 e2
        refine ⟨t + 1, ?_⟩
        show (match take c s with
          | .error f => Except.error f
          | .ok s' => run c s' (List.replicate t .tick)) = _
        rw [h1]
        exact ht
      · refine ⟨1, ?_⟩
        show (match take c s with
          | .error f => Except.error f
          | .ok s' => run c s' []) = _
        rw [take_last c s m hs hn hp (by omega)]
  obtain ⟨m, hm⟩ := run_spread c he hn 1 (by omega) [] (init 1) rfl (by
    show 0 < c.n * 2147483648
    omega)
  exact key _ (init 1) m 0 (Nat.le_refl _) hm rfl (by omega)

example : ∃ t, run ⟨64, 5, 8, .clock⟩ (init 1) (List.replicate t .tick) = .error .divZero :=
  C68_period_overflow ⟨64, 5, 8, .clock⟩ ⟨32, rfl⟩ (by decide)

/-! ## What the snapshots hold -/

/-- **Totals.**  After any valid run the snapshot in progress holds the live blocks: the bytes
requested and, per call stack, one node exactly when the call stack has live blocks, with their number
and bytes (modulo the width of its counters).  "Space allocated" is too high by the space requested
(the full claim is that it is the sum of `pad`), and the number of blocks is off by one for every
`realloc` in place. -/
theorem C68_totals_partial (c : Cfg) (f0 : Nat) (hf : 0 < f0) (evs : List Ev) (s : State)
    (hv : Valid c.hdr [] evs) (h : run c (init f0) evs = .ok s) :
    (s.snaps s.idx).asked = (total Blk.req (live evs) : Int) ∧
    (s.snaps s.idx).usable = (total Blk.pad (live evs) : Int) + (total Blk.req (live evs) : Int) ∧
    (s.snaps s.idx).occupied = (s.snaps s.idx).usable + ((c.hdr * (live evs).length : Nat) : Int) ∧
    (s.snaps s.idx).mallocs = (live evs).length + drift evs ∧
    ∀ cs, (s.snaps s.idx).used.filter (fun e => e.cs == cs) = expected c.hdr cs (live evs) := by
  have hg := good_run c f0 evs [] (init f0) s (good_init c f0 hf) hv h
  rw [List.nil_append] at hg
  obtain ⟨h1, h2⟩ := hg.cur
  refine ⟨h1.asked, ?_, ?_, h2, h1.nodes⟩
  · rw [h1.usable]; omega
  · rw [h1.occupied, h1.usable]

/-- Two call stacks, one block freed, one resized. -/
example : (match run ⟨4, 5, 8, .allocs⟩ (init 1)
      [.malloc ⟨1, 100, 104⟩, .malloc ⟨2, 10, 24⟩, .malloc ⟨1, 50, 56⟩, .free ⟨2, 10, 24⟩,
        .resize ⟨1, 50, 56⟩ ⟨1, 60, 72⟩] with
    | .ok s => ((s.snaps s.idx).mallocs, (s.snaps s.idx).asked, (s.snaps s.idx).usable,
        (s.snaps s.idx).used)
    | .error _ => (0, 0, 0, [])) = (3, 160, 336, [⟨1, 2, 160, 176, 16⟩]) := by decide +kernel

/-- **"Space allocated" counts the space requested twice**: it is right only when nothing was
requested. -/
theorem C68_usable_twice (c : Cfg) (f0 : Nat) (hf : 0 < f0) (evs : List Ev) (s : State)
    (hv : Valid c.hdr [] evs) (h : run c (init f0) evs = .ok s) :
    (s.snaps s.idx).usable = (total Blk.pad (live evs) : Int) ↔ total Blk.req (live evs) = 0 := by
  rw [(C68_totals_partial c f0 hf evs s hv h).2.1]
  omega

/-- **History.**  Every completed snapshot that is kept was taken in the course of some event, when
the time reached its stamp, and holds what was live at the end of that event. -/
theorem C68_history (c : Cfg) (f0 : Nat) (hf : 0 < f0) (evs : List Ev) (s : State)
    (hv : Valid c.hdr [] evs) (h : run c (init f0) evs = .ok s) (i : Nat) (hi : i ≠ s.idx)
    (hp : 0 < (s.snaps i).stamp) :
    ∃ p e sp sq, (p ++ [e]) <+: evs ∧ run c (init f0) p = .ok sp ∧
      run c (init f0) (p ++ [e]) = .ok sq ∧ sp.stamp < (s.snaps i).stamp ∧
      (s.snaps i).stamp ≤ sq.stamp ∧ Holds c (p ++ [e]) (s.snaps i) := by
  have hg := good_run c f0 evs [] (init f0) s (good_init c f0 hf) hv h
  rw [List.nil_append] at hg
  exact hg.hist i hi hp

/-- The snapshots of a run in which every allocation is a unit of time. -/
example : (match run ⟨4, 5, 8, .allocs⟩ (init 1)
      [.malloc ⟨1, 100, 104⟩, .malloc ⟨2, 10, 24⟩, .malloc ⟨1, 50, 56⟩, .free ⟨2, 10, 24⟩] with
    | .ok s => (s.idx, (List.range 4).map (fun i => ((s.snaps i).stamp, (s.snaps i).asked)))
    | .error _ => (0, [])) = (0, [(4, 150), (2, 110), (3, 160), (4, 150)]) := by decide +kernel

/-- **Peak.**  When the snapshots are written, the peak snapshot holds what was live at some moment,
and at no moment was more in use than that by more than the threshold. -/
theorem C68_peak (c : Cfg) (f0 : Nat) (hf : 0 < f0) (evs : List Ev) (d : Nat) (s : State)
    (hv : Valid c.hdr [] (evs ++ [.dump d])) (hgr : ∀ e ∈ evs, Grows e)
    (h : run c (init f0) (evs ++ [.dump d]) = .ok s) :
    (∃ p, p <+: evs ++ [.dump d] ∧ Holds c p s.peak) ∧
    ∀ p, p <+: evs ++ [.dump d] → 100 * occ c p ≤ (100 + c.thr) * s.peak.occupied := by
  have hg := good_run c f0 _ [] (init f0) s (good_init c f0 hf) hv h
  rw [List.nil_append] at hg
  refine ⟨hg.peak, fun p hp => ?_⟩
  have hgr' : ∀ e ∈ evs ++ [.dump d], Grows e := by
    intro e he
    rcases List.mem_append.mp he with he | he
    · exact hgr e he
    · rw [List.mem_singleton.mp he]; exact True.intro
  obtain ⟨s1, h1, h2⟩ := (run_append c evs [.dump d] _ _).mp h
  have h3 : s = dumpState c d s1 := by
    have h2 : Except.ok (dumpState c d s1) = Except.ok s := h2
    injection h2 with h2
    exact h2.symm
  let s2 : State := { s1 with
    snaps := setSnap s1.snaps s1.idx { s1.snaps s1.idx with stamp := s1.stamp + elapsed c s1 d } }
  have h4 : s = checkPeak c s2 := h3
  have hcov : 100 * (s.snaps s.idx).occupied ≤ (100 + c.thr) * s.peak.occupied := by
    have hv1 : Valid c.hdr [] evs := by
      have : ∀ (l : List Blk) (a : List Ev), Valid c.hdr l (a ++ [.dump d]) → Valid c.hdr l a := by
        intro l a
        induction a generalizing l with
        | nil => intro _; exact True.intro
        | cons e a ih => intro hh; exact ⟨hh.1, ih _ hh.2⟩
      exact this [] evs hv
    have hg1 := good_run c f0 evs [] (init f0) s1 (good_init c f0 hf) hv1 h1
    obtain ⟨p0, _, hh⟩ := hg1.peak
    have := (check_covers c s2 (by
      show 0 ≤ s1.peak.occupied
      rw [holds_occ c p0 _ hh]; exact occ_nonneg c p0)).1
    rw [h4, checkPeak_snaps, checkPeak_idx]
    exact this
  rcases hg.cover hgr' p hp with h5 | h5
  · exact h5
  · omega

/-- A peak of two blocks, after which one is freed and a small one allocated. -/
example : (match run ⟨4, 5, 8, .clock⟩ (init 1)
      [.malloc ⟨1, 100, 104⟩, .malloc ⟨2, 10, 24⟩, .free ⟨1, 100, 104⟩, .malloc ⟨1, 20, 24⟩, .dump 1]
      with
    | .ok s => (s.peak.asked, s.peak.occupied, (s.snaps s.idx).occupied)
    | .error _ => (0, 0, 0)) = (110, 254, 94) := by decide +kernel

/-- **The second condition for a new peak uses the size of the peak as its percentage**: the number of
allocations since the last peak has grown tenfold, the threshold is 5 percent, the heap is larger than
at the peak, and yet no new peak is taken. -/
theorem C68_peak_condition : ∃ (c : Cfg) (s : State), c.thr = 5 ∧
    (s.snaps s.idx).occupied > s.peak.occupied ∧ exceeds s.afCur s.afLast c.thr = true ∧
    newPeak c s = false :=
  ⟨⟨4, 5, 8, .clock⟩,
    { init 1 with
      snaps := fun _ => { occupied := 1010 }
      peak := { occupied := 1000 }
      afCur := 1000
      afLast := 100 }, rfl, by decide, by decide, by decide⟩

/-! ## Limits -/

theorem account_err (c : Cfg) (cs : Nat) (a u o : Int) (r : Bool) (d : Int) (s : State) (f : Fail)
    (h : pre cs a u o r (s.snaps s.idx) = .error f) : account c cs a u o r d s = .error f := by
  unfold account preState
  generalize pre cs a u o r (s.snaps s.idx) = y at h
  rw [h]

/-- **A block of one GiB cannot be counted**: the sum of the space requested and the space allocated
does not fit into an `int`, in whatever state. -/
theorem C68_gigabyte (c : Cfg) (s : State) (b : Blk) (h1 : 1073741824 ≤ b.req) (h2 : b.req ≤ b.pad)
    (h3 : b.pad < 2147483648) : step c s (.malloc b) = .error .overflow := by
  rw [step_malloc, int32_fits _ (by unfold fitsInt; omega), int32_fits _ (by unfold fitsInt; omega)]
  have hp : pre b.cs b.req b.pad c.hdr false (s.snaps s.idx) = .error .overflow := by
    unfold pre
    exact if_pos (Or.inl (by unfold fitsInt; omega))
  exact account_err c _ _ _ _ _ _ s .overflow hp

example : step ⟨64, 5, 8, .clock⟩ (init 1) (.malloc ⟨1, 1073741824, 1073741832⟩) = .error .overflow :=
  C68_gigabyte _ _ _ (by decide) (by decide) (by decide)

/-- **Lines.**  The line of a call stack with live blocks is written unless its two counters, cut to
their widths, add up to 0. -/
theorem C68_lines (c : Cfg) (f0 : Nat) (hf : 0 < f0) (evs : List Ev) (s : State)
    (hv : Valid c.hdr [] evs) (h : run c (init f0) evs = .ok s) (cs : Nat)
    (hl : ofCs cs (live evs) ≠ []) :
    (∃ e ∈ lines (s.snaps s.idx), e.cs = cs) ↔
      (total Blk.req (ofCs cs (live evs)) % 4294967296 +
        total Blk.pad (ofCs cs (live evs)) % 65536) % 4294967296 ≠ 0 := by
  have hn := (C68_totals_partial c f0 hf evs s hv h).2.2.2.2 cs
  unfold expected at hn
  rw [if_neg (fun h0 => hl (List.length_eq_zero_iff.mp h0))] at hn
  have hmem : ∀ e, (e ∈ (s.snaps s.idx).used ∧ e.cs = cs) ↔
      e ∈ (s.snaps s.idx).used.filter (fun e => e.cs == cs) := by
    intro e; rw [List.mem_filter]; simp
  unfold lines
  constructor
  · rintro ⟨e, he, hc⟩
    rw [List.mem_filter] at he
    have := (hmem e).mp ⟨he.1, hc⟩
    rw [hn, List.mem_singleton] at this
    have h2 := of_decide_eq_true he.2
    rw [this] at h2
    dsimp only at h2
    omega
  · intro hne
    have : (⟨cs, ((ofCs cs (live evs)).length : Int) % 4294967296,
        (total Blk.req (ofCs cs (live evs)) : Int) % 4294967296,
        (total Blk.pad (ofCs cs (live evs)) : Int) % 65536,
        ((c.hdr * (ofCs cs (live evs)).length : Nat) : Int) % 65536⟩ : Ent) ∈
        (s.snaps s.idx).used.filter (fun e => e.cs == cs) := by
      rw [hn]; exact List.mem_singleton.mpr rfl
    have h2 := (hmem _).mpr this
    refine ⟨_, List.mem_filter.mpr ⟨h2.1, ?_⟩, h2.2⟩
    apply decide_eq_true
    dsimp only
    omega

/-- A block of size 0 for which the allocator gave 65536 bytes has no line, one of 65536 bytes has a
line that says that nothing beyond the request was allocated. -/
example : (match run ⟨4, 5, 8, .clock⟩ (init 1) [.malloc ⟨1, 0, 65536⟩, .malloc ⟨2, 65536, 65536⟩] with
    | .ok s => lines (s.snaps s.idx)
    | .error _ => []) = [⟨2, 1, 65536, 0, 8⟩] := by decide +kernel

/-! ## Time in bytes -/

/-- **Time in bytes is lost.**  When a block is larger than what is left of the period, but not by more
than the period, the clock goes on by what was left, not by the size of the block. -/
theorem C68_bytes_lost (c : Cfg) (d : Int) (s s1 s2 : State) (h1 : s.cnt < d)
    (ht : take c s = .ok s1) (h2 : d ≤ s1.freq + s1.cnt) (h0 : 0 < d)
    (h : postBytes c d s = .ok s2) :
    ((s2.stamp : Int) + s2.freq - s2.cnt) = ((s.stamp : Int) + s.freq - s.cnt) + s.cnt := by
  unfold postBytes at h
  rw [if_pos h1] at h
  have hb : bytesLoop c (d.toNat + 1) d s = .ok s1 := by
    rw [bytesLoop, if_pos h1, ht]
    dsimp only
    obtain ⟨k, hk⟩ : ∃ k, d.toNat = k + 1 := ⟨d.toNat - 1, by omega⟩
    rw [hk, bytesLoop, if_neg (by omega)]
  rw [hb] at h
  dsimp only at h
  unfold restart at h
  split at h
  · injection h with h
    subst h
    have := (take_taken c s s1 ht).stamp
    show (s1.stamp : Int) + s1.freq - s1.freq = _
    omega
  · exact nomatch h

/-- After 12 blocks that count 20 bytes each the clock says 192. -/
example : (match run ⟨4, 5, 8, .bytes⟩ (init 8) (List.replicate 12 (.malloc ⟨1, 4, 8⟩)) with
    | .ok s => (s.stamp : Int) + s.freq - s.cnt
    | .error _ => 0) = 192 := by decide +kernel

/-! ## Time in allocations -/

/-- The events that count as time with `-time_allocs`. -/
def isHeap : Ev → Bool
  | .malloc _ => true
  | .free _ => true
  | .resize _ _ => true
  | .tick => false
  | .dump _ => false

/-- The clock of `-time_allocs`. -/
structure Clock (f0 : Nat) (past : List Ev) (s : State) : Prop where
  first : s.fills = 0 → s.freq = f0
  cnt : 0 < s.cnt
  le : s.cnt ≤ s.freq
  time : (s.stamp : Int) + s.freq - s.cnt = (past.filter isHeap).length

/-- `account_for_bytes_post` counts one unit of time and does not fail. -/
theorem post_clock (c : Cfg) (hm : c.mode = .allocs) (he : 2 ∣ c.n) (hn : 2 ≤ c.n) (f0 : Nat)
    (hf : f0 < 2147483648) (past : List Ev) (s : State) (m : Nat) (hs : Spread c.n m s)
    (hc : Clock f0 past s) (d : Int)
    (hb : (past.filter isHeap).length + 1 < c.n * 1073741824) :
    ∃ s', post c d s = .ok s' ∧ (s'.fills = 0 → s'.freq = f0) ∧ 0 < s'.cnt ∧
      s'.cnt ≤ s'.freq ∧ (s'.stamp : Int) + s'.freq - s'.cnt = (past.filter isHeap).length + 1 := by
  have h1 := hc.cnt
  have h2 := hc.time
  unfold post
  rw [hm]
  dsimp only
  unfold postAllocs
  by_cases h0 : s.cnt - 1 ≤ 0
  · rw [if_pos h0]
    have hs2 : Spread c.n m { s with cnt := s.cnt - 1 } :=
      spread_same c.n m s _ hs rfl rfl rfl rfl (fun _ _ => rfl)
    obtain ⟨s', m', e1, e2, e3, e4⟩ := take_spread c { s with cnt := s.cnt - 1 } m hs2 he hn (by
      show s.stamp + s.freq < _
      omega)
    have e3 : s'.stamp = s.stamp + s.freq := e3
    have hfreq : s'.freq < 2147483648 ∧ (s'.fills = 0 → s'.freq = f0) := by
      rcases Nat.eq_zero_or_pos s'.fills with h3 | h3
      · rcases e4 with ⟨e5, e6⟩ | ⟨_, e6, _⟩
        · have e5 : s'.freq = s.freq := e5
          have e6 : s'.fills = s.fills := e6
          have := hc.first (by omega)
          exact ⟨by omega, fun _ => by omega⟩
        · omega
      · refine ⟨?_, fun h => by omega⟩
        have h4 := e2.full h3
        have h5 := e2.stamp
        obtain ⟨w, hw⟩ := he
        have h6 : s'.freq * w ≤ s'.stamp := by
          rw [h5]; exact Nat.mul_le_mul_left _ (by omega)
        have h7 : s'.freq * w < 2147483648 * w := by omega
        exact Nat.lt_of_mul_lt_mul_right h7
    rw [e1]
    dsimp only
    unfold restart
    rw [if_pos hfreq.1]
    have := e2.pos
    refine ⟨_, rfl, hfreq.2, ?_, Int.le_refl _, ?_⟩
    · show (0 : Int) < (s'.freq : Int)
      omega
    · show (s'.stamp : Int) + s'.freq - (s'.freq : Int) = _
      omega
  · rw [if_neg h0]
    have h3 := hc.le
    refine ⟨_, rfl, hc.first, ?_, ?_, ?_⟩
    · show (0 : Int) < s.cnt - 1
      omega
    · show s.cnt - 1 ≤ s.freq
      omega
    · show (s.stamp : Int) + s.freq - (s.cnt - 1) = _
      omega

theorem filter_snoc (p : List Ev) (e : Ev) : ((p ++ [e]).filter isHeap).length =
    (p.filter isHeap).length + (if isHeap e = true then 1 else 0) := by
  rw [List.filter_append, List.length_append]
  by_cases h : isHeap e = true
  · rw [if_pos h, List.filter_cons_of_pos h]; rfl
  · rw [if_neg h, List.filter_cons_of_neg h]; rfl

/-- One event with `-time_allocs`. -/
theorem clock_step (c : Cfg) (hm : c.mode = .allocs) (he : 2 ∣ c.n) (hn : 2 ≤ c.n) (f0 : Nat)
    (hf0 : 0 < f0) (hf : f0 < 2147483648) (past : List Ev) (e : Ev) (s : State)
    (hg : Good c f0 past s) (hc : Clock f0 past s) (hv : ValidStep c.hdr (live past) e)
    (hb : (past.filter isHeap).length + 1 < c.n * 1073741824) (ht : e ≠ .tick) :
    ∃ s', step c s e = .ok s' ∧ Clock f0 (past ++ [e]) s' := by
  have hcnt := hc.cnt
  have htime := hc.time
  have hpos := hg.pos.1
  have hle := hc.le
  obtain ⟨m, hs⟩ := run_spread c he hn f0 hf0 past s hg.ran (by omega)
  -- the part after the counters
  have hacc : ∀ (s1 : State) (cs : Nat) (a u o : Int) (r : Bool) (d : Int) (x : Snap),
      (s1 = s ∨ s1 = checkPeak c s) → pre cs a u o r (s.snaps s.idx) = .ok x →
      isHeap e = true → ∃ s', account c cs a u o r d s1 = .ok s' ∧ Clock f0 (past ++ [e]) s' := by
    intro s1 cs a u o r d x h1 h2 h3
    have g : s1.idx = s.idx ∧ s1.snaps = s.snaps ∧ s1.stamp = s.stamp ∧ s1.freq = s.freq ∧
        s1.fills = s.fills ∧ s1.cnt = s.cnt := by
      rcases h1 with h1 | h1
      · subst h1; exact ⟨rfl, rfl, rfl, rfl, rfl, rfl⟩
      · subst h1
        exact ⟨checkPeak_idx c s, checkPeak_snaps c s, checkPeak_stamp c s, checkPeak_freq c s,
          checkPeak_fills c s, checkPeak_cnt c s⟩
    obtain ⟨g1, g2, g3, g4, g5, g6⟩ := g
    have hsp : Spread c.n m { s1 with snaps := setSnap s1.snaps s1.idx x } := by
      refine spread_same c.n m s _ hs g1 g5 g4 g3 (fun i hi => ?_)
      show (setSnap s1.snaps s1.idx x i).stamp = _
      rw [setSnap_ne _ _ _ _ (by rw [g1]; exact hi), g2]
    have hcl : Clock f0 past { s1 with snaps := setSnap s1.snaps s1.idx x } := by
      constructor
      · show s1.fills = 0 → s1.freq = f0
        rw [g5, g4]; exact hc.first
      · show 0 < s1.cnt
        rw [g6]; exact hcnt
      · show s1.cnt ≤ s1.freq
        rw [g6, g4]; exact hc.le
      · show (s1.stamp : Int) + s1.freq - s1.cnt = _
        rw [g3, g4, g6]; exact htime
    obtain ⟨s', p1, p2, p3, p5, p4⟩ := post_clock c hm he hn f0 hf past _ m hsp hcl d hb
    refine ⟨s', ?_, p2, p3, p5, ?_⟩
    · unfold account preState
      rw [g1, g2, h2]
      dsimp only
      rw [← p1, g1, g2]
    · rw [p4, filter_snoc, if_pos h3]; push_cast; rfl
  cases e with
  | malloc b =>
    obtain ⟨x, e1, _⟩ := pre_malloc c.hdr (live past) _ b hg.cur.1 hv.1 hv.2
    rw [step_malloc]
    exact hacc s _ _ _ _ _ _ x (Or.inl rfl) e1 rfl
  | free b =>
    obtain ⟨x, e1, _⟩ := pre_free c.hdr (live past) _ b hg.cur.1 (hg.fit b hv) hv hg.len
    rw [step_free]
    exact hacc (checkPeak c s) _ _ _ _ _ _ x (Or.inr rfl) e1 rfl
  | resize b b' =>
    obtain ⟨x, e1, _⟩ := pre_resize c.hdr (live past) _ b b' hg.cur.1 (hg.fit b hv.1) hv.2.2 hv.1
      hv.2.1 hg.len
    rw [step_resize]
    refine hacc _ _ _ _ _ _ _ x ?_ e1 rfl
    split
    · exact Or.inr rfl
    · exact Or.inl rfl
  | tick => exact absurd rfl ht
  | dump d =>
    refine ⟨_, rfl, ?_, ?_, ?_, ?_⟩
    · show (dumpState c d s).fills = 0 → (dumpState c d s).freq = f0
      unfold dumpState
      rw [checkPeak_fills, checkPeak_freq]; exact hc.first
    · show 0 < (dumpState c d s).cnt
      unfold dumpState
      rw [checkPeak_cnt]; exact hcnt
    · show (dumpState c d s).cnt ≤ (dumpState c d s).freq
      unfold dumpState
      rw [checkPeak_cnt, checkPeak_freq]; exact hc.le
    · show ((dumpState c d s).stamp : Int) + (dumpState c d s).freq - (dumpState c d s).cnt = _
      unfold dumpState
      rw [checkPeak_stamp, checkPeak_freq, checkPeak_cnt, filter_snoc]
      show (s.stamp : Int) + s.freq - s.cnt = ((past.filter isHeap).length + 0 : Nat)
      omega

/-- **Time in allocations.**  With `-time_allocs` and an even number `n` of snapshots, no valid run of
fewer than `n * 2^30` events fails, and the time with which the snapshot in progress is written is the
number of allocations, frees and resizes so far. -/
theorem C68_allocs (c : Cfg) (hm : c.mode = .allocs) (he : 2 ∣ c.n) (hn : 2 ≤ c.n) (f0 : Nat)
    (hf0 : 0 < f0) (hf : f0 < 2147483648) (evs : List Ev) (hv : Valid c.hdr [] evs)
    (ht : ∀ e ∈ evs, e ≠ .tick) (hb : evs.length + 1 < c.n * 1073741824) :
    ∃ s, run c (init f0) evs = .ok s ∧
      ∀ d, (((dumpState c d s).snaps (dumpState c d s).idx).stamp) = (evs.filter isHeap).length := by
  have key : ∀ (evs past : List Ev) (s : State), Good c f0 past s → Clock f0 past s →
      Valid c.hdr (live past) evs → (∀ e ∈ evs, e ≠ .tick) →
      past.length + evs.length + 1 < c.n * 1073741824 →
      ∃ s', run c s evs = .ok s' ∧ Clock f0 (past ++ evs) s' := by
    intro evs
    induction evs with
    | nil => intro past s _ hc _ _ _; exact ⟨s, rfl, by rw [List.append_nil]; exact hc⟩
    | cons e evs ih =>
      intro past s hg hc hv ht hb
      rw [List.length_cons] at hb
      have hle : (past.filter isHeap).length ≤ past.length := List.length_filter_le _ _
      obtain ⟨s1, h1, h2⟩ := clock_step c hm he hn f0 hf0 hf past e s hg hc hv.1 (by omega)
        (ht e (List.mem_cons_self ..))
      have hg1 := good_step c f0 past e s s1 hg hv.1 h1
      obtain ⟨s', h3, h4⟩ := ih (past ++ [e]) s1 hg1 h2 (by rw [live_snoc]; exact hv.2)
        (fun e' he' => ht e' (List.mem_cons_of_mem _ he')) (by
          rw [List.length_append, List.length_singleton]; omega)
      refine ⟨s', ?_, ?_⟩
      · rw [run, h1]; exact h3
      · rwa [List.append_assoc, List.singleton_append] at h4
  obtain ⟨s, h1, h2⟩ := key evs [] (init f0) (good_init c f0 hf0)
    ⟨fun _ => rfl, by show (0 : Int) < (f0 : Int); omega, Int.le_refl _, by
      show ((0 : Nat) : Int) + (f0 : Int) - (f0 : Int) = ((0 : Nat) : Int); omega⟩ hv ht
    (by rw [List.length_nil]; omega)
  rw [List.nil_append] at h2
  refine ⟨s, h1, fun d => ?_⟩
  have h3 := h2.time
  have h4 := h2.cnt
  unfold dumpState
  rw [checkPeak_snaps, checkPeak_idx]
  show (setSnap s.snaps s.idx _ s.idx).stamp = _
  rw [setSnap_eq]
  show s.stamp + elapsed c s d = _
  unfold elapsed
  rw [hm]
  dsimp only
  have h5 := h2.le
  omega

/-- Five events, of which four are allocations or frees. -/
example : (match run ⟨4, 5, 8, .allocs⟩ (init 1)
      [.malloc ⟨1, 100, 104⟩, .malloc ⟨2, 10, 24⟩, .dump 0, .malloc ⟨1, 50, 56⟩, .free ⟨2, 10, 24⟩] with
    | .ok s => ((dumpState ⟨4, 5, 8, .allocs⟩ 0 s).snaps (dumpState ⟨4, 5, 8, .allocs⟩ 0 s).idx).stamp
    | .error _ => 0) = 4 := by decide +kernel

end Verif.HeapStat
