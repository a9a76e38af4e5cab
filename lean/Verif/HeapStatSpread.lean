import Verif.HeapStat

/-!
# C68: helper lemmas about the choice of the snapshot to overwrite
-/

namespace Verif.HeapStat

/-- The body of the loop after the step. -/
theorem seek_succ (n : Nat) (σ : Nat → Nat) (k : Nat) (p : Nat × Nat × Nat) :
    seek n σ (k + 1) p =
      if σ (advance n p).1 > 0 then
        if (advance n p).2.2 = 0 then .error .divZero
        else if σ (advance n p).1 % (advance n p).2.2 = 0 then seek n σ k (advance n p)
        else .ok (advance n p)
      else .ok (advance n p) := rfl

/-- The snapshot may be overwritten. -/
def Stop (σ : Nat → Nat) (f j : Nat) : Prop := σ j = 0 ∨ σ j % f ≠ 0

theorem first_stop (σ : Nat → Nat) (f n : Nat) : ∀ d i, n = i + d →
    (∃ r, i ≤ r ∧ r < n ∧ (∀ j, i ≤ j → j < r → ¬ Stop σ f j) ∧ Stop σ f r) ∨
    (∀ j, i ≤ j → j < n → ¬ Stop σ f j) := by
  intro d
  induction d with
  | zero => intro i h; right; intro j h1 h2; omega
  | succ d ih =>
    intro i h
    by_cases hs : Stop σ f i
    · left; exact ⟨i, Nat.le_refl _, by omega, fun j h1 h2 => by omega, hs⟩
    · rcases ih (i + 1) (by omega) with ⟨r, h1, h2, h3, h4⟩ | h1
      · left
        refine ⟨r, by omega, h2, fun j hj1 hj2 => ?_, h4⟩
        by_cases e : j = i
        · rw [e]; exact hs
        · exact h3 j (by omega) hj2
      · right
        intro j hj1 hj2
        by_cases e : j = i
        · rw [e]; exact hs
        · exact h1 j (by omega) hj2

/-- The loop stops at the first snapshot that may be overwritten. -/
theorem seek_scan (n : Nat) (σ : Nat → Nat) (f w : Nat) (hf : 0 < f) (r : Nat) (hr : r < n)
    (hs : Stop σ f r) : ∀ d i k, r = i + 1 + d → (∀ j, i < j → j < r → ¬ Stop σ f j) → d < k →
    seek n σ k (i, w, f) = .ok (r, w, f) := by
  intro d
  induction d with
  | zero =>
    intro i k h hj hk
    obtain ⟨k, rfl⟩ : ∃ k', k = k' + 1 := ⟨k - 1, by omega⟩
    have ha : advance n (i, w, f) = (r, w, f) := by
      unfold advance
      rw [if_neg (by show ¬ (i + 1 ≥ n); omega)]
      show (i + 1, w, f) = _
      rw [h]
    rw [seek_succ, ha]
    show (if σ r > 0 then if f = 0 then _ else if σ r % f = 0 then _ else _ else _) = _
    rcases hs with hs | hs
    · rw [if_neg (by omega)]
    · by_cases h0 : σ r > 0
      · rw [if_pos h0, if_neg (by omega), if_neg hs]
      · rw [if_neg h0]
  | succ d ih =>
    intro i k h hj hk
    obtain ⟨k, rfl⟩ : ∃ k', k = k' + 1 := ⟨k - 1, by omega⟩
    have ha : advance n (i, w, f) = (i + 1, w, f) := by
      unfold advance
      rw [if_neg (by show ¬ (i + 1 ≥ n); omega)]
    have hn := hj (i + 1) (by omega) (by omega)
    have h1 : σ (i + 1) > 0 := by
      rcases Nat.eq_zero_or_pos (σ (i + 1)) with h0 | h0
      · exact absurd (Or.inl h0) hn
      · exact h0
    have h2 : σ (i + 1) % f = 0 := by
      rcases Nat.eq_zero_or_pos (σ (i + 1) % f) with h0 | h0
      · exact h0
      · exact absurd (Or.inr (by omega)) hn
    rw [seek_succ, ha]
    show (if σ (i + 1) > 0 then if f = 0 then _ else if σ (i + 1) % f = 0 then _ else _ else _) = _
    rw [if_pos h1, if_neg (by omega), if_pos h2]
    exact ih (i + 1) k (by omega) (fun j h3 h4 => hj j (by omega) h4) (by omega)

/-- When none may be overwritten up to the end the loop comes to the last one. -/
theorem seek_end (n : Nat) (σ : Nat → Nat) (f w : Nat) (hf : 0 < f) : ∀ d i k, n = i + 1 + d →
    (∀ j, i < j → j < n → ¬ Stop σ f j) →
    seek n σ (k + d) (i, w, f) = seek n σ k (n - 1, w, f) := by
  intro d
  induction d with
  | zero => intro i k h _; rw [show i = n - 1 by omega]; rfl
  | succ d ih =>
    intro i k h hj
    have ha : advance n (i, w, f) = (i + 1, w, f) := by
      unfold advance
      rw [if_neg (by show ¬ (i + 1 ≥ n); omega)]
    have hn := hj (i + 1) (by omega) (by omega)
    have h1 : σ (i + 1) > 0 := by
      rcases Nat.eq_zero_or_pos (σ (i + 1)) with h0 | h0
      · exact absurd (Or.inl h0) hn
      · exact h0
    have h2 : σ (i + 1) % f = 0 := by
      rcases Nat.eq_zero_or_pos (σ (i + 1) % f) with h0 | h0
      · exact h0
      · exact absurd (Or.inr (by omega)) hn
    rw [show k + (d + 1) = (k + d) + 1 by omega, seek_succ, ha]
    show (if σ (i + 1) > 0 then if f = 0 then _ else if σ (i + 1) % f = 0 then _ else _ else _) = _
    rw [if_pos h1, if_neg (by omega), if_pos h2]
    exact ih (i + 1) k (by omega) (fun j h3 h4 => hj j (by omega) h4)

/-- After the end: the first one of all that may be overwritten with the doubled frequency. -/
theorem seek_wrap (n : Nat) (σ : Nat → Nat) (f w : Nat) (hn : 0 < n) (hf : 0 < f)
    (h2f : f * 2 < 4294967296) (r : Nat) (hr : r < n) (hs : Stop σ (f * 2) r)
    (hj : ∀ j, j < r → ¬ Stop σ (f * 2) j) (k : Nat) (hk : n < k) :
    seek n σ k (n - 1, w, f) = .ok (r, w + 1, f * 2) := by
  obtain ⟨k, rfl⟩ : ∃ k', k = k' + 1 := ⟨k - 1, by omega⟩
  have ha : advance n (n - 1, w, f) = (0, w + 1, f * 2) := by
    unfold advance
    rw [if_pos (by show n - 1 + 1 ≥ n; omega)]
    show (0, w + 1, f * 2 % 4294967296) = _
    rw [Nat.mod_eq_of_lt h2f]
  rw [seek_succ, ha]
  show (if σ 0 > 0 then if f * 2 = 0 then _ else if σ 0 % (f * 2) = 0 then _ else _ else _) = _
  by_cases h0 : r = 0
  · subst h0
    rcases hs with hs | hs
    · rw [if_neg (by omega)]
    · by_cases h1 : σ 0 > 0
      · rw [if_pos h1, if_neg (by omega), if_neg hs]
      · rw [if_neg h1]
  · have hn0 := hj 0 (by omega)
    have h1 : σ 0 > 0 := by
      rcases Nat.eq_zero_or_pos (σ 0) with h | h
      · exact absurd (Or.inl h) hn0
      · exact h
    have h2 : σ 0 % (f * 2) = 0 := by
      rcases Nat.eq_zero_or_pos (σ 0 % (f * 2)) with h | h
      · exact h
      · exact absurd (Or.inr (by omega)) hn0
    rw [if_pos h1, if_neg (by omega), if_pos h2]
    exact seek_scan n σ (f * 2) (w + 1) (by omega) r hr hs (r - 1) 0 k (by omega)
      (fun j h3 h4 => hj j h4) (by omega)

/-- Stamps of the snapshots. -/
abbrev stamps (s : State) : Nat → Nat := fun i => (s.snaps i).stamp

/-- The invariant of the even spacing; `m` full periods have passed. -/
structure Spread (n m : Nat) (s : State) : Prop where
  lt : s.idx < n
  pos : 0 < s.freq
  stamp : s.stamp = s.freq * m
  all : ∀ k, 1 ≤ k → k ≤ m → ∃ i, i < n ∧ i ≠ s.idx ∧ stamps s i = s.freq * k
  uniq : ∀ i j, i < n → j < n → i ≠ s.idx → j ≠ s.idx → 0 < stamps s i →
    s.freq ∣ stamps s i → stamps s i = stamps s j → i = j
  below : ∀ i, i < s.idx → ∃ k, 1 ≤ k ∧ k ≤ m ∧ stamps s i = s.freq * k
  above : ∀ i, s.idx < i → i < n → (∃ k, 1 ≤ k ∧ k ≤ m ∧ stamps s i = s.freq * k) ∨
    stamps s i = 0 ∨ ¬ s.freq ∣ stamps s i
  fresh : s.fills = 0 → m = s.idx ∧ ∀ i, s.idx < i → i < n → stamps s i = 0
  full : 0 < s.fills → n / 2 ≤ m

/-- The stamps after `take` before the search. -/
def stamped (s : State) : Nat → Nat :=
  fun i => if i = s.idx then s.stamp + s.freq else stamps s i

theorem checkPeak_snaps (c : Cfg) (s : State) : (checkPeak c s).snaps = s.snaps := by
  unfold checkPeak; split <;> rfl

theorem checkPeak_idx (c : Cfg) (s : State) : (checkPeak c s).idx = s.idx := by
  unfold checkPeak; split <;> rfl

theorem checkPeak_fills (c : Cfg) (s : State) : (checkPeak c s).fills = s.fills := by
  unfold checkPeak; split <;> rfl

theorem checkPeak_freq (c : Cfg) (s : State) : (checkPeak c s).freq = s.freq := by
  unfold checkPeak; split <;> rfl

theorem checkPeak_stamp (c : Cfg) (s : State) : (checkPeak c s).stamp = s.stamp := by
  unfold checkPeak; split <;> rfl

theorem checkPeak_cnt (c : Cfg) (s : State) : (checkPeak c s).cnt = s.cnt := by
  unfold checkPeak; split <;> rfl

theorem stampIt_snaps (c : Cfg) (s : State) : (stampIt c s).snaps =
    setSnap s.snaps s.idx { s.snaps s.idx with stamp := s.stamp + s.freq } := by
  unfold stampIt; rw [checkPeak_snaps]

theorem stampIt_stamps (c : Cfg) (s : State) :
    (fun i => ((stampIt c s).snaps i).stamp) = stamped s := by
  funext i
  rw [stampIt_snaps]
  unfold setSnap stamped
  by_cases h : i = s.idx
  · rw [if_pos h, if_pos h]
  · rw [if_neg h, if_neg h]

theorem stampIt_idx (c : Cfg) (s : State) : (stampIt c s).idx = s.idx := by
  unfold stampIt; rw [checkPeak_idx]

theorem stampIt_stamp (c : Cfg) (s : State) : (stampIt c s).stamp = s.stamp + s.freq := by
  unfold stampIt; rw [checkPeak_stamp]

theorem take_eq (c : Cfg) (s : State) : take c s =
    match seek c.n (stamped s) (rounds c.n) (s.idx, s.fills, s.freq) with
    | .error e => .error e
    | .ok q => .ok (goOn (stampIt c s) q) := by
  unfold take; rw [stampIt_stamps]; rfl

/-- The stamps afterwards. -/
theorem goOn_stamps (c : Cfg) (s : State) (q : Nat × Nat × Nat) (i : Nat) :
    stamps (goOn (stampIt c s) q) i =
      if i = q.1 then s.stamp + s.freq else stamped s i := by
  show (setSnap (stampIt c s).snaps q.1 ((stampIt c s).snaps (stampIt c s).idx) i).stamp = _
  unfold setSnap
  by_cases h : i = q.1
  · rw [if_pos h, if_pos h, stampIt_idx, stampIt_snaps]
    unfold setSnap
    rw [if_pos rfl]
  · rw [if_neg h, if_neg h]
    exact congrFun (stampIt_stamps c s) i

/-- Counting: `n` slots that hold the multiples `1 … m` of `f`, each once. -/
theorem count_slots (n m f : Nat) (σ : Nat → Nat) (hf : 0 < f)
    (h1 : ∀ k, 1 ≤ k → k ≤ m → ∃ i, i < n ∧ σ i = f * k)
    (h2 : ∀ i, i < n → ∃ k, 1 ≤ k ∧ k ≤ m ∧ σ i = f * k)
    (h3 : ∀ i j, i < n → j < n → σ i = σ j → i = j) : n = m := by
  apply Nat.le_antisymm
  · have := Finset.card_le_card_of_injOn (s := Finset.range n) (t := Finset.range m)
      (fun i => σ i / f - 1) (by
        intro i hi
        obtain ⟨k, a, b, e⟩ := h2 i (Finset.mem_range.mp hi)
        refine Finset.mem_coe.mpr (Finset.mem_range.mpr ?_)
        show σ i / f - 1 < m
        rw [e, Nat.mul_div_cancel_left _ hf]; omega) (by
        intro i hi j hj e
        have hi := Finset.mem_range.mp (Finset.mem_coe.mp hi)
        have hj := Finset.mem_range.mp (Finset.mem_coe.mp hj)
        obtain ⟨k, a, b, e1⟩ := h2 i hi
        obtain ⟨k', a', b', e2⟩ := h2 j hj
        apply h3 i j hi hj
        have e : σ i / f - 1 = σ j / f - 1 := e
        rw [e1, e2, Nat.mul_div_cancel_left _ hf, Nat.mul_div_cancel_left _ hf] at e
        rw [e1, e2, show k = k' by omega])
    rwa [Finset.card_range, Finset.card_range] at this
  · have hx : ∀ k, ∃ i, k < m → i < n ∧ σ i = f * (k + 1) := by
      intro k
      by_cases hk : k < m
      · obtain ⟨i, a, b⟩ := h1 (k + 1) (by omega) (by omega)
        exact ⟨i, fun _ => ⟨a, b⟩⟩
      · exact ⟨0, fun h => absurd h hk⟩
    have := Finset.card_le_card_of_injOn (s := Finset.range m) (t := Finset.range n)
      (fun k => Classical.choose (hx k)) (by
        intro k hk
        have hk := Finset.mem_range.mp (Finset.mem_coe.mp hk)
        exact Finset.mem_coe.mpr (Finset.mem_range.mpr (Classical.choose_spec (hx k) hk).1)) (by
        intro k hk k' hk' e
        have hk := Finset.mem_range.mp (Finset.mem_coe.mp hk)
        have hk' := Finset.mem_range.mp (Finset.mem_coe.mp hk')
        have e1 := (Classical.choose_spec (hx k) hk).2
        have e2 := (Classical.choose_spec (hx k') hk').2
        have e : Classical.choose (hx k) = Classical.choose (hx k') := e
        rw [e, e2] at e1
        have := Nat.eq_of_mul_eq_mul_left hf e1
        omega)
    rwa [Finset.card_range, Finset.card_range] at this

theorem not_stop {σ : Nat → Nat} {f j : Nat} (h : ¬ Stop σ f j) : 0 < σ j ∧ f ∣ σ j := by
  constructor
  · rcases Nat.eq_zero_or_pos (σ j) with h0 | h0
    · exact absurd (Or.inl h0) h
    · exact h0
  · rcases Nat.eq_zero_or_pos (σ j % f) with h0 | h0
    · exact Nat.dvd_of_mod_eq_zero h0
    · exact absurd (Or.inr (by omega)) h

theorem stop_iff {σ : Nat → Nat} {f j : Nat} (h : Stop σ f j) : σ j = 0 ∨ ¬ f ∣ σ j := by
  rcases h with h | h
  · exact Or.inl h
  · exact Or.inr (fun hd => h (Nat.mod_eq_zero_of_dvd hd))

/-- Taking a snapshot keeps the spacing, and does not fail. -/
theorem take_spread (c : Cfg) (s : State) (m : Nat) (h : Spread c.n m s) (he : 2 ∣ c.n)
    (hn : 2 ≤ c.n) (hb : s.stamp + s.freq < c.n * 2147483648) :
    ∃ s' m', take c s = .ok s' ∧ Spread c.n m' s' ∧ s'.stamp = s.stamp + s.freq ∧
      ((s'.freq = s.freq ∧ s'.fills = s.fills) ∨
        (s'.freq = s.freq * 2 ∧ s'.fills = s.fills + 1 ∧ s.freq < 2147483648)) := by
  have hf := h.pos
  have hlt := h.lt
  have hst : s.stamp + s.freq = s.freq * (m + 1) := by rw [h.stamp, Nat.mul_succ]
  have hcur : stamped s s.idx = s.freq * (m + 1) := by
    unfold stamped; rw [if_pos rfl, hst]
  have hoth : ∀ i, i ≠ s.idx → stamped s i = stamps s i := by
    intro i hi; unfold stamped; rw [if_neg hi]
  -- every multiple is there
  have hall : ∀ k, 1 ≤ k → k ≤ m + 1 → ∃ i, i < c.n ∧ stamped s i = s.freq * k := by
    intro k h1 h2
    by_cases hk : k = m + 1
    · exact ⟨s.idx, hlt, by rw [hcur, hk]⟩
    · obtain ⟨i, a, b, e⟩ := h.all k h1 (by omega)
      exact ⟨i, a, by rw [hoth i b, e]⟩
  have hle : ∀ i, i < c.n → i ≠ s.idx → 0 < stamps s i → s.freq ∣ stamps s i →
      ∃ k, 1 ≤ k ∧ k ≤ m ∧ stamps s i = s.freq * k := by
    intro i h1 h2 h3 h4
    rcases Nat.lt_or_ge i s.idx with h5 | h5
    · exact h.below i h5
    · rcases h.above i (by omega) h1 with h6 | h6 | h6
      · exact h6
      · omega
      · exact absurd h4 h6
  have huniq : ∀ i j, i < c.n → j < c.n → 0 < stamped s i → s.freq ∣ stamped s i →
      stamped s i = stamped s j → i = j := by
    intro i j h1 h2 h3 h4 h5
    by_cases hi : i = s.idx
    · by_cases hj : j = s.idx
      · rw [hi, hj]
      · rw [hi, hcur, hoth j hj] at h5
        rw [hi] at h3 h4
        rw [hcur] at h3 h4
        obtain ⟨k, a, b, e⟩ := hle j h2 hj (by rw [← h5]; exact h3) (by rw [← h5]; exact h4)
        rw [e] at h5
        have := Nat.eq_of_mul_eq_mul_left hf h5
        omega
    · by_cases hj : j = s.idx
      · rw [hj, hcur, hoth i hi] at h5
        rw [hoth i hi] at h3 h4
        obtain ⟨k, a, b, e⟩ := hle i h1 hi h3 h4
        rw [e] at h5
        have := Nat.eq_of_mul_eq_mul_left hf h5
        omega
      · rw [hoth i hi] at h3 h4 h5
        rw [hoth j hj] at h5
        exact h.uniq i j h1 h2 hi hj h3 h4 h5
  rw [take_eq]
  have hr : rounds c.n = 34 * (c.n + 1) := rfl
  rcases first_stop (stamped s) s.freq c.n (c.n - (s.idx + 1)) (s.idx + 1) (by omega) with
    ⟨r, h1, h2, h3, h4⟩ | h1
  · -- no wrap
    rw [seek_scan c.n (stamped s) s.freq s.fills hf r h2 h4 (r - (s.idx + 1)) s.idx _
      (by omega) (fun j a b => h3 j (by omega) b) (by rw [hr]; omega)]
    have hri : r ≠ s.idx := by omega
    refine ⟨_, m + 1, rfl, ?_, ?_, Or.inl ⟨rfl, rfl⟩⟩
    · have hs' : ∀ i, i ≠ r → stamps (goOn (stampIt c s) (r, s.fills, s.freq)) i = stamped s i := by
        intro i hi; rw [goOn_stamps]; rw [if_neg hi]
      constructor
      · exact h2
      · exact hf
      · show (stampIt c s).stamp = s.freq * (m + 1)
        rw [stampIt_stamp, hst]
      · intro k a b
        obtain ⟨i, e1, e2⟩ := hall k a b
        have hir : i ≠ r := by
          intro e
          rw [e] at e2
          rcases stop_iff h4 with h5 | h5
          · rw [h5] at e2
            have := Nat.mul_pos hf (show 0 < k by omega)
            omega
          · exact h5 ⟨k, e2⟩
        exact ⟨i, e1, hir, by rw [hs' i hir]; exact e2⟩
      · intro i j a b hi hj h5 h6 h7
        have hi : i ≠ r := hi
        have hj : j ≠ r := hj
        rw [hs' i hi] at h5 h6 h7
        rw [hs' j hj] at h7
        exact huniq i j a b h5 h6 h7
      · intro i hi
        have hi : i < r := hi
        rw [hs' i (by omega)]
        show ∃ k, 1 ≤ k ∧ k ≤ m + 1 ∧ stamped s i = s.freq * k
        rcases Nat.lt_trichotomy i s.idx with h5 | h5 | h5
        · obtain ⟨k, a, b, e⟩ := h.below i h5
          exact ⟨k, a, by omega, by rw [hoth i (by omega), e]⟩
        · exact ⟨m + 1, by omega, Nat.le_refl _, by rw [h5, hcur]⟩
        · obtain ⟨h6, h7⟩ := not_stop (h3 i (by omega) hi)
          rw [hoth i (by omega)] at h6 h7
          obtain ⟨k, a, b, e⟩ := hle i (by omega) (by omega) h6 h7
          exact ⟨k, a, by omega, by rw [hoth i (by omega), e]⟩
      · intro i hi hin
        have hi : r < i := hi
        rw [hs' i (by omega), hoth i (by omega)]
        rcases h.above i (by omega) hin with ⟨k, a, b, e⟩ | h5 | h5
        · exact Or.inl ⟨k, a, by omega, e⟩
        · exact Or.inr (Or.inl h5)
        · exact Or.inr (Or.inr h5)
      · intro h0
        have h0 : s.fills = 0 := h0
        obtain ⟨e1, e2⟩ := h.fresh h0
        have hr1 : r = s.idx + 1 := by
          by_cases e : r = s.idx + 1
          · exact e
          · have := h3 (s.idx + 1) (by omega) (by omega)
            refine absurd (Or.inl ?_) this
            rw [hoth _ (by omega)]
            exact e2 _ (by omega) (by omega)
        refine ⟨by show m + 1 = r; omega, ?_⟩
        intro i hi hin
        have hi : r < i := hi
        rw [hs' i (by omega), hoth i (by omega)]
        exact e2 i (by omega) hin
      · intro h0
        have := h.full h0
        omega
    · show (stampIt c s).stamp = _
      rw [stampIt_stamp]
  · -- the array is full
    have hslots : ∀ i, i < c.n → ∃ k, 1 ≤ k ∧ k ≤ m + 1 ∧ stamped s i = s.freq * k := by
      intro i hi
      rcases Nat.lt_trichotomy i s.idx with h5 | h5 | h5
      · obtain ⟨k, a, b, e⟩ := h.below i h5
        exact ⟨k, a, by omega, by rw [hoth i (by omega), e]⟩
      · exact ⟨m + 1, by omega, Nat.le_refl _, by rw [h5, hcur]⟩
      · obtain ⟨h6, h7⟩ := not_stop (h1 i (by omega) hi)
        rw [hoth i (by omega)] at h6 h7
        obtain ⟨k, a, b, e⟩ := hle i hi (by omega) h6 h7
        exact ⟨k, a, by omega, by rw [hoth i (by omega), e]⟩
    have hinj : ∀ i j, i < c.n → j < c.n → stamped s i = stamped s j → i = j := by
      intro i j a b e
      obtain ⟨k, k1, k2, e1⟩ := hslots i a
      refine huniq i j a b ?_ ⟨k, e1⟩ e
      rw [e1]; exact Nat.mul_pos hf (by omega)
    have hcount := count_slots c.n (m + 1) s.freq (stamped s) hf hall hslots hinj
    obtain ⟨w, hw⟩ := he
    have hfb : s.freq < 2147483648 := by
      rw [hst, ← hcount, Nat.mul_comm] at hb
      exact Nat.lt_of_mul_lt_mul_left hb
    have hodd : ∃ j, j < c.n ∧ stamped s j = s.freq * 1 := hall 1 (Nat.le_refl _) (by omega)
    obtain ⟨j1, hj1, hj2⟩ := hodd
    have hstop1 : Stop (stamped s) (s.freq * 2) j1 := by
      right
      rw [hj2, Nat.mul_one, Nat.mod_eq_of_lt (by omega)]
      omega
    rcases first_stop (stamped s) (s.freq * 2) c.n c.n 0 (by omega) with
      ⟨r, h2, h3, h4, h5⟩ | h2
    · have hk : rounds c.n = (rounds c.n - (c.n - (s.idx + 1))) + (c.n - (s.idx + 1)) := by
        rw [hr]; omega
      rw [hk, seek_end c.n (stamped s) s.freq s.fills hf (c.n - (s.idx + 1)) s.idx _
        (by omega) (fun j a b => h1 j (by omega) b),
        seek_wrap c.n (stamped s) s.freq s.fills (by omega) hf (by omega) r h3 h5
          (fun j a => h4 j (by omega) a) _ (by rw [hr]; omega)]
      have hs' : ∀ i, i ≠ r →
          stamps (goOn (stampIt c s) (r, s.fills + 1, s.freq * 2)) i = stamped s i := by
        intro i hi; rw [goOn_stamps]; rw [if_neg hi]
      have hmul : ∀ i, i < c.n → s.freq * 2 ∣ stamped s i →
          ∃ k, 1 ≤ k ∧ k ≤ w ∧ stamped s i = s.freq * 2 * k := by
        intro i hi hd
        obtain ⟨k, a, b, e⟩ := hslots i hi
        obtain ⟨k', e'⟩ := hd
        rw [e, Nat.mul_assoc] at e'
        have e'' := Nat.eq_of_mul_eq_mul_left hf e'
        exact ⟨k', by omega, by omega, by rw [e, Nat.mul_assoc, e'']⟩
      refine ⟨_, w, rfl, ?_, ?_, Or.inr ⟨rfl, rfl, hfb⟩⟩
      · constructor
        · exact h3
        · show 0 < s.freq * 2
          omega
        · show (stampIt c s).stamp = s.freq * 2 * w
          rw [stampIt_stamp, hst, ← hcount, hw, Nat.mul_assoc]
        · intro k a b
          obtain ⟨i, e1, e2⟩ := hall (2 * k) (by omega) (by omega)
          have hir : i ≠ r := by
            intro e
            rw [e] at e2
            rcases stop_iff h5 with h6 | h6
            · rw [h6] at e2
              have := Nat.mul_pos hf (show 0 < 2 * k by omega)
              omega
            · exact h6 ⟨k, by rw [e2, Nat.mul_assoc]⟩
          refine ⟨i, e1, hir, ?_⟩
          rw [hs' i hir]
          show stamped s i = s.freq * 2 * k
          rw [e2, Nat.mul_assoc]
        · intro i j a b hi hj _ _ h8
          have hi : i ≠ r := hi
          have hj : j ≠ r := hj
          rw [hs' i hi, hs' j hj] at h8
          exact hinj i j a b h8
        · intro i hi
          have hi : i < r := hi
          rw [hs' i (by omega)]
          exact hmul i (by omega) (not_stop (h4 i (by omega) hi)).2
        · intro i hi hin
          have hi : r < i := hi
          rw [hs' i (by omega)]
          by_cases hd : s.freq * 2 ∣ stamped s i
          · exact Or.inl (hmul i hin hd)
          · exact Or.inr (Or.inr hd)
        · intro h0
          have h0 : s.fills + 1 = 0 := h0
          omega
        · intro _
          show c.n / 2 ≤ w
          omega
      · show (stampIt c s).stamp = _
        rw [stampIt_stamp]
    · exact absurd hstop1 (h2 j1 (by omega) hj1)

end Verif.HeapStat
