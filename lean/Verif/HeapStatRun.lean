import Verif.HeapStatAcct

/-!
# C68: helper lemmas about whole runs
-/

namespace Verif.HeapStat

/-! ## What a due snapshot changes -/

theorem seek_pos (n : Nat) (σ : Nat → Nat) : ∀ k p q, 0 < p.2.2 → (∀ i, i ≤ p.1 → 0 < σ i) →
    seek n σ k p = .ok q → 0 < q.2.2 ∧ ∀ i, i < q.1 → 0 < σ i := by
  intro k
  induction k with
  | zero => intro p q _ _ h; exact absurd h (by rw [seek]; exact fun h => nomatch h)
  | succ k ih =>
    intro p q hf hp h
    rw [seek_succ] at h
    by_cases hw : p.1 + 1 ≥ n
    · have ha : advance n p = (0, p.2.1 + 1, p.2.2 * 2 % 4294967296) := by
        unfold advance; rw [if_pos hw]
      rw [ha] at h
      dsimp only at h
      rw [if_pos (hp 0 (Nat.zero_le _))] at h
      by_cases h0 : p.2.2 * 2 % 4294967296 = 0
      · rw [if_pos h0] at h; exact nomatch h
      · rw [if_neg h0] at h
        by_cases h1 : σ 0 % (p.2.2 * 2 % 4294967296) = 0
        · rw [if_pos h1] at h
          refine ih _ _ (by show 0 < p.2.2 * 2 % 4294967296; omega) (fun i hi => ?_) h
          have hi : i ≤ 0 := hi
          exact hp i (by omega)
        · rw [if_neg h1] at h
          injection h with h
          subst h
          exact ⟨by show 0 < p.2.2 * 2 % 4294967296; omega, fun i hi => absurd hi (Nat.not_lt_zero _)⟩
    · have ha : advance n p = (p.1 + 1, p.2.1, p.2.2) := by
        unfold advance; rw [if_neg hw]
      rw [ha] at h
      dsimp only at h
      have hlt : ∀ i, i < p.1 + 1 → 0 < σ i := fun i hi => hp i (by omega)
      by_cases h2 : σ (p.1 + 1) > 0
      · rw [if_pos h2, if_neg (by omega)] at h
        by_cases h1 : σ (p.1 + 1) % p.2.2 = 0
        · rw [if_pos h1] at h
          refine ih (p.1 + 1, p.2.1, p.2.2) q hf (fun i hi => ?_) h
          have hi : i ≤ p.1 + 1 := hi
          by_cases e : i = p.1 + 1
          · rw [e]; exact h2
          · exact hp i (by omega)
        · rw [if_neg h1] at h
          injection h with h
          subst h
          exact ⟨hf, hlt⟩
      · rw [if_neg h2] at h
        injection h with h
        subst h
        exact ⟨hf, hlt⟩

/-- The period is not 0 and the snapshots before the one in progress have been taken. -/
def Pos (s : State) : Prop := 0 < s.freq ∧ ∀ i, i < s.idx → 0 < stamps s i

/-- What `take` does to the state. -/
structure Taken (c : Cfg) (s s' : State) : Prop where
  stamp : s'.stamp = s.stamp + s.freq
  cur : s'.snaps s'.idx = { s.snaps s.idx with stamp := s.stamp + s.freq }
  old : s.idx ≠ s'.idx → s'.snaps s.idx = { s.snaps s.idx with stamp := s.stamp + s.freq }
  rest : ∀ i, i ≠ s.idx → i ≠ s'.idx → s'.snaps i = s.snaps i
  peak : s'.peak = (checkPeak c { s with
    stamp := s.stamp + s.freq
    snaps := setSnap s.snaps s.idx { s.snaps s.idx with stamp := s.stamp + s.freq } }).peak
  pos : Pos s → Pos s'

theorem take_taken (c : Cfg) (s s' : State) (h : take c s = .ok s') : Taken c s s' := by
  rw [take_eq] at h
  cases hq : seek c.n (stamped s) (rounds c.n) (s.idx, s.fills, s.freq) with
  | error e => rw [hq] at h; exact nomatch h
  | ok q =>
    rw [hq] at h
    injection h with h
    subst h
    constructor
    · show (stampIt c s).stamp = _
      rw [stampIt_stamp]
    · show setSnap (stampIt c s).snaps q.1 ((stampIt c s).snaps (stampIt c s).idx) q.1 = _
      rw [stampIt_idx, stampIt_snaps]
      unfold setSnap
      rw [if_pos rfl, if_pos rfl]
    · intro hne
      show setSnap (stampIt c s).snaps q.1 ((stampIt c s).snaps (stampIt c s).idx) s.idx = _
      rw [stampIt_idx, stampIt_snaps]
      have hne : s.idx ≠ q.1 := hne
      unfold setSnap
      rw [if_neg hne, if_pos rfl]
    · intro i h1 h2
      have h2 : i ≠ q.1 := h2
      show setSnap (stampIt c s).snaps q.1 ((stampIt c s).snaps (stampIt c s).idx) i = _
      rw [stampIt_snaps]
      unfold setSnap
      rw [if_neg h2, if_neg h1]
    · rfl
    · intro ⟨hf, hp⟩
      have := seek_pos c.n (stamped s) _ _ q hf (fun i hi => ?_) hq
      · refine ⟨this.1, fun i hi => ?_⟩
        have hi : i < q.1 := hi
        rw [goOn_stamps, if_neg (by omega)]
        exact this.2 i hi
      · have hi : i ≤ s.idx := hi
        unfold stamped
        by_cases e : i = s.idx
        · rw [if_pos e]; omega
        · rw [if_neg e]; exact hp i (by omega)

/-- A property kept by `take` and by changes of the counters is kept by `account_for_bytes_post`. -/
theorem post_ind (c : Cfg) (P : State → Prop) (hcnt : ∀ s x a, P s → P { s with cnt := x, afCur := a })
    (ht : ∀ s s', P s → take c s = .ok s' → P s') (d : Int) (s s' : State) (hs : P s)
    (h : post c d s = .ok s') : P s' := by
  have hre : ∀ s s', P s → restart s = .ok s' → P s' := by
    intro s s' hs h
    unfold restart at h
    split at h
    · injection h with h; subst h; exact hcnt s _ s.afCur hs
    · exact nomatch h
  have hloop : ∀ k d s s', P s → bytesLoop c k d s = .ok s' → P s' := by
    intro k
    induction k with
    | zero => intro d s s' _ h; exact nomatch h
    | succ k ih =>
      intro d s s' hs h
      rw [bytesLoop] at h
      split at h
      · cases h1 : take c s with
        | error e => rw [h1] at h; exact nomatch h
        | ok s1 =>
          rw [h1] at h
          exact ih _ _ _ (ht s s1 hs h1) h
      · injection h with h; subst h; exact hs
  unfold post at h
  split at h
  · exact nomatch h
  · rename_i s1 h1
    injection h with h
    subst h
    refine hcnt s1 s1.cnt _ ?_
    split at h1
    · generalize (if d < 0 then -d else d) = D at h1
      unfold postBytes at h1
      split at h1
      · split at h1
        · exact nomatch h1
        · rename_i s2 h2
          exact hre s2 s1 (hloop _ _ _ _ hs h2) h1
      · injection h1 with h1; subst h1; exact hcnt s _ s.afCur hs
    · unfold postAllocs at h1
      split at h1
      · split at h1
        · exact nomatch h1
        · rename_i s2 h2
          exact hre s2 s1 (ht _ _ (hcnt s _ s.afCur hs) h2) h1
      · injection h1 with h1; subst h1; exact hcnt s _ s.afCur hs
    · injection h1 with h1; subst h1; exact hs

/-! ## Runs -/

theorem run_append (c : Cfg) (p q : List Ev) : ∀ s s', run c s (p ++ q) = .ok s' ↔
    ∃ s1, run c s p = .ok s1 ∧ run c s1 q = .ok s' := by
  induction p with
  | nil =>
    intro s s'
    exact ⟨fun h => ⟨s, rfl, h⟩, fun ⟨s1, h1, h2⟩ => by injection h1 with h1; subst h1; exact h2⟩
  | cons e p ih =>
    intro s s'
    rw [List.cons_append, run, run]
    cases step c s e with
    | error f =>
      constructor
      · intro h; exact nomatch h
      · rintro ⟨_, h, _⟩; exact nomatch h
    | ok s1 => exact ih s1 s'

theorem run_snoc (c : Cfg) (p : List Ev) (e : Ev) (s s1 s' : State) (h : run c s p = .ok s1)
    (h' : step c s1 e = .ok s') : run c s (p ++ [e]) = .ok s' := by
  rw [run_append]
  refine ⟨s1, h, ?_⟩
  unfold run
  rw [h']
  rfl

/-- Induction over a run from its start. -/
theorem run_ind (c : Cfg) (Q : List Ev → State → Prop)
    (hstep : ∀ past e s s', Q past s → step c s e = .ok s' → Q (past ++ [e]) s') :
    ∀ evs past s s', Q past s → run c s evs = .ok s' → Q (past ++ evs) s' := by
  intro evs
  induction evs with
  | nil =>
    intro past s s' hq h
    injection h with h; subst h
    rw [List.append_nil]; exact hq
  | cons e evs ih =>
    intro past s s' hq h
    rw [run] at h
    cases h1 : step c s e with
    | error f => rw [h1] at h; exact nomatch h
    | ok s1 =>
      rw [h1] at h
      have := ih (past ++ [e]) s1 s' (hstep past e s s1 hq h1) h
      rwa [List.append_assoc, List.singleton_append] at this

theorem step_malloc (c : Cfg) (s : State) (b : Blk) : step c s (.malloc b) =
    account c b.cs (int32 b.req) (int32 b.pad) c.hdr false
      (int32 b.req + int32 b.pad + c.hdr) s := rfl

theorem step_free (c : Cfg) (s : State) (b : Blk) : step c s (.free b) =
    account c b.cs (int32 (-(b.req : Int))) (int32 (-(b.pad : Int))) (-(c.hdr : Int)) false
      (int32 b.req + int32 b.pad + c.hdr) (checkPeak c s) := rfl

theorem step_resize (c : Cfg) (s : State) (b b' : Blk) : step c s (.resize b b') =
    account c b'.cs (int32 ((b'.req : Int) - b.req)) (int32 ((b'.pad : Int) - b.pad)) 0 true
      (int32 ((b'.req : Int) - b.req) + int32 ((b'.pad : Int) - b.pad))
      (if b'.req < b.req then checkPeak c s else s) := rfl

theorem live_snoc (p : List Ev) (e : Ev) : live (p ++ [e]) = liveStep (live p) e := by
  unfold live; rw [List.foldl_append]; rfl

/-- The spacing does not look at the contents. -/
theorem spread_same (n m : Nat) (s s' : State) (h : Spread n m s) (hi : s'.idx = s.idx)
    (hw : s'.fills = s.fills) (hf : s'.freq = s.freq) (ht : s'.stamp = s.stamp)
    (hs : ∀ i, i ≠ s.idx → stamps s' i = stamps s i) : Spread n m s' := by
  constructor
  · rw [hi]; exact h.lt
  · rw [hf]; exact h.pos
  · rw [ht, hf]; exact h.stamp
  · intro k a b
    obtain ⟨i, e1, e2, e3⟩ := h.all k a b
    exact ⟨i, e1, by rw [hi]; exact e2, by rw [hs i e2, hf]; exact e3⟩
  · intro i j a b h1 h2 h3 h4 h5
    rw [hi] at h1 h2
    rw [hs i h1] at h3 h4 h5
    rw [hs j h2] at h5
    rw [hf] at h4
    exact h.uniq i j a b h1 h2 h3 h4 h5
  · intro i h1
    rw [hi] at h1
    rw [hs i (by omega), hf]
    exact h.below i h1
  · intro i h1 h2
    rw [hi] at h1
    rw [hs i (by omega), hf]
    exact h.above i h1 h2
  · intro h0
    rw [hw] at h0
    obtain ⟨a, b⟩ := h.fresh h0
    refine ⟨by rw [hi]; exact a, fun i h1 h2 => ?_⟩
    rw [hi] at h1
    rw [hs i (by omega)]
    exact b i h1 h2
  · intro h0
    rw [hw] at h0
    exact h.full h0

/-- Writing only the snapshot in progress. -/
theorem setSnap_ne (f : Nat → Snap) (i j : Nat) (x : Snap) (h : j ≠ i) : setSnap f i x j = f j := by
  unfold setSnap; rw [if_neg h]

theorem setSnap_eq (f : Nat → Snap) (i : Nat) (x : Snap) : setSnap f i x i = x := by
  unfold setSnap; rw [if_pos rfl]

/-- `P` holds for the state after `preState` if it does not look at the snapshot in progress. -/
theorem preState_ok (cs : Nat) (a u o : Int) (r : Bool) (s s' : State)
    (h : preState cs a u o r s = .ok s') :
    ∃ x, pre cs a u o r (s.snaps s.idx) = .ok x ∧ s' = { s with snaps := setSnap s.snaps s.idx x } := by
  unfold preState at h
  cases h1 : pre cs a u o r (s.snaps s.idx) with
  | error e => rw [h1] at h; exact nomatch h
  | ok x => rw [h1] at h; injection h with h; exact ⟨x, rfl, h.symm⟩

theorem account_ok (c : Cfg) (cs : Nat) (a u o : Int) (r : Bool) (d : Int) (s s' : State)
    (h : account c cs a u o r d s = .ok s') :
    ∃ x, pre cs a u o r (s.snaps s.idx) = .ok x ∧
      post c d { s with snaps := setSnap s.snaps s.idx x } = .ok s' := by
  unfold account at h
  cases h1 : preState cs a u o r s with
  | error e => rw [h1] at h; exact nomatch h
  | ok s1 =>
    rw [h1] at h
    obtain ⟨x, h2, h3⟩ := preState_ok _ _ _ _ _ _ _ h1
    subst h3
    exact ⟨x, h2, h⟩

/-- The spacing along a run. -/
theorem run_spread (c : Cfg) (he : 2 ∣ c.n) (hn : 2 ≤ c.n) (f0 : Nat) (hf : 0 < f0)
    (evs : List Ev) (s : State) (h : run c (init f0) evs = .ok s)
    (hb : s.stamp < c.n * 2147483648) : ∃ m, Spread c.n m s := by
  let P : State → Prop := fun s => s.stamp < c.n * 2147483648 → ∃ m, Spread c.n m s
  have hsame : ∀ s s' : State, P s → s'.idx = s.idx → s'.fills = s.fills → s'.freq = s.freq →
      s'.stamp = s.stamp → (∀ i, i ≠ s.idx → stamps s' i = stamps s i) → P s' := by
    intro s s' hp h1 h2 h3 h4 h5 hb
    rw [h4] at hb
    obtain ⟨m, hm⟩ := hp hb
    exact ⟨m, spread_same c.n m s s' hm h1 h2 h3 h4 h5⟩
  have hpk : ∀ s, P s → P (checkPeak c s) := fun s hp =>
    hsame s _ hp (checkPeak_idx c s) (checkPeak_fills c s) (checkPeak_freq c s)
      (checkPeak_stamp c s) (fun i _ => by show ((checkPeak c s).snaps i).stamp = _; rw [checkPeak_snaps])
  have hset : ∀ (s : State) x, P s → P { s with snaps := setSnap s.snaps s.idx x } := fun s x hp =>
    hsame s _ hp rfl rfl rfl rfl (fun i hi => by
      show (setSnap s.snaps s.idx x i).stamp = _; rw [setSnap_ne _ _ _ _ hi])
  have htake : ∀ s s', P s → take c s = .ok s' → P s' := by
    intro s s' hp ht hb
    have hst := (take_taken c s s' ht).stamp
    rw [hst] at hb
    obtain ⟨m, hm⟩ := hp (by omega)
    obtain ⟨s2, m', h1, h2, _⟩ := take_spread c s m hm he hn hb
    rw [ht] at h1
    injection h1 with h1
    subst h1
    exact ⟨m', h2⟩
  have hacc : ∀ s s' cs a u o r d, P s → account c cs a u o r d s = .ok s' → P s' := by
    intro s s' cs a u o r d hp h
    obtain ⟨x, _, h2⟩ := account_ok _ _ _ _ _ _ _ _ _ h
    exact post_ind c P (fun s x a hs => hsame s _ hs rfl rfl rfl rfl (fun _ _ => rfl)) htake d _ _
      (hset s x hp) h2
  have key := run_ind c (fun _ s => P s) (fun past e s s' hp h => by
    cases e with
    | malloc b => rw [step_malloc] at h; exact hacc _ _ _ _ _ _ _ _ hp h
    | free b => rw [step_free] at h; exact hacc _ _ _ _ _ _ _ _ (hpk s hp) h
    | resize b b' =>
      rw [step_resize] at h
      refine hacc _ _ _ _ _ _ _ _ ?_ h
      split
      · exact hpk s hp
      · exact hp
    | tick => exact htake _ _ hp h
    | dump d =>
      injection h with h; subst h
      exact hpk _ (hset s _ hp)) evs [] (init f0) s ?_ h
  · exact key hb
  · intro _
    refine ⟨0, ⟨by show 0 < c.n; omega, hf, rfl, fun k a b => by omega,
      fun i j _ _ _ _ h3 _ _ => absurd h3 (Nat.lt_irrefl 0), fun i hi => absurd hi (Nat.not_lt_zero _),
      fun i _ _ => Or.inr (Or.inl rfl), fun _ => ⟨rfl, fun _ _ _ => rfl⟩,
      fun h => absurd (show 0 < 0 from h) (Nat.lt_irrefl 0)⟩⟩

end Verif.HeapStat
