import Verif.StaleSnap

/-!
# C69: what one event does to the shadow bytes of a block
-/

namespace Verif.Stale

/-- The granules of a block that the sweep looks at. -/
def InR (base size g : Nat) : Prop := base / 8 ≤ g ∧ g < base / 8 + size / 8

theorem valIn_iff {m : Nat → Bool} {base size : Nat} :
    valIn m base size = true ↔ ∃ g, InR base size g ∧ m g = true := by
  unfold valIn
  rw [List.any_eq_true]
  constructor
  · rintro ⟨i, hi, hm⟩
    exact ⟨base / 8 + i, ⟨by omega, by have := List.mem_range.1 hi; omega⟩, hm⟩
  · rintro ⟨g, ⟨h1, h2⟩, hm⟩
    refine ⟨g - base / 8, List.mem_range.2 (by omega), ?_⟩
    show m (base / 8 + (g - base / 8)) = true
    rw [show base / 8 + (g - base / 8) = g by omega]; exact hm

theorem valIn_congr {m m' : Nat → Bool} {base size : Nat} (h : ∀ g, InR base size g → m g = m' g) :
    valIn m base size = valIn m' base size := by
  rw [Bool.eq_iff_iff, valIn_iff, valIn_iff]
  constructor
  · rintro ⟨g, h1, h2⟩; exact ⟨g, h1, by rw [← h g h1]; exact h2⟩
  · rintro ⟨g, h1, h2⟩; exact ⟨g, h1, by rw [h g h1]; exact h2⟩

theorem setRange_in {m : Nat → Bool} {base size g : Nat} {v : Bool} (h : InR base size g) :
    setRange m base size v g = v := by
  unfold setRange; exact if_pos h

theorem setRange_out {m : Nat → Bool} {base size g : Nat} {v : Bool} (h : ¬ InR base size g) :
    setRange m base size v g = m g := by
  unfold setRange; exact if_neg h

/-- Blocks that start at multiples of 8 and are apart share no granule. -/
theorem apart_gran {a n b k g : Nat} (ha : a % 8 = 0) (hb : b % 8 = 0) (h : Apart a n (b, k))
    (h1 : InR a n g) : ¬ InR b k g := by
  unfold InR at *
  unfold Apart at h
  simp only at h
  omega

/-! ## The sweep -/

theorem sweepOne_marks (t : Nat) (m : Nat → Bool) (b : Blk) (g : Nat) :
    (¬ InR b.base b.size g → (sweepOne t m b).1 g = m g) ∧
    (InR b.base b.size g → (sweepOne t m b).1 g = false) := by
  unfold sweepOne
  by_cases hv : valIn m b.base b.size = true
  · rw [if_pos hv]
    exact ⟨fun h => setRange_out h, fun h => setRange_in h⟩
  · rw [if_neg hv]
    refine ⟨fun _ => rfl, fun h => ?_⟩
    cases hg : m g with
    | false => exact hg
    | true => exact absurd (valIn_iff.2 ⟨g, h, hg⟩) hv

theorem sweepAll_marks (t : Nat) : ∀ (l : List Blk) (m : Nat → Bool) (g : Nat),
    ((∀ b ∈ l, ¬ InR b.base b.size g) → (sweepAll t m l).1 g = m g) ∧
    ((∃ b ∈ l, InR b.base b.size g) ∨ m g = false → (sweepAll t m l).1 g = false) := by
  intro l
  induction l with
  | nil =>
    intro m g
    refine ⟨fun _ => rfl, ?_⟩
    rintro (⟨b, hb, _⟩ | h)
    · cases hb
    · exact h
  | cons b l ih =>
    intro m g
    have h1 := sweepOne_marks t m b g
    have h2 := ih (sweepOne t m b).1 g
    constructor
    · intro h
      show (sweepAll t (sweepOne t m b).1 l).1 g = m g
      rw [h2.1 fun x hx => h x (by simp [hx]), h1.1 (h b (by simp))]
    · intro h
      show (sweepAll t (sweepOne t m b).1 l).1 g = false
      apply h2.2
      rcases h with ⟨x, hx, hg⟩ | h
      · rcases List.mem_cons.1 hx with rfl | hx
        · right; exact h1.2 hg
        · left; exact ⟨x, hx, hg⟩
      · right
        by_cases hg : InR b.base b.size g
        · exact h1.2 hg
        · rw [h1.1 hg]; exact h

/-- The blocks of the table are in order. -/
structure WF (l : List Blk) : Prop where
  al : ∀ b ∈ l, b.base % 8 = 0
  ap : l.Pairwise fun a b => a.base ≠ b.base ∧ Apart a.base a.size (b.base, b.size)

theorem sweepAll_blks (t : Nat) : ∀ (l : List Blk) (m : Nat → Bool), WF l →
    (sweepAll t m l).2 = l.map fun b => if valIn m b.base b.size then { b with last := t } else b := by
  intro l
  induction l with
  | nil => intro m _; rfl
  | cons b l ih =>
    intro m h
    have hp := List.pairwise_cons.1 h.ap
    have hl : WF l := ⟨fun x hx => h.al x (by simp [hx]), hp.2⟩
    show (sweepOne t m b).2 :: (sweepAll t (sweepOne t m b).1 l).2 = _
    rw [ih _ hl, List.map_cons]
    congr 1
    · unfold sweepOne; split <;> rfl
    · apply List.map_congr_left
      intro x hx
      have : valIn (sweepOne t m b).1 x.base x.size = valIn m x.base x.size := by
        apply valIn_congr
        intro g hg
        apply (sweepOne_marks t m b g).1
        intro hb
        exact apart_gran (h.al b (by simp)) (h.al x (by simp [hx])) (hp.1 x hx).2 hb hg
      rw [this]

/-! ## References -/

theorem markLoop_iff : ∀ (k : Nat) (m : Nat → Bool) (g x : Nat),
    markLoop m g k x = true ↔ m x = true ∨ (g ≤ x ∧ x < g + k) := by
  intro k
  induction k with
  | zero => intro m g x; unfold markLoop; constructor
            · intro h; exact Or.inl h
            · rintro (h | h)
              · exact h
              · omega
  | succ k ih =>
    intro m g x
    rw [markLoop, ih]
    by_cases h : x = g
    · subst h; simp
    · rw [if_neg h]
      constructor
      · rintro (h' | h')
        · exact Or.inl h'
        · right; omega
      · rintro (h' | h')
        · exact Or.inl h'
        · right; omega

/-- The granules a reference marks. -/
theorem refMem_iff {m : Nat → Bool} {addr sz x : Nat} {k : Kind} :
    refMem m addr sz k x = true ↔ m x = true ∨
      (k = .fast ∧ x = addr / 8) ∨ (k = .slow ∧ addr / 8 ≤ x ∧ x < (addr + sz + 7) / 8) := by
  cases k with
  | fast =>
    show (if x = addr / 8 then true else m x) = true ↔ _
    by_cases h : x = addr / 8
    · simp [h]
    · simp [h]
  | slow =>
    show markLoop m (addr / 8) _ x = true ↔ _
    rw [markLoop_iff]
    have : (addr / 8 ≤ x ∧ x < addr / 8 + ((addr + sz + 7) / 8 - addr / 8)) ↔
        (addr / 8 ≤ x ∧ x < (addr + sz + 7) / 8) := by omega
    rw [this]; simp
  | check => simp [refMem]

theorem meets_iff {a n b m : Nat} : meets a n b m = true ↔ a < b + m ∧ b < a + n ∧ 0 < n ∧ 0 < m := by
  unfold meets
  rw [decide_eq_true_eq]
  omega

/-- A reference marks a granule of a block just when it meets the bytes that count. -/
theorem valIn_ref {m : Nat → Bool} {addr sz base size : Nat} {k : Kind} (hb : base % 8 = 0) (hsz : 0 < sz)
    (hf : k = .fast → meets addr sz base size = true → base ≤ addr) :
    valIn (refMem m addr sz k) base size =
      (valIn m base size || (decide (k ≠ .check) && meets addr sz base (8 * (size / 8)))) := by
  rw [Bool.eq_iff_iff, Bool.or_eq_true, Bool.and_eq_true, valIn_iff, valIn_iff, meets_iff,
    decide_eq_true_eq]
  rw [meets_iff] at hf
  constructor
  · rintro ⟨g, hg, hm⟩
    rcases refMem_iff.1 hm with h | ⟨hk, h⟩ | ⟨hk, h1, h2⟩
    · exact Or.inl ⟨g, hg, h⟩
    · right
      refine ⟨by rw [hk]; decide, ?_⟩
      unfold InR at hg
      clear hf
      omega
    · right
      refine ⟨by rw [hk]; decide, ?_⟩
      unfold InR at hg
      clear hf
      omega
  · rintro (⟨g, hg, hm⟩ | ⟨hk, h1, h2, h3, h4⟩)
    · exact ⟨g, hg, refMem_iff.2 (Or.inl hm)⟩
    · cases k with
      | check => exact absurd rfl hk
      | fast =>
        have := hf rfl (by clear hf; omega)
        refine ⟨addr / 8, ⟨by omega, by omega⟩, refMem_iff.2 (Or.inr (Or.inl ⟨rfl, rfl⟩))⟩
      | slow =>
        refine ⟨max (addr / 8) (base / 8), ⟨by omega, by omega⟩,
          refMem_iff.2 (Or.inr (Or.inr ⟨rfl, by omega, by omega⟩))⟩

/-! ## Snapshots do not touch the rest -/

theorem snapIf_ok {due : Bool} {s s' : St} (h : snapIf due s = .ok s') :
    s'.marks = s.marks ∧ s'.blks = s.blks ∧ s'.n = s.n ∧ s'.stamp = s.stamp := by
  unfold snapIf at h
  cases due with
  | false => injection h with h; subst h; exact ⟨rfl, rfl, rfl, rfl⟩
  | true =>
    rw [if_pos rfl] at h
    cases hs : takeSnapshot s.n s.stamp s.blks with
    | error e => rw [hs] at h; exact absurd h (by simp)
    | ok sn => rw [hs] at h; injection h with h; subst h; exact ⟨rfl, rfl, rfl, rfl⟩

/-- What an event does to shadow memory, table, count and time, when it succeeds. -/
theorem step_ok {s s' : St} {e : Ev} (h : step s e = .ok s') (hd : ∀ bs, e ≠ .destroy bs) :
    s'.stamp = stampStep s.stamp e ∧
    (match e with
     | .heapAdd start len => s'.marks = setRange s.marks start len false ∧ s'.blks = s.blks ∧ s'.n = s.n
     | .malloc base size cs _ =>
       s'.marks = s.marks ∧ s'.blks = ⟨base, size, cs, s.stamp⟩ :: s.blks ∧ s'.n = s.n + 1
     | .free base _ _ =>
       s'.marks = s.marks ∧ s'.blks = s.blks.filter (·.base != base) ∧ s'.n = s.n - 1
     | .resize base size _ _ => s'.marks = s.marks ∧
       s'.blks = s.blks.map (fun b => if b.base = base then { b with size := size } else b) ∧ s'.n = s.n
     | .ref addr sz k => s'.marks = refMem s.marks addr sz k ∧ s'.blks = s.blks ∧ s'.n = s.n
     | .sweep => s'.marks = (sweepAll s.stamp s.marks s.blks).1 ∧
       s'.blks = (sweepAll s.stamp s.marks s.blks).2 ∧ s'.n = s.n
     | _ => s'.marks = s.marks ∧ s'.blks = s.blks ∧ s'.n = s.n) := by
  cases e with
  | heapAdd start len => injection h with h; subst h; exact ⟨rfl, rfl, rfl, rfl⟩
  | malloc base size cs due =>
    obtain ⟨h1, h2, h3, h4⟩ := snapIf_ok h
    exact ⟨h4, h1, h2, h3⟩
  | free base peak due =>
    rw [step] at h
    cases hp : snapIf peak s with
    | error e => rw [hp] at h; exact absurd h (by simp)
    | ok s1 =>
      rw [hp] at h
      obtain ⟨a1, a2, a3, a4⟩ := snapIf_ok hp
      obtain ⟨h1, h2, h3, h4⟩ := snapIf_ok h
      exact ⟨h4.trans a4, h1.trans a1, h2.trans (by rw [a2]), h3.trans (by rw [a3])⟩
  | resize base size peak due =>
    rw [step] at h
    cases hp : snapIf peak { s with blks := s.blks.map fun b => if b.base = base then { b with size := size } else b } with
    | error e => rw [hp] at h; exact absurd h (by simp)
    | ok s1 =>
      rw [hp] at h
      obtain ⟨a1, a2, a3, a4⟩ := snapIf_ok hp
      obtain ⟨h1, h2, h3, h4⟩ := snapIf_ok h
      exact ⟨h4.trans a4, h1.trans a1, h2.trans a2, h3.trans a3⟩
  | ref addr sz k => injection h with h; subst h; exact ⟨rfl, rfl, rfl, rfl⟩
  | sweep => injection h with h; subst h; exact ⟨rfl, rfl, rfl, rfl⟩
  | tick d => injection h with h; subst h; exact ⟨rfl, rfl, rfl, rfl⟩
  | take =>
    obtain ⟨h1, h2, h3, h4⟩ := snapIf_ok h
    exact ⟨h4, h1, h2, h3⟩
  | destroy bs => exact absurd rfl (hd bs)

/-- The ranges of the blocks of the table. -/
def liveOf (l : List Blk) : Live := l.map fun b => (b.base, b.size)

/-- The invariant of a run. -/
structure Inv (s : St) : Prop where
  wf : WF s.blks
  n : s.n = s.blks.length
  last : ∀ b ∈ s.blks, b.last ≤ s.stamp

theorem inv_init : Inv St.init := ⟨⟨by simp [St.init], by simp [St.init]⟩, rfl, by simp [St.init]⟩

theorem filter_len {l : List Blk} {base : Nat} (h : WF l) (hx : ∃ b ∈ l, b.base = base) :
    (l.filter (·.base != base)).length = l.length - 1 := by
  induction l with
  | nil => obtain ⟨b, hb, _⟩ := hx; cases hb
  | cons a l ih =>
    have hp := List.pairwise_cons.1 h.ap
    have hl : WF l := ⟨fun x hx => h.al x (by simp [hx]), hp.2⟩
    by_cases ha : a.base = base
    · have : l.filter (·.base != base) = l := by
        rw [List.filter_eq_self]
        intro x hx
        have := (hp.1 x hx).1
        rw [ha] at this
        simpa using Ne.symm this
      rw [List.filter_cons_of_neg (by simp [ha]), this]; simp
    · have hx' : ∃ b ∈ l, b.base = base := by
        obtain ⟨b, hb, h'⟩ := hx
        rcases List.mem_cons.1 hb with rfl | hb
        · exact absurd h' ha
        · exact ⟨b, hb, h'⟩
      rw [List.filter_cons_of_pos (by simp [ha]), List.length_cons, ih hl hx', List.length_cons]
      obtain ⟨b, hb, _⟩ := hx'
      have := List.length_pos_of_mem hb
      omega

theorem inv_step {s s' : St} {e : Ev} (hi : Inv s) (hok : Ok1 (liveOf s.blks) e) (h : step s e = .ok s') :
    Inv s' ∧ liveOf s'.blks = liveStep (liveOf s.blks) e := by
  have hd : ∀ bs, e ≠ .destroy bs := by rintro bs rfl; exact hok
  obtain ⟨ht, hs⟩ := step_ok h hd
  cases e with
  | destroy bs => exact absurd rfl (hd bs)
  | heapAdd start len =>
    obtain ⟨h1, h2, h3⟩ := hs
    exact ⟨⟨h2 ▸ hi.wf, by rw [h3, h2, hi.n], by rw [h2, ht]; exact hi.last⟩, by rw [h2]; rfl⟩
  | ref addr sz k =>
    obtain ⟨h1, h2, h3⟩ := hs
    exact ⟨⟨h2 ▸ hi.wf, by rw [h3, h2, hi.n], by rw [h2, ht]; exact hi.last⟩, by rw [h2]; rfl⟩
  | take =>
    obtain ⟨h1, h2, h3⟩ := hs
    exact ⟨⟨h2 ▸ hi.wf, by rw [h3, h2, hi.n], by rw [h2, ht]; exact hi.last⟩, by rw [h2]; rfl⟩
  | tick d =>
    obtain ⟨h1, h2, h3⟩ := hs
    refine ⟨⟨h2 ▸ hi.wf, by rw [h3, h2, hi.n], ?_⟩, by rw [h2]; rfl⟩
    rw [h2, ht]
    intro b hb
    have := hi.last b hb
    show b.last ≤ s.stamp + d
    omega
  | malloc base size cs due =>
    obtain ⟨h1, h2, h3⟩ := hs
    refine ⟨⟨?_, by rw [h3, h2, hi.n]; rfl, ?_⟩, by rw [h2]; rfl⟩
    · rw [h2]
      refine ⟨?_, List.pairwise_cons.2 ⟨?_, hi.wf.ap⟩⟩
      · intro b hb
        rcases List.mem_cons.1 hb with rfl | hb
        · exact hok.1
        · exact hi.wf.al b hb
      · intro b hb
        have := hok.2 (b.base, b.size) (List.mem_map.2 ⟨b, hb, rfl⟩)
        exact ⟨Ne.symm this.1, this.2⟩
    · rw [h2, ht]
      intro b hb
      rcases List.mem_cons.1 hb with rfl | hb
      · exact Nat.le_refl _
      · exact hi.last b hb
  | free base peak due =>
    obtain ⟨h1, h2, h3⟩ := hs
    have hx : ∃ b ∈ s.blks, b.base = base := by
      obtain ⟨x, hx, hb⟩ := hok
      obtain ⟨b, hb', rfl⟩ := List.mem_map.1 hx
      exact ⟨b, hb', hb⟩
    refine ⟨⟨?_, by rw [h3, h2, hi.n, filter_len hi.wf hx], ?_⟩, ?_⟩
    · rw [h2]
      exact ⟨fun b hb => hi.wf.al b (List.mem_filter.1 hb).1, hi.wf.ap.filter _⟩
    · rw [h2, ht]
      exact fun b hb => hi.last b (List.mem_filter.1 hb).1
    · rw [h2]
      show (s.blks.filter _).map _ = (s.blks.map _).filter _
      rw [List.filter_map]; rfl
  | resize base size peak due =>
    obtain ⟨h1, h2, h3⟩ := hs
    refine ⟨⟨?_, by rw [h3, h2, hi.n]; simp, ?_⟩, ?_⟩
    · rw [h2]
      constructor
      · intro b hb
        obtain ⟨x, hx, rfl⟩ := List.mem_map.1 hb
        have := hi.wf.al x hx
        split
        · exact this
        · exact this
      · rw [List.pairwise_map]
        refine List.Pairwise.imp_of_mem ?_ hi.wf.ap
        intro a b ha hb hab
        have h2' := hok.2
        have ka : a.base ≠ base → Apart base size (a.base, a.size) :=
          h2' (a.base, a.size) (List.mem_map.2 ⟨a, ha, rfl⟩)
        have kb : b.base ≠ base → Apart base size (b.base, b.size) :=
          h2' (b.base, b.size) (List.mem_map.2 ⟨b, hb, rfl⟩)
        by_cases e1 : a.base = base
        · have e2 : b.base ≠ base := fun h => hab.1 (e1.trans h.symm)
          rw [if_pos e1, if_neg e2]
          refine ⟨hab.1, ?_⟩
          have := kb e2
          rw [← e1] at this
          exact this
        · rw [if_neg e1]
          by_cases e2 : b.base = base
          · rw [if_pos e2]
            refine ⟨hab.1, ?_⟩
            have := ka e1
            rw [← e2] at this
            unfold Apart at *
            simp only at *
            omega
          · rw [if_neg e2]; exact hab
    · rw [h2, ht]
      intro b hb
      obtain ⟨x, hx, rfl⟩ := List.mem_map.1 hb
      have := hi.last x hx
      split
      · exact this
      · exact this
    · rw [h2]
      show (s.blks.map _).map _ = (s.blks.map _).map _
      rw [List.map_map, List.map_map]
      apply List.map_congr_left
      intro b _
      show ((if b.base = base then { b with size := size } else b).base,
        (if b.base = base then { b with size := size } else b).size) = if b.base = base then (base, size) else (b.base, b.size)
      by_cases e1 : b.base = base
      · rw [if_pos e1, if_pos e1]; simp [e1]
      · rw [if_neg e1, if_neg e1]
  | sweep =>
    obtain ⟨h1, h2, h3⟩ := hs
    rw [sweepAll_blks _ _ _ hi.wf] at h2
    have hb : ∀ b : Blk, (if valIn s.marks b.base b.size then { b with last := s.stamp } else b).base = b.base ∧
        (if valIn s.marks b.base b.size then { b with last := s.stamp } else b).size = b.size := by
      intro b; split <;> exact ⟨rfl, rfl⟩
    refine ⟨⟨?_, by rw [h3, h2, hi.n]; simp, ?_⟩, ?_⟩
    · rw [h2]
      constructor
      · intro b hb'
        obtain ⟨x, hx, rfl⟩ := List.mem_map.1 hb'
        rw [(hb x).1]
        exact hi.wf.al x hx
      · rw [List.pairwise_map]
        refine List.Pairwise.imp ?_ hi.wf.ap
        intro a b hab
        rw [(hb a).1, (hb a).2, (hb b).1, (hb b).2]
        exact hab
    · rw [h2, ht]
      intro b hb'
      obtain ⟨x, hx, rfl⟩ := List.mem_map.1 hb'
      have := hi.last x hx
      split
      · exact Nat.le_refl _
      · exact this
    · rw [h2]
      show (s.blks.map _).map _ = s.blks.map _
      rw [List.map_map]
      apply List.map_congr_left
      intro b _
      show ((if valIn s.marks b.base b.size then { b with last := s.stamp } else b).base,
        (if valIn s.marks b.base b.size then { b with last := s.stamp } else b).size) = _
      rw [(hb b).1, (hb b).2]

end Verif.Stale
