import Verif.StaleStep

/-!
# C69: what the staleness data says
-/

namespace Verif.Stale

/-! ## One block -/

/-- The table and the specification agree on a block. -/
structure Rel (m : Nat → Bool) (b : Blk) (sb : SBlk) : Prop where
  base : sb.base = b.base
  size : sb.size = b.size
  cs : sb.cs = b.cs
  last : sb.last = b.last
  used : sb.used = valIn m b.base b.size

/-- What an event makes of a block that it neither frees nor resizes. -/
def upd (s : St) (e : Ev) (b : Blk) : Blk :=
  if e = .sweep ∧ valIn s.marks b.base b.size = true then { b with last := s.stamp } else b

/-- The event neither frees nor resizes the block at this address. -/
def Keeps (base : Nat) : Ev → Prop
  | .free a _ _ => a ≠ base
  | .resize a _ _ _ => a ≠ base
  | _ => True

theorem rel_step {s s' : St} {e : Ev} (hi : Inv s) (hok : Ok1 (liveOf s.blks) e) (h : step s e = .ok s')
    {b : Blk} (hb : b ∈ s.blks) (hk : Keeps b.base e) {sb : SBlk} (hr : Rel s.marks b sb) :
    upd s e b ∈ s'.blks ∧ Rel s'.marks (upd s e b) (blkStep (8 * (b.size / 8)) s.stamp sb e) := by
  have hd : ∀ bs, e ≠ .destroy bs := by rintro bs rfl; exact hok
  obtain ⟨ht, hs⟩ := step_ok h hd
  have hmem : (b.base, b.size) ∈ liveOf s.blks := List.mem_map.2 ⟨b, hb, rfl⟩
  have hal := hi.wf.al b hb
  have same : ∀ (_ : e ≠ .sweep), upd s e b = b := by
    intro hne
    unfold upd
    rw [if_neg (fun h => hne h.1)]
  cases e with
  | destroy bs => exact absurd rfl (hd bs)
  | heapAdd start len =>
    obtain ⟨h1, h2, _⟩ := hs
    rw [same (by simp), h1, h2]
    refine ⟨hb, ⟨hr.base, hr.size, hr.cs, hr.last, ?_⟩⟩
    show sb.used = _
    rw [hr.used]
    apply valIn_congr
    intro g hg
    rw [setRange_out]
    exact fun hg' => apart_gran hok.1 hal (hok.2.2 _ hmem) hg' hg
  | malloc base size cs due =>
    obtain ⟨h1, h2, _⟩ := hs
    rw [same (by simp), h1, h2]
    exact ⟨by simp [hb], hr⟩
  | free base peak due =>
    obtain ⟨h1, h2, _⟩ := hs
    rw [same (by simp), h1, h2]
    refine ⟨List.mem_filter.2 ⟨hb, ?_⟩, hr⟩
    have : base ≠ b.base := hk
    simpa using Ne.symm this
  | resize base size peak due =>
    obtain ⟨h1, h2, _⟩ := hs
    rw [same (by simp), h1, h2]
    refine ⟨List.mem_map.2 ⟨b, hb, ?_⟩, hr⟩
    exact if_neg (Ne.symm hk)
  | tick d =>
    obtain ⟨h1, h2, _⟩ := hs
    rw [same (by simp), h1, h2]
    exact ⟨hb, hr⟩
  | take =>
    obtain ⟨h1, h2, _⟩ := hs
    rw [same (by simp), h1, h2]
    exact ⟨hb, hr⟩
  | ref addr sz k =>
    obtain ⟨h1, h2, _⟩ := hs
    rw [same (by simp), h1, h2]
    refine ⟨hb, ?_⟩
    have hv := valIn_ref (m := s.marks) (size := b.size) hal hok.1 (fun hk' => hok.2 hk' _ hmem)
    show Rel _ b (if k ≠ .check ∧ meets addr sz sb.base (8 * (b.size / 8)) = true then { sb with used := true } else sb)
    by_cases hc : k ≠ .check ∧ meets addr sz sb.base (8 * (b.size / 8)) = true
    · rw [if_pos hc]
      refine ⟨hr.base, hr.size, hr.cs, hr.last, ?_⟩
      rw [hv]
      rw [hr.base] at hc
      simp [hc.1, hc.2]
    · rw [if_neg hc]
      refine ⟨hr.base, hr.size, hr.cs, hr.last, ?_⟩
      rw [hv, hr.used]
      rw [hr.base] at hc
      have : (decide (k ≠ .check) && meets addr sz b.base (8 * (b.size / 8))) = false := by
        rw [Bool.eq_false_iff]
        intro h
        rw [Bool.and_eq_true, decide_eq_true_eq] at h
        exact hc h
      rw [this, Bool.or_false]
  | sweep =>
    obtain ⟨h1, h2, _⟩ := hs
    rw [sweepAll_blks _ _ _ hi.wf] at h2
    have hu : upd s .sweep b = if valIn s.marks b.base b.size then { b with last := s.stamp } else b := by
      unfold upd
      by_cases hv : valIn s.marks b.base b.size = true
      · rw [if_pos ⟨rfl, hv⟩, if_pos hv]
      · rw [if_neg (fun h => hv h.2), if_neg hv]
    constructor
    · rw [h2, hu]
      exact List.mem_map.2 ⟨b, hb, rfl⟩
    · have hcl : valIn s'.marks b.base b.size = false := by
        rw [Bool.eq_false_iff]
        intro h
        obtain ⟨g, hg, hm⟩ := valIn_iff.1 h
        rw [h1, (sweepAll_marks _ _ _ g).2 (Or.inl ⟨b, hb, hg⟩)] at hm
        exact absurd hm (by decide)
      rw [hu]
      show Rel _ _ (if sb.used = true then { sb with last := s.stamp, used := false } else sb)
      rw [hr.used]
      by_cases hv : valIn s.marks b.base b.size = true
      · rw [if_pos hv, if_pos hv]
        exact ⟨hr.base, hr.size, hr.cs, rfl, hcl.symm⟩
      · rw [if_neg hv, if_neg hv]
        refine ⟨hr.base, hr.size, hr.cs, hr.last, ?_⟩
        rw [hr.used, hcl]
        exact Bool.eq_false_iff.2 hv

theorem run_cons {s s' : St} {e : Ev} {es : List Ev} (h : run s (e :: es) = .ok s') :
    ∃ s1, step s e = .ok s1 ∧ run s1 es = .ok s' := by
  rw [run] at h
  cases hs : step s e with
  | error x => rw [hs] at h; exact absurd h (by simp)
  | ok s1 => rw [hs] at h; exact ⟨s1, rfl, h⟩

theorem upd_base (s : St) (e : Ev) (b : Blk) : (upd s e b).base = b.base ∧ (upd s e b).size = b.size := by
  unfold upd; split <;> exact ⟨rfl, rfl⟩

theorem rel_run : ∀ (es : List Ev) (s s' : St), Inv s → OkRun (liveOf s.blks) es → run s es = .ok s' →
    ∀ (b : Blk) (sb : SBlk), b ∈ s.blks → (∀ e ∈ es, Keeps b.base e) → Rel s.marks b sb →
    ∃ b' ∈ s'.blks, Rel s'.marks b' (blkRun (8 * (b.size / 8)) s.stamp sb es) := by
  intro es
  induction es with
  | nil =>
    intro s s' _ _ h b sb hb _ hr
    injection h with h
    subst h
    exact ⟨b, hb, hr⟩
  | cons e es ih =>
    intro s s' hi hok h b sb hb hk hr
    obtain ⟨s1, h1, h2⟩ := run_cons h
    obtain ⟨hi1, hl1⟩ := inv_step hi hok.1 h1
    obtain ⟨hm, hr1⟩ := rel_step hi hok.1 h1 hb (hk e (by simp)) hr
    have hst := (step_ok h1 (by rintro bs rfl; exact hok.1)).1
    obtain ⟨b', hb', hr'⟩ := ih s1 s' hi1 (by rw [hl1]; exact hok.2) h2 (upd s e b) _ hm
      (fun x hx => by rw [(upd_base s e b).1]; exact hk x (by simp [hx])) hr1
    rw [(upd_base s e b).2, hst] at hr'
    exact ⟨b', hb', hr'⟩

theorem run_append : ∀ (es fs : List Ev) (s s' : St), run s (es ++ fs) = .ok s' →
    ∃ s1, run s es = .ok s1 ∧ run s1 fs = .ok s' := by
  intro es
  induction es with
  | nil => intro fs s s' h; exact ⟨s, rfl, h⟩
  | cons e es ih =>
    intro fs s s' h
    obtain ⟨s1, h1, h2⟩ := run_cons h
    obtain ⟨s2, h3, h4⟩ := ih fs s1 s' h2
    exact ⟨s2, by rw [run, h1]; exact h3, h4⟩

theorem okRun_append : ∀ (es fs : List Ev) (l : Live), OkRun l (es ++ fs) →
    OkRun l es ∧ OkRun (es.foldl liveStep l) fs := by
  intro es
  induction es with
  | nil => intro fs l h; exact ⟨trivial, h⟩
  | cons e es ih =>
    intro fs l h
    obtain ⟨h1, h2⟩ := ih fs _ h.2
    exact ⟨⟨h.1, h1⟩, h2⟩

theorem inv_run : ∀ (es : List Ev) (s s' : St), Inv s → OkRun (liveOf s.blks) es → run s es = .ok s' →
    Inv s' ∧ liveOf s'.blks = es.foldl liveStep (liveOf s.blks) ∧ s'.stamp = es.foldl stampStep s.stamp := by
  intro es
  induction es with
  | nil => intro s s' hi _ h; injection h with h; subst h; exact ⟨hi, rfl, rfl⟩
  | cons e es ih =>
    intro s s' hi hok h
    obtain ⟨s1, h1, h2⟩ := run_cons h
    obtain ⟨hi1, hl1⟩ := inv_step hi hok.1 h1
    have hst := (step_ok h1 (by rintro bs rfl; exact hok.1)).1
    obtain ⟨a, b, c⟩ := ih s1 s' hi1 (by rw [hl1]; exact hok.2) h2
    rw [hl1] at b
    rw [hst] at c
    exact ⟨a, b, c⟩

theorem blkRun_mono {len : Nat} : ∀ (es : List Ev) (t : Nat) (a b : SBlk), a.base = b.base →
    a.last ≤ b.last → b.last ≤ t → (a.used = true → b.used = true) → (a.used = false → b.used = true ∨ a.last ≤ b.last) →
    (blkRun len t a es).last ≤ (blkRun len t b es).last := by
  intro es
  induction es with
  | nil => intro t a b _ h _ _ _; exact h
  | cons e es ih =>
    intro t a b hb hl ht hu hu'
    rw [blkRun, blkRun]
    cases e with
    | ref addr sz k =>
      show (blkRun len t (if k ≠ .check ∧ meets addr sz a.base len = true then { a with used := true } else a) es).last ≤
        (blkRun len t (if k ≠ .check ∧ meets addr sz b.base len = true then { b with used := true } else b) es).last
      rw [show meets addr sz a.base len = meets addr sz b.base len by rw [hb]]
      by_cases hc : k ≠ .check ∧ meets addr sz b.base len = true
      · rw [if_pos hc, if_pos hc]
        exact ih t _ _ hb hl ht (fun _ => rfl) (fun _ => Or.inl rfl)
      · rw [if_neg hc, if_neg hc]
        exact ih t a b hb hl ht hu hu'
    | sweep =>
      show (blkRun len t (if a.used = true then { a with last := t, used := false } else a) es).last ≤
        (blkRun len t (if b.used = true then { b with last := t, used := false } else b) es).last
      by_cases h1 : a.used = true
      · rw [if_pos h1, if_pos (hu h1)]
        exact ih t _ _ hb (Nat.le_refl _) (Nat.le_refl _) (fun h => absurd h (by simp)) (fun _ => Or.inr (Nat.le_refl _))
      · rw [if_neg h1]
        by_cases h2 : b.used = true
        · rw [if_pos h2]
          exact ih t _ _ hb (by show a.last ≤ t; omega) (Nat.le_refl _) (fun h => absurd h h1)
            (fun _ => Or.inr (by show a.last ≤ t; omega))
        · rw [if_neg h2]
          exact ih t a b hb hl ht hu hu'
    | tick d => exact ih (t + d) a b hb hl (by omega) hu hu'
    | heapAdd _ _ => exact ih t a b hb hl ht hu hu'
    | malloc _ _ _ _ => exact ih t a b hb hl ht hu hu'
    | free _ _ _ => exact ih t a b hb hl ht hu hu'
    | resize _ _ _ _ => exact ih t a b hb hl ht hu hu'
    | take => exact ih t a b hb hl ht hu hu'
    | destroy _ => exact ih t a b hb hl ht hu hu'

/-- The time of the first sweep. -/
def firstSweep (t : Nat) : List Ev → Option Nat
  | [] => none
  | .sweep :: _ => some t
  | e :: es => firstSweep (stampStep t e) es

/-- Whether a new block counts as used before its first use shows, if at all, as the time of the first
sweep. -/
theorem blkRun_dirty {len : Nat} : ∀ (es : List Ev) (t : Nat) (b : SBlk),
    (blkRun len t { b with used := true } es).last = (blkRun len t { b with used := false } es).last ∨
    some (blkRun len t { b with used := true } es).last = firstSweep t es := by
  intro es
  induction es with
  | nil => intro t b; exact Or.inl rfl
  | cons e es ih =>
    intro t b
    rw [blkRun, blkRun]
    cases e with
    | ref addr sz k =>
      show (blkRun len t (if k ≠ .check ∧ meets addr sz b.base len = true then { b with used := true } else { b with used := true }) es).last =
        (blkRun len t (if k ≠ .check ∧ meets addr sz b.base len = true then { b with used := true } else { b with used := false }) es).last ∨
        some (blkRun len t (if k ≠ .check ∧ meets addr sz b.base len = true then { b with used := true } else { b with used := true }) es).last = firstSweep t es
      rw [ite_self]
      by_cases hc : k ≠ .check ∧ meets addr sz b.base len = true
      · rw [if_pos hc]; exact Or.inl rfl
      · rw [if_neg hc]; exact ih t b
    | sweep =>
      show (blkRun len t { b with last := t, used := false } es).last = (blkRun len t { b with used := false } es).last ∨
        some (blkRun len t { b with last := t, used := false } es).last = some t
      exact sweepCase es t t b
    | tick d => exact ih (t + d) b
    | heapAdd _ _ => exact ih t b
    | malloc _ _ _ _ => exact ih t b
    | free _ _ _ => exact ih t b
    | resize _ _ _ _ => exact ih t b
    | take => exact ih t b
    | destroy _ => exact ih t b
where
  /-- Two blocks that differ in the time only: they keep their times or get the same one. -/
  sweepCase {len : Nat} : ∀ (es : List Ev) (t u : Nat) (b : SBlk),
      (blkRun len t { b with last := u, used := false } es).last = (blkRun len t { b with used := false } es).last ∨
      some (blkRun len t { b with last := u, used := false } es).last = some u := by
    intro es t u b
    have key : ∀ (es : List Ev) (t : Nat) (x y : SBlk), x.base = y.base → x.used = y.used →
        (blkRun len t x es).last = (blkRun len t y es).last ∨
        ((blkRun len t x es).last = x.last ∧ (blkRun len t y es).last = y.last) := by
      intro es
      induction es with
      | nil => intro t x y _ _; exact Or.inr ⟨rfl, rfl⟩
      | cons e es ih =>
        intro t x y hb hu
        rw [blkRun, blkRun]
        cases e with
        | ref addr sz k =>
          show (blkRun len t (if k ≠ .check ∧ meets addr sz x.base len = true then { x with used := true } else x) es).last =
            (blkRun len t (if k ≠ .check ∧ meets addr sz y.base len = true then { y with used := true } else y) es).last ∨
            ((blkRun len t (if k ≠ .check ∧ meets addr sz x.base len = true then { x with used := true } else x) es).last = x.last ∧
            (blkRun len t (if k ≠ .check ∧ meets addr sz y.base len = true then { y with used := true } else y) es).last = y.last)
          rw [show meets addr sz x.base len = meets addr sz y.base len by rw [hb]]
          by_cases hc : k ≠ .check ∧ meets addr sz y.base len = true
          · rw [if_pos hc, if_pos hc]
            exact ih t { x with used := true } { y with used := true } hb rfl
          · rw [if_neg hc, if_neg hc]; exact ih t x y hb hu
        | sweep =>
          show (blkRun len t (if x.used = true then { x with last := t, used := false } else x) es).last =
            (blkRun len t (if y.used = true then { y with last := t, used := false } else y) es).last ∨
            ((blkRun len t (if x.used = true then { x with last := t, used := false } else x) es).last = x.last ∧
            (blkRun len t (if y.used = true then { y with last := t, used := false } else y) es).last = y.last)
          by_cases h1 : y.used = true
          · rw [if_pos h1, if_pos (hu.trans h1)]
            left
            rcases ih t { x with last := t, used := false } { y with last := t, used := false } hb rfl with h | ⟨h, h'⟩
            · exact h
            · rw [h, h']
          · rw [if_neg h1, if_neg (by rw [hu]; exact h1)]; exact ih t x y hb hu
        | tick d => exact ih (t + d) x y hb hu
        | heapAdd _ _ => exact ih t x y hb hu
        | malloc _ _ _ _ => exact ih t x y hb hu
        | free _ _ _ => exact ih t x y hb hu
        | resize _ _ _ _ => exact ih t x y hb hu
        | take => exact ih t x y hb hu
        | destroy _ => exact ih t x y hb hu
    rcases key es t { b with last := u, used := false } { b with used := false } rfl rfl with h | ⟨h, _⟩
    · exact Or.inl h
    · exact Or.inr (congrArg some h)

/-- A block through the run after its allocation: only the whole granules of the block count, and
whether their bytes were set at the start is up to the past. -/
theorem block_run {pre post : List Ev} {base size cs : Nat} {due : Bool} {s' : St}
    (hok : OkRun [] (pre ++ .malloc base size cs due :: post))
    (hrun : run St.init (pre ++ .malloc base size cs due :: post) = .ok s')
    (hk : ∀ e ∈ post, Keeps base e) :
    ∃ m, ∃ b ∈ s'.blks, Rel s'.marks b (blkRun (8 * (size / 8)) (pre.foldl stampStep 0)
      ⟨base, size, cs, pre.foldl stampStep 0, valIn m base size⟩ post) := by
  obtain ⟨s1, h1, h2⟩ := run_append _ _ _ _ hrun
  obtain ⟨o1, o2⟩ := okRun_append _ _ _ hok
  obtain ⟨i1, l1, t1⟩ := inv_run pre St.init s1 inv_init o1 h1
  obtain ⟨s2, h3, h4⟩ := run_cons h2
  have o3 : OkRun (liveOf s1.blks) (.malloc base size cs due :: post) := by rw [l1]; exact o2
  obtain ⟨i2, l2⟩ := inv_step i1 o3.1 h3
  obtain ⟨t2, e1, e2, _⟩ := step_ok h3 (by simp)
  have t1' : s1.stamp = pre.foldl stampStep 0 := t1
  have t2' : s2.stamp = pre.foldl stampStep 0 := by rw [t2]; exact t1'
  obtain ⟨b, hb, hr⟩ := rel_run post s2 s' i2 (by rw [l2]; exact o3.2) h4 ⟨base, size, cs, s1.stamp⟩
    ⟨base, size, cs, s1.stamp, valIn s2.marks base size⟩ (by rw [e2]; simp) hk ⟨rfl, rfl, rfl, rfl, rfl⟩
  rw [t1', t2'] at hr
  exact ⟨s2.marks, b, hb, hr⟩

theorem blkRun_fields {len : Nat} : ∀ (es : List Ev) (t : Nat) (b : SBlk),
    (blkRun len t b es).base = b.base ∧ (blkRun len t b es).size = b.size ∧ (blkRun len t b es).cs = b.cs := by
  intro es
  induction es with
  | nil => intro t b; exact ⟨rfl, rfl, rfl⟩
  | cons e es ih =>
    intro t b
    rw [blkRun]
    obtain ⟨h1, h2, h3⟩ := ih (stampStep t e) (blkStep len t b e)
    have : (blkStep len t b e).base = b.base ∧ (blkStep len t b e).size = b.size ∧ (blkStep len t b e).cs = b.cs := by
      cases e with
      | ref addr sz k =>
        rw [blkStep]
        by_cases hc : k ≠ .check ∧ meets addr sz b.base len = true
        · rw [if_pos hc]; exact ⟨rfl, rfl, rfl⟩
        · rw [if_neg hc]; exact ⟨rfl, rfl, rfl⟩
      | sweep =>
        rw [blkStep]
        by_cases hc : b.used = true
        · rw [if_pos hc]; exact ⟨rfl, rfl, rfl⟩
        · rw [if_neg hc]; exact ⟨rfl, rfl, rfl⟩
      | _ => exact ⟨rfl, rfl, rfl⟩
    exact ⟨h1.trans this.1, h2.trans this.2.1, h3.trans this.2.2⟩

/-- **C69, one block**: whatever else happens, the time kept for a block, of which the first
`8 * (size / 8)` bytes count, is the time of the sweep after its last use (or of its allocation, if it
was never used), or else the time of the first sweep after its allocation; and it is never an earlier
time than the former.  (Missing for the full claim: the last `size % 8` bytes, and a block that has
not been used but shows as used at the first sweep.) -/
theorem C69_block_partial {pre post : List Ev} {base size cs : Nat} {due : Bool} {s' : St}
    (hok : OkRun [] (pre ++ .malloc base size cs due :: post))
    (hrun : run St.init (pre ++ .malloc base size cs due :: post) = .ok s')
    (hk : ∀ e ∈ post, Keeps base e) :
    ∃ b ∈ s'.blks, b.base = base ∧ b.size = size ∧ b.cs = cs ∧
      let t := pre.foldl stampStep 0
      let want := (blkRun (8 * (size / 8)) t ⟨base, size, cs, t, false⟩ post).last
      (b.last = want ∨ some b.last = firstSweep t post) ∧ want ≤ b.last := by
  obtain ⟨m, b, hb, hr⟩ := block_run hok hrun hk
  obtain ⟨f1, f2, f3⟩ := blkRun_fields (len := 8 * (size / 8)) post (pre.foldl stampStep 0)
    ⟨base, size, cs, pre.foldl stampStep 0, valIn m base size⟩
  refine ⟨b, hb, hr.base.symm.trans f1, hr.size.symm.trans f2, hr.cs.symm.trans f3, ?_⟩
  dsimp only
  rw [← hr.last]
  generalize pre.foldl stampStep 0 = t
  cases valIn m base size with
  | false => exact ⟨Or.inl rfl, Nat.le_refl _⟩
  | true =>
    refine ⟨blkRun_dirty post t ⟨base, size, cs, t, true⟩, ?_⟩
    exact blkRun_mono post t _ _ rfl (Nat.le_refl _) (Nat.le_refl _) (fun h => absurd h (by simp)) (fun _ => Or.inl rfl)

theorem blkRun_zero : ∀ (es : List Ev) (t : Nat) (b : SBlk), b.used = false → (blkRun 0 t b es).last = b.last := by
  intro es
  induction es with
  | nil => intro t b _; rfl
  | cons e es ih =>
    intro t b hb
    rw [blkRun]
    have : blkStep 0 t b e = b := by
      cases e with
      | ref addr sz k =>
        show (if k ≠ .check ∧ meets addr sz b.base 0 = true then _ else b) = b
        rw [if_neg]
        rintro ⟨_, h⟩
        have := meets_iff.1 h
        omega
      | sweep =>
        show (if b.used = true then _ else b) = b
        rw [if_neg (by rw [hb]; decide)]
      | _ => rfl
    rw [this]
    exact ih _ b hb

/-- **Disagreement**: a block of fewer than 8 bytes keeps the time of its allocation for ever, however
often it is used. -/
theorem C69_small_blocks {pre post : List Ev} {base size cs : Nat} {due : Bool} {s' : St} (hsz : size < 8)
    (hok : OkRun [] (pre ++ .malloc base size cs due :: post))
    (hrun : run St.init (pre ++ .malloc base size cs due :: post) = .ok s')
    (hk : ∀ e ∈ post, Keeps base e) :
    ∃ b ∈ s'.blks, b.base = base ∧ b.last = pre.foldl stampStep 0 := by
  obtain ⟨m, b, hb, hr⟩ := block_run hok hrun hk
  obtain ⟨f1, _, _⟩ := blkRun_fields (len := 8 * (size / 8)) post (pre.foldl stampStep 0)
    ⟨base, size, cs, pre.foldl stampStep 0, valIn m base size⟩
  refine ⟨b, hb, hr.base.symm.trans f1, ?_⟩
  have h0 : size / 8 = 0 := by omega
  have hv : valIn m base size = false := by unfold valIn; rw [h0]; rfl
  rw [← hr.last, hv, h0]
  exact blkRun_zero post _ _ rfl

end Verif.Stale
