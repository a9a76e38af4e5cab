import Verif.StaleThms

/-!
# C69: runs do not fail, and what a snapshot reports of fresh memory
-/

namespace Verif.Stale

/-- The event allocates a block. -/
def isMalloc : Ev → Bool
  | .malloc _ _ _ _ => true
  | _ => false

/-- Snapshots succeed in the states of a run. -/
theorem snapIf_total {s : St} (due : Bool) (h : Inv s) (hl : s.blks.length ≤ 2 ^ 31) (ht : s.stamp < 2 ^ 64) :
    ∃ s', snapIf due s = .ok s' := by
  unfold snapIf
  cases due with
  | false => exact ⟨s, rfl⟩
  | true =>
    obtain ⟨sn, h1, _⟩ := C69_records s.blks s.stamp hl ht h.last
    rw [← h.n] at h1
    rw [if_pos rfl, h1]
    exact ⟨_, rfl⟩

theorem snapIf_inv {s s' : St} {due : Bool} (h : Inv s) (hs : snapIf due s = .ok s') : Inv s' := by
  obtain ⟨_, h2, h3, h4⟩ := snapIf_ok hs
  exact ⟨by rw [h2]; exact h.wf, by rw [h3, h2]; exact h.n, by rw [h2, h4]; exact h.last⟩

theorem free_inv {s : St} {base : Nat} {peak due : Bool} (h : Inv s) (hok : Ok1 (liveOf s.blks) (.free base peak due)) :
    Inv { s with n := s.n - 1, blks := s.blks.filter (·.base != base) } := by
  have : step s (.free base false false) = .ok { s with n := s.n - 1, blks := s.blks.filter (·.base != base) } := rfl
  exact (inv_step h (e := .free base false false) hok this).1

theorem resize_inv {s : St} {base size : Nat} {peak due : Bool} (h : Inv s)
    (hok : Ok1 (liveOf s.blks) (.resize base size peak due)) :
    Inv { s with blks := s.blks.map fun b => if b.base = base then { b with size := size } else b } := by
  have : step s (.resize base size false false) =
    .ok { s with blks := s.blks.map fun b => if b.base = base then { b with size := size } else b } := rfl
  exact (inv_step h (e := .resize base size false false) hok this).1

theorem malloc_inv {s : St} {base size cs : Nat} {due : Bool} (h : Inv s)
    (hok : Ok1 (liveOf s.blks) (.malloc base size cs due)) :
    Inv { s with blks := ⟨base, size, cs, s.stamp⟩ :: s.blks, n := s.n + 1 } := by
  have : step s (.malloc base size cs false) =
    .ok { s with blks := ⟨base, size, cs, s.stamp⟩ :: s.blks, n := s.n + 1 } := rfl
  exact (inv_step h (e := .malloc base size cs false) hok this).1

theorem step_total {s : St} {e : Ev} (h : Inv s) (hok : Ok1 (liveOf s.blks) e)
    (hl : s.blks.length + (if isMalloc e then 1 else 0) ≤ 2 ^ 31) (ht : s.stamp < 2 ^ 64) :
    ∃ s', step s e = .ok s' ∧ s'.blks.length ≤ s.blks.length + (if isMalloc e then 1 else 0) := by
  have hl' : s.blks.length ≤ 2 ^ 31 := by omega
  cases e with
  | heapAdd start len => exact ⟨_, rfl, by simp [isMalloc]⟩
  | ref addr sz k => exact ⟨_, rfl, by simp [isMalloc]⟩
  | sweep =>
    refine ⟨_, rfl, ?_⟩
    show (sweepAll s.stamp s.marks s.blks).2.length ≤ _
    rw [sweepAll_blks _ _ _ h.wf]; simp
  | tick d => exact ⟨_, rfl, by simp [isMalloc]⟩
  | destroy bs => exact absurd hok (by simp [Ok1])
  | take =>
    obtain ⟨s', hs⟩ := snapIf_total true h hl' ht
    exact ⟨s', hs, by rw [(snapIf_ok hs).2.1]; omega⟩
  | malloc base size cs due =>
    have hl : s.blks.length + 1 ≤ 2 ^ 31 := hl
    obtain ⟨s', hs⟩ := snapIf_total due (malloc_inv h hok) (by simpa using hl) ht
    exact ⟨s', hs, by rw [(snapIf_ok hs).2.1]; simp [isMalloc]⟩
  | free base peak due =>
    obtain ⟨s1, h1⟩ := snapIf_total peak h hl' ht
    obtain ⟨_, a2, _, a4⟩ := snapIf_ok h1
    have hok1 : Ok1 (liveOf s1.blks) (.free base peak due) := by rw [a2]; exact hok
    have hlen : (s1.blks.filter (·.base != base)).length ≤ s.blks.length := by
      rw [a2]; exact List.length_filter_le _ _
    obtain ⟨s2, h2⟩ := snapIf_total due (free_inv (snapIf_inv h h1) hok1) (Nat.le_trans hlen hl') (by rw [← a4] at ht; exact ht)
    refine ⟨s2, ?_, ?_⟩
    · rw [step, h1]; exact h2
    · rw [(snapIf_ok h2).2.1]
      show (s1.blks.filter (·.base != base)).length ≤ _
      omega
  | resize base size peak due =>
    obtain ⟨s1, h1⟩ := snapIf_total peak (resize_inv h hok) (by simpa using hl') ht
    obtain ⟨_, a2, _, a4⟩ := snapIf_ok h1
    have a2' : s1.blks.length = s.blks.length := by rw [a2]; simp
    obtain ⟨s2, h2⟩ := snapIf_total due (snapIf_inv (resize_inv h hok) h1) (by omega) (by rw [a4]; exact ht)
    refine ⟨s2, ?_, ?_⟩
    · rw [step, h1]; exact h2
    · rw [(snapIf_ok h2).2.1]; omega

theorem stamp_le : ∀ (es : List Ev) (t : Nat), t ≤ es.foldl stampStep t := by
  intro es
  induction es with
  | nil => intro t; exact Nat.le_refl _
  | cons e es ih =>
    intro t
    refine Nat.le_trans ?_ (ih (stampStep t e))
    cases e <;> simp [stampStep]

theorem run_total : ∀ (es : List Ev) (s : St), Inv s → OkRun (liveOf s.blks) es →
    s.blks.length + es.countP isMalloc ≤ 2 ^ 31 → es.foldl stampStep s.stamp < 2 ^ 64 →
    ∃ s', run s es = .ok s' := by
  intro es
  induction es with
  | nil => intro s _ _ _ _; exact ⟨s, rfl⟩
  | cons e es ih =>
    intro s h hok hl ht
    rw [List.countP_cons] at hl
    have ht0 : s.stamp < 2 ^ 64 := Nat.lt_of_le_of_lt (stamp_le (e :: es) s.stamp) ht
    obtain ⟨s1, h1, h2⟩ := step_total h hok.1 (by omega) ht0
    obtain ⟨i1, l1⟩ := inv_step h hok.1 h1
    have t1 := (step_ok h1 (by rintro bs rfl; exact hok.1)).1
    obtain ⟨s', h3⟩ := ih s1 i1 (by rw [l1]; exact hok.2) (by omega) (by rw [t1]; exact ht)
    exact ⟨s', by rw [run, h1]; exact h3⟩

/-- **C69, no overflow**: as long as no heap is destroyed as a whole, no snapshot, wherever it is
taken, is written beyond its arrays or left with entries not written (up to 2^31 allocations). -/
theorem C69_no_overflow (evs : List Ev) (hok : OkRun [] evs) (hm : evs.countP isMalloc ≤ 2 ^ 31)
    (ht : evs.foldl stampStep 0 < 2 ^ 64) : ∃ s, run St.init evs = .ok s :=
  run_total evs St.init inv_init hok (by simpa [St.init] using hm) ht

/-! ## Fresh memory -/

/-- Memory that was added and not referenced since has no byte set. -/
def Clean (past : List Ev) (m : Nat → Bool) : Prop :=
  ∀ base size g, base % 8 = 0 → size % 8 = 0 → Untouched base size past → InR base size g → m g = false

theorem clean_step {s s' : St} {e : Ev} {past : List Ev} (hok : Ok1 (liveOf s.blks) e) (h : step s e = .ok s')
    (hc : Clean past s.marks) : Clean (e :: past) s'.marks := by
  have hd : ∀ bs, e ≠ .destroy bs := by rintro bs rfl; exact hok
  obtain ⟨_, hs⟩ := step_ok h hd
  intro base size g hb hz hu hg
  cases e with
  | destroy bs => exact absurd rfl (hd bs)
  | heapAdd start len =>
    rw [hs.1]
    by_cases hin : InR start len g
    · exact setRange_in hin
    · rw [setRange_out hin]
      rcases hu with hu | hu
      · exfalso
        apply hin
        have h1 : start % 8 = 0 := hok.1
        have h2 : len % 8 = 0 := hok.2.1
        unfold InR at *
        omega
      · exact hc base size g hb hz hu hg
  | malloc base' size' cs due => rw [hs.1]; exact hc base size g hb hz hu hg
  | free base' peak due => rw [hs.1]; exact hc base size g hb hz hu hg
  | resize base' size' peak due => rw [hs.1]; exact hc base size g hb hz hu hg
  | tick d => rw [hs.1]; exact hc base size g hb hz hu hg
  | take => rw [hs.1]; exact hc base size g hb hz hu hg
  | sweep =>
    rw [hs.1]
    exact (sweepAll_marks _ _ _ g).2 (Or.inr (hc base size g hb hz hu hg))
  | ref addr sz k =>
    rw [hs.1, Bool.eq_false_iff]
    intro hm
    have hsz : 0 < sz := hok.1
    unfold InR at hg
    rcases refMem_iff.1 hm with h1 | ⟨hk, h1⟩ | ⟨hk, h1, h2⟩
    · rw [hc base size g hb hz hu.2 hg] at h1; exact absurd h1 (by decide)
    · have := hu.1 (by rw [hk]; decide)
      rw [meets_iff.2 (by omega)] at this
      exact absurd this (by decide)
    · have := hu.1 (by rw [hk]; decide)
      rw [meets_iff.2 (by omega)] at this
      exact absurd this (by decide)

theorem forall2_map {α β} {R S : α → β → Prop} {f : α → α} {g : β → β} {a : List α} {b : List β}
    (h : List.Forall₂ R a b) (hi : ∀ x ∈ a, ∀ y, R x y → S (f x) (g y)) :
    List.Forall₂ S (a.map f) (b.map g) := by
  induction h with
  | nil => exact .nil
  | cons h1 _ ih => exact .cons (hi _ (by simp) _ h1) (ih fun x hx => hi x (by simp [hx]))

theorem forall2_filter {m : Nat → Bool} {base : Nat} {a : List Blk} {b : List SBlk}
    (h : List.Forall₂ (Rel m) a b) :
    List.Forall₂ (Rel m) (a.filter (·.base != base)) (b.filter (·.base != base)) := by
  induction h with
  | nil => exact .nil
  | @cons x y _ _ h1 _ ih =>
    have hb := h1.base
    by_cases hx : x.base = base
    · rw [List.filter_cons_of_neg (by simp [hx]), List.filter_cons_of_neg (by simp [hb, hx])]; exact ih
    · rw [List.filter_cons_of_pos (by simp [hx]), List.filter_cons_of_pos (by simp [hb, hx])]
      exact .cons h1 ih

/-- The table and the specification go on agreeing. -/
theorem heap_step {s s' : St} {e : Ev} {past : List Ev} {es : List Ev} {l : List SBlk} (hi : Inv s)
    (hok : Ok1 (liveOf s.blks) e) (h : step s e = .ok s') (hf : Fresh past (e :: es))
    (hc : Clean past s.marks) (hz : ∀ b ∈ s.blks, b.size % 8 = 0)
    (hr : List.Forall₂ (Rel s.marks) s.blks l) :
    List.Forall₂ (Rel s'.marks) s'.blks (heapStep s.stamp l e) ∧ (∀ b ∈ s'.blks, b.size % 8 = 0) ∧
      Fresh (e :: past) es := by
  have hd : ∀ bs, e ≠ .destroy bs := by rintro bs rfl; exact hok
  obtain ⟨ht, hs⟩ := step_ok h hd
  have hmap : ∀ (_ : ∀ b ∈ s.blks, Keeps b.base e), List.Forall₂ (Rel s'.marks) (s.blks.map (upd s e))
      (l.map fun b => blkStep b.size s.stamp b e) := by
    intro hk
    refine forall2_map hr fun x hx y hxy => ?_
    have h8 := hz x hx
    have := (rel_step hi hok h hx (hk x hx) hxy).2
    rw [show 8 * (x.size / 8) = x.size by omega, ← hxy.size] at this
    exact this
  have hsame : ∀ (_ : e ≠ .sweep), s.blks.map (upd s e) = s.blks := by
    intro hne
    have : upd s e = id := by
      funext b
      unfold upd
      rw [if_neg (fun h => hne h.1)]; rfl
    rw [this, List.map_id]
  cases e with
  | destroy bs => exact absurd rfl (hd bs)
  | resize base size peak due => exact absurd hf (by simp [Fresh])
  | heapAdd start len =>
    have := hmap fun _ _ => trivial
    rw [hsame (by simp), ← hs.2.1] at this
    exact ⟨this, by rw [hs.2.1]; exact hz, hf⟩
  | tick d =>
    have := hmap fun _ _ => trivial
    rw [hsame (by simp), ← hs.2.1] at this
    exact ⟨this, by rw [hs.2.1]; exact hz, hf⟩
  | take =>
    have := hmap fun _ _ => trivial
    rw [hsame (by simp), ← hs.2.1] at this
    exact ⟨this, by rw [hs.2.1]; exact hz, hf⟩
  | ref addr sz k =>
    have := hmap fun _ _ => trivial
    rw [hsame (by simp), ← hs.2.1] at this
    exact ⟨this, by rw [hs.2.1]; exact hz, hf⟩
  | sweep =>
    have := hmap fun _ _ => trivial
    have hb : s'.blks = s.blks.map (upd s .sweep) := by
      rw [hs.2.1, sweepAll_blks _ _ _ hi.wf]
      apply List.map_congr_left
      intro b _
      unfold upd
      by_cases hv : valIn s.marks b.base b.size = true
      · rw [if_pos hv]; exact (if_pos ⟨rfl, hv⟩).symm
      · rw [if_neg hv]; exact (if_neg fun h => hv h.2).symm
    rw [← hb] at this
    refine ⟨this, ?_, hf⟩
    rw [hb]
    intro b hb'
    obtain ⟨x, hx, rfl⟩ := List.mem_map.1 hb'
    rw [(upd_base s _ x).2]; exact hz x hx
  | free base peak due =>
    rw [hs.1, hs.2.1]
    exact ⟨forall2_filter hr, fun b hb => hz b (List.mem_filter.1 hb).1, hf⟩
  | malloc base size cs due =>
    rw [hs.1, hs.2.1]
    refine ⟨.cons ⟨rfl, rfl, rfl, rfl, ?_⟩ hr, ?_, hf.2⟩
    · symm
      rw [Bool.eq_false_iff]
      intro hv
      obtain ⟨g, hg, hm⟩ := valIn_iff.1 hv
      rw [hc base size g hok.1 hf.1.1 hf.1.2 hg] at hm
      exact absurd hm (by decide)
    · intro b hb
      rcases List.mem_cons.1 hb with rfl | hb
      · exact hf.1.1
      · exact hz b hb

theorem heap_run : ∀ (es past : List Ev) (s s' : St) (l : List SBlk), Inv s → OkRun (liveOf s.blks) es →
    run s es = .ok s' → Fresh past es → Clean past s.marks → (∀ b ∈ s.blks, b.size % 8 = 0) →
    List.Forall₂ (Rel s.marks) s.blks l → List.Forall₂ (Rel s'.marks) s'.blks (heapRun s.stamp l es) := by
  intro es
  induction es with
  | nil => intro past s s' l _ _ h _ _ _ hr; injection h with h; subst h; exact hr
  | cons e es ih =>
    intro past s s' l hi hok h hf hc hz hr
    obtain ⟨s1, h1, h2⟩ := run_cons h
    obtain ⟨i1, l1⟩ := inv_step hi hok.1 h1
    have t1 := (step_ok h1 (by rintro bs rfl; exact hok.1)).1
    obtain ⟨a, b, c⟩ := heap_step hi hok.1 h1 hf hc hz hr
    have := ih (e :: past) s1 s' _ i1 (by rw [l1]; exact hok.2) h2 c (clean_step hok.1 h1 hc) b a
    rw [t1] at this
    exact this

theorem run_snoc {s s1 s2 : St} {e : Ev} : ∀ {es : List Ev}, run s es = .ok s1 → step s1 e = .ok s2 →
    run s (es ++ [e]) = .ok s2 := by
  intro es
  induction es generalizing s with
  | nil =>
    intro h1 h2
    injection h1 with h1
    subst h1
    show run s [e] = _
    rw [run, h2]; rfl
  | cons x es ih =>
    intro h1 h2
    obtain ⟨s3, h3, h4⟩ := run_cons h1
    rw [List.cons_append, run, h3]
    exact ih h4 h2

theorem forall2_get {m : Nat → Bool} {a : List Blk} {b : List SBlk} (h : List.Forall₂ (Rel m) a b) (i : Nat) :
    (a[i]?).map vals = (b[i]?).map fun x => (x.cs % 2 ^ 32, x.size % 2 ^ 32, x.last) := by
  induction h generalizing i with
  | nil => simp
  | cons h1 _ ih =>
    cases i with
    | zero =>
      simp only [List.getElem?_cons_zero, Option.map_some, vals]
      rw [h1.cs, h1.size, h1.last]
    | succ i => simpa using ih i

/-- **C69, the report**: of an application that gets fresh memory in multiples of 8 bytes, a snapshot
tells of every live block, once and in order, its call stack, its size, and the time of the sweep after
its last use (of its allocation, if it was never used).  (Missing for the full claim: memory that is
used again, sizes that are no multiple of 8, and blocks resized in place; there it does not hold.) -/
theorem C69_report_partial (evs : List Ev) (hok : OkRun [] evs) (hf : Fresh [] evs)
    (hm : evs.countP isMalloc ≤ 2 ^ 31) (ht : evs.foldl stampStep 0 < 2 ^ 64) :
    ∃ s sn rest, run St.init (evs ++ [.take]) = .ok s ∧ s.snaps = sn :: rest ∧
      sn.num = (heapRun 0 [] evs).length ∧
      ∀ i, entry sn i = ((heapRun 0 [] evs)[i]?).map fun b => (b.cs % 2 ^ 32, b.size % 2 ^ 32, b.last) := by
  obtain ⟨s1, h1⟩ := C69_no_overflow evs hok hm ht
  obtain ⟨i1, l1, t1⟩ := inv_run evs St.init s1 inv_init hok h1
  have hr := heap_run evs [] St.init s1 [] inv_init hok h1 hf
    (fun _ _ _ _ _ hu _ => absurd hu (by simp [Untouched])) (by simp [St.init]) .nil
  have hlen : s1.blks.length ≤ 2 ^ 31 := by
    have : ∀ (es : List Ev) (l : Live), OkRun l es → (es.foldl liveStep l).length ≤ l.length + es.countP isMalloc := by
      intro es
      induction es with
      | nil => intro l _; simp
      | cons e es ih =>
        intro l h
        have := ih (liveStep l e) h.2
        rw [List.countP_cons]
        have h2 : (liveStep l e).length ≤ l.length + (if isMalloc e then 1 else 0) := by
          cases e with
          | malloc => simp [liveStep, isMalloc]
          | free base _ _ => exact List.length_filter_le _ _
          | destroy bs => exact List.length_filter_le _ _
          | resize => simp [liveStep, isMalloc]
          | _ => simp [liveStep, isMalloc]
        show (es.foldl liveStep (liveStep l e)).length ≤ _
        omega
    have h2 := this evs [] hok
    have h3 : (liveOf s1.blks).length = s1.blks.length := by simp [liveOf]
    have l1' : liveOf s1.blks = evs.foldl liveStep [] := l1
    rw [← h3, l1']
    simp only [List.length_nil] at h2
    omega
  obtain ⟨sn, h2, h3, h4, _⟩ := C69_records s1.blks s1.stamp hlen (by rw [t1]; exact ht) i1.last
  have hst : step s1 .take = .ok { s1 with snaps := sn :: s1.snaps } := by
    show snapIf true s1 = _
    unfold snapIf
    rw [if_pos rfl, i1.n, h2]
  refine ⟨_, sn, s1.snaps, run_snoc h1 hst, rfl, ?_, ?_⟩
  · rw [h3]; exact forall2_length hr
  · intro i
    rw [h4 i]
    exact forall2_get hr i

/-- Two blocks; one is used before the first sweep and after, the other never. -/
def demo : List Ev :=
  [.heapAdd 4096 4096, .tick 3, .malloc 4096 24 1 false, .malloc 4128 16 2 true, .ref 4100 8 .fast, .tick 2, .sweep,
    .tick 4, .sweep, .ref 4112 4 .slow, .tick 1, .sweep, .tick 7, .free 4128 true true]

example : OkRun [] demo ∧ Fresh [] demo ∧ demo.countP isMalloc = 2 ∧
    heapRun 0 [] demo = [⟨4096, 24, 1, 10, false⟩] ∧ heapRun 0 [] (demo.take 10) = [⟨4128, 16, 2, 3, false⟩, ⟨4096, 24, 1, 5, true⟩] := by
  refine ⟨?_, ?_, by decide, by decide, by decide⟩
  · simp [demo, OkRun, Ok1, liveStep, Apart, meets]
  · simp [demo, Fresh, Untouched]

/-! ## The time of the last use -/

theorem blkRun_append {len : Nat} : ∀ (es fs : List Ev) (t : Nat) (b : SBlk),
    blkRun len t b (es ++ fs) = blkRun len (es.foldl stampStep t) (blkRun len t b es) fs := by
  intro es
  induction es with
  | nil => intro fs t b; rfl
  | cons e es ih => intro fs t b; rw [List.cons_append, blkRun, ih]; rfl

theorem blkRun_used {len : Nat} : ∀ (es : List Ev) (t : Nat) (b : SBlk), b.used = true → .sweep ∉ es →
    (blkRun len t b es).used = true := by
  intro es
  induction es with
  | nil => intro t b h _; exact h
  | cons e es ih =>
    intro t b h hn
    rw [blkRun]
    apply ih _ _ _ (fun h => hn (by simp [h]))
    cases e with
    | sweep => exact absurd (by simp) hn
    | ref addr sz k =>
      show (if k ≠ .check ∧ meets addr sz b.base len = true then { b with used := true } else b).used = true
      split
      · rfl
      · exact h
    | _ => exact h

theorem blkRun_unused {len : Nat} : ∀ (es : List Ev) (t : Nat) (b : SBlk), b.used = false →
    (∀ a n k, .ref a n k ∈ es → k ≠ .check → meets a n b.base len = false) →
    (blkRun len t b es).last = b.last := by
  intro es
  induction es with
  | nil => intro t b _ _; rfl
  | cons e es ih =>
    intro t b h hn
    rw [blkRun]
    have : blkStep len t b e = b := by
      cases e with
      | sweep =>
        show (if b.used = true then _ else b) = b
        rw [if_neg (by rw [h]; decide)]
      | ref addr sz k =>
        show (if k ≠ .check ∧ meets addr sz b.base len = true then _ else b) = b
        rw [if_neg]
        rintro ⟨hk, hm⟩
        rw [hn addr sz k (by simp) hk] at hm
        exact absurd hm (by decide)
      | _ => rfl
    rw [this]
    exact ih _ b h fun a n k hm => hn a n k (by simp [hm])

/-- **C69, the last use**: when a block whose size is a multiple of 8 has been used, and the next sweep
has come, and it has not been used after, then the time kept for it is the time of that sweep, whatever
was there before the block and whatever else happens. -/
theorem C69_last_use {pre p1 p2 p3 : List Ev} {base size cs a n : Nat} {k : Kind} {due : Bool} {s' : St}
    (hok : OkRun [] (pre ++ .malloc base size cs due :: (p1 ++ .ref a n k :: (p2 ++ .sweep :: p3))))
    (hrun : run St.init (pre ++ .malloc base size cs due :: (p1 ++ .ref a n k :: (p2 ++ .sweep :: p3))) = .ok s')
    (hk : ∀ e ∈ p1 ++ .ref a n k :: (p2 ++ .sweep :: p3), Keeps base e) (h8 : size % 8 = 0)
    (huse : k ≠ .check ∧ meets a n base size = true) (hno : .sweep ∉ p2)
    (hafter : ∀ a n k, .ref a n k ∈ p3 → k ≠ .check → meets a n base size = false) :
    ∃ b ∈ s'.blks, b.base = base ∧
      b.last = (pre ++ .malloc base size cs due :: (p1 ++ .ref a n k :: p2)).foldl stampStep 0 := by
  obtain ⟨m, b, hb, hr⟩ := block_run hok hrun hk
  rw [show 8 * (size / 8) = size by omega] at hr
  refine ⟨b, hb, hr.base.symm.trans (blkRun_fields _ _ _).1, ?_⟩
  rw [← hr.last, blkRun_append, blkRun, blkRun_append, blkRun]
  have ht : (pre ++ .malloc base size cs due :: (p1 ++ .ref a n k :: p2)).foldl stampStep 0 =
      p2.foldl stampStep (stampStep (p1.foldl stampStep (pre.foldl stampStep 0)) (.ref a n k)) := by
    rw [List.foldl_append, List.foldl_cons, List.foldl_append, List.foldl_cons]; rfl
  rw [ht]
  generalize hx : blkRun size (pre.foldl stampStep 0) ⟨base, size, cs, pre.foldl stampStep 0, valIn m base size⟩ p1 = x
  have hxb : x.base = base := by rw [← hx]; exact (blkRun_fields _ _ _).1
  have hu : (blkStep size (p1.foldl stampStep (pre.foldl stampStep 0)) x (.ref a n k)).used = true := by
    show (if k ≠ .check ∧ meets a n x.base size = true then { x with used := true } else x).used = true
    rw [hxb, if_pos huse]
  generalize hy : blkStep size (p1.foldl stampStep (pre.foldl stampStep 0)) x (.ref a n k) = y at hu ⊢
  have hyb : y.base = base := by
    rw [← hy, ← hxb]
    show (if k ≠ .check ∧ meets a n x.base size = true then { x with used := true } else x).base = x.base
    split <;> rfl
  generalize stampStep (p1.foldl stampStep (pre.foldl stampStep 0)) (.ref a n k) = t
  have hz := blkRun_used (len := size) p2 t y hu hno
  have hzb : (blkRun size t y p2).base = base := (blkRun_fields _ _ _).1.trans hyb
  generalize blkRun size t y p2 = z at hz hzb ⊢
  have hs : blkStep size (p2.foldl stampStep t) z .sweep = { z with last := p2.foldl stampStep t, used := false } := by
    show (if z.used = true then _ else z) = _
    rw [if_pos hz]
  rw [hs, blkRun_unused p3 _ _ rfl]
  intro a n k hm hk'
  show meets a n z.base size = false
  rw [hzb]
  exact hafter a n k hm hk'

/-- The run above is such a run. -/
example : demo = [.heapAdd 4096 4096, .tick 3] ++ .malloc 4096 24 1 false ::
    ([.malloc 4128 16 2 true, .ref 4100 8 .fast, .tick 2, .sweep, .tick 4, .sweep] ++ .ref 4112 4 .slow ::
      ([.tick 1] ++ .sweep :: [.tick 7, .free 4128 true true])) ∧ meets 4112 4 4096 24 = true := ⟨rfl, by decide⟩

/-! ## Where the data is wrong -/

/-- The time kept for the block at an address. -/
def lastOf (r : Except Fail St) (base : Nat) : Option Nat :=
  match r with
  | .ok s => (s.blks.find? (·.base = base)).map (·.last)
  | .error _ => none

example : lastOf (run St.init demo) 4096 = some 10 := by decide +kernel

/-- A block of 4 bytes, used and swept. -/
example : lastOf (run St.init ([.heapAdd 4096 4096] ++ .malloc 4096 4 1 false :: [.ref 4096 4 .slow, .tick 5, .sweep])) 4096 =
    some 0 := by decide +kernel

/-- **Disagreement**: a block that was never used shows as used at the first sweep when the memory
had been used by a block freed before. -/
theorem C69_reused : ∃ evs, OkRun [] evs ∧ lastOf (run St.init evs) 4096 = some 9 ∧
    heapRun 0 [] evs = [⟨4096, 16, 2, 4, false⟩] := by
  refine ⟨[.heapAdd 4096 4096, .malloc 4096 16 1 false, .ref 4096 8 .fast, .free 4096 false false, .tick 4,
    .malloc 4096 16 2 false, .tick 5, .sweep], ?_, by decide +kernel, by decide +kernel⟩
  simp [OkRun, Ok1, liveStep, Apart, meets]

/-- **Disagreement**: the use of the last bytes of a block whose size is no multiple of 8 is not
seen. -/
theorem C69_tail : ∃ evs, OkRun [] evs ∧ lastOf (run St.init evs) 4096 = some 0 ∧
    heapRun 0 [] evs = [⟨4096, 12, 1, 5, false⟩] := by
  refine ⟨[.heapAdd 4096 4096, .malloc 4096 12 1 false, .ref 4104 4 .fast, .tick 5, .sweep], ?_,
    by decide +kernel, by decide +kernel⟩
  simp [OkRun, Ok1, liveStep, Apart, meets]

/-- **Disagreement**: the use of a block is forgotten when the block is shrunk in place before the
next sweep. -/
theorem C69_shrunk : ∃ evs, OkRun [] evs ∧ lastOf (run St.init evs) 4096 = some 0 ∧
    heapRun 0 [] evs = [⟨4096, 16, 1, 5, false⟩] := by
  refine ⟨[.heapAdd 4096 4096, .malloc 4096 24 1 false, .ref 4112 8 .fast, .resize 4096 16 false false, .tick 5, .sweep],
    ?_, by decide +kernel, by decide +kernel⟩
  simp [OkRun, Ok1, liveStep, Apart, meets]

/-- **Disagreement**: a snapshot due while a Windows heap with two blocks is destroyed is written
beyond its array, since the blocks are no longer counted but still in the table. -/
theorem C69_destroy : ∃ evs, OkRun [] evs ∧
    ∃ bs, (match run St.init (evs ++ [.destroy bs]) with | .ok _ => none | .error e => some e) = some Fail.overflow := by
  refine ⟨[.heapAdd 4096 4096, .malloc 4096 24 1 false, .malloc 4128 24 1 false], ?_,
    [(4096, true), (4128, false)], by decide +kernel⟩
  simp [OkRun, Ok1, liveStep, Apart]

end Verif.Stale
