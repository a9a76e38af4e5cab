import Verif.FuzzDriverPass

/-!
# The fuzzing driver without a corpus: the properties (C71)
-/

namespace Verif.FuzzDriver

/-! ## Other threads -/

/-- An event of a thread that is not the fuzzing thread. -/
theorem other_step {M : Type} (L : Lib M) (c : Cfg) (s : St M) (t : Nat) (e : Ev)
    (how : s.owner = some t) (hu : e.thread ≠ t) :
    ∃ th' busy' o, step L c s e = .ok ({ s with th := th', busy := busy' }, o) ∧
      th' t = s.th t ∧ busy' t = s.busy t ∧
      ∀ p ∈ o, p.1 ≠ t ∧ ∃ b sh, e = .call p.1 b sh ∧ p.2 = ⟨false, b, sh⟩ := by
  cases e with
  | call u b sh =>
    simp only [Ev.thread] at hu
    by_cases hb : s.busy u = true
    · exact ⟨s.th, s.busy, [], by simp [step, hb], rfl, rfl, by simp⟩
    · refine ⟨s.th, fun v => if v = u then true else s.busy v, [(u, ⟨false, b, sh⟩)], ?_, rfl,
        by simp [Ne.symm hu], by simp [hu]⟩
      simp only [step, hb]
      have hq : pre L c s u b sh = .ok (s, ⟨false, b, sh⟩) := by
        have h1 : ({ s with owner := some (s.owner.getD u) } : St M) = s := by
          rw [how, Option.getD_some, ← how]
        unfold pre
        simp only [h1]
        exact if_pos (Or.inr (Or.inr (by rw [how]; simpa using Ne.symm hu)))
      simp only [hq]
      rfl
  | done u e =>
    simp only [Ev.thread] at hu
    by_cases hb : s.busy u = true
    · refine ⟨fun v => if v = u then ran (s.th u) e else s.th v,
        fun v => if v = u then false else s.busy v, [], ?_, by simp [Ne.symm hu],
        by simp [Ne.symm hu], by simp⟩
      have hq : post L c (s.set u (ran (s.th u) e)) u e.bbs =
          .ok (s.set u (ran (s.th u) e), false) :=
        if_pos (Or.inr (by show s.owner ≠ some u; rw [how]; simpa using Ne.symm hu))
      simp only [step, hb, if_true, hq]
      rfl
    · exact ⟨s.th, s.busy, [], by simp [step, hb], rfl, rfl, by simp⟩

/-- Only the first thread that reaches the target is fuzzed: whatever the other threads do,
their calls run on their own bytes and shadow, and change nothing of the pass. -/
theorem C71_others {M : Type} (L : Lib M) (c : Cfg) (s : St M) (t : Nat) (evs : List Ev)
    (how : s.owner = some t) (hu : ∀ e ∈ evs, e.thread ≠ t) :
    ∃ s' os, run L c s evs = .ok (s', os) ∧ s'.th t = s.th t ∧ s'.busy t = s.busy t ∧
      s'.owner = some t ∧ s'.enabled = s.enabled ∧ s'.vec = s.vec ∧ s'.dumps = s.dumps ∧
      ∀ p ∈ os, ∃ b sh, Ev.call p.1 b sh ∈ evs ∧ p.2 = ⟨false, b, sh⟩ := by
  induction evs generalizing s with
  | nil => exact ⟨s, [], rfl, rfl, rfl, how, rfl, rfl, rfl, by simp⟩
  | cons e es ih =>
    obtain ⟨th', busy', o, h1, h2, h3, h4⟩ := other_step L c s t e how (hu e (by simp))
    obtain ⟨s2, o2, k1, k2, k3, k4, k5, k6, k7, k8⟩ :=
      ih { s with th := th', busy := busy' } how (fun e' he => hu e' (by simp [he]))
    refine ⟨s2, o ++ o2, by simp [run, h1, k1], k2.trans h2, k3.trans h3, k4, k5, k6, k7, ?_⟩
    intro p hp
    rcases List.mem_append.1 hp with hp | hp
    · obtain ⟨_, b, sh, e1, e2⟩ := h4 p hp
      exact ⟨b, sh, by rw [e1]; simp, e2⟩
    · obtain ⟨b, sh, e1, e2⟩ := k8 p hp
      exact ⟨b, sh, by simp [e1], e2⟩

/-! ## A pass -/

/-- The shadow iteration `k` starts with. -/
def shAt (c : Cfg) (sh : Sh) (n : Nat) (effs : Nat → Eff) (k : Nat) : Sh :=
  if c.uninit then shSpec c sh n
  else match k with
    | 0 => sh
    | k + 1 => (effs k).sh

theorem machAt_size {M : Type} {L : Lib M} {size : M → Nat} (hL : L.Ok size) (c : Cfg) (m0 : M)
    (n0 : Nat) (effs : Nat → Eff) (k : Nat) : size (machAt L c m0 n0 effs k).1 = size m0 := by
  induction k with
  | zero => rfl
  | succ k ih =>
    rw [machAt, told_size hL]
    simp only
    split
    · rw [stepM_size hL, ih]
    · exact ih

theorem foundAt_length (b0 : List Byte) (effs : Nat → Eff) (k : Nat) :
    (foundAt b0 effs k).length = b0.length := by
  cases k with
  | zero => rfl
  | succ k => exact after_length _ _

theorem bytesAt_length {M : Type} {L : Lib M} {size : M → Nat} (hL : L.Ok size) (c : Cfg) (m0 : M)
    (n0 : Nat) (b0 : List Byte) (effs : Nat → Eff) (k : Nat) (ho : c.offset < b0.length)
    (hs : size m0 = windowLen c b0.length) :
    (bytesAt L c m0 n0 b0 effs k).length = b0.length := by
  unfold bytesAt
  split
  · rw [putVal_length hL c _ _ (by rw [foundAt_length]; exact ho)
      (by rw [machAt_size hL, foundAt_length]; exact hs), foundAt_length]
  · exact foundAt_length _ _ _

theorem after_congr (f : Nat → Byte) (a b : List Byte) (h : a.length = b.length) :
    after f a = after f b := by
  simp [after, h]

/-- The thread is in iteration `k` of a pass that started with mutator `m0` on `b0`. -/
structure At {M : Type} (L : Lib M) (c : Cfg) (sh : Sh) (m0 : M) (n0 : Nat) (b0 : List Byte)
    (effs : Nat → Eff) (s : St M) (t k : Nat) : Prop where
  busy : s.busy t = true
  enabled : s.enabled = true
  owner : s.owner = some t
  mid : IsMid c sh (s.th t) k
    (if mutates c k then stepM L c (machAt L c m0 n0 effs k).1 else (machAt L c m0 n0 effs k).1)
    (bytesAt L c m0 n0 b0 effs k) (machAt L c m0 n0 effs k).2

theorem mid_run {M : Type} {L : Lib M} {size : M → Nat} (hL : L.Ok size) (c : Cfg)
    (hc : c.corpus = none) (t : Nat) (sh : Sh) (m0 : M) (n0 : Nat) (b0 : List Byte)
    (effs : Nat → Eff) (ho : c.offset < b0.length) (hs : size m0 = windowLen c b0.length)
    (evs : List Ev) (s : St M) (k r : Nat) (h : At L c sh m0 n0 b0 effs s t k)
    (hev : evs.filter (fun e => e.thread == t) =
      (List.range r).map (fun i => Ev.done t (effs (k + i))))
    (hg : ∀ j, k ≤ j → j < k + r → goes L c j (machAt L c m0 n0 effs (j + 1)).1 = true) :
    ∃ s' os, run L c s evs = .ok (s', os) ∧ At L c sh m0 n0 b0 effs s' t (k + r) ∧
      os.filter (fun p => p.1 == t) = (List.range r).map (fun i =>
        (t, ⟨true, bytesAt L c m0 n0 b0 effs (k + 1 + i), shAt c sh b0.length effs (k + 1 + i)⟩)) ∧
      ∀ p ∈ os, p.1 ≠ t → ∃ b sh, Ev.call p.1 b sh ∈ evs ∧ p.2 = ⟨false, b, sh⟩ := by
  induction evs generalizing s k r with
  | nil =>
    have hr : r = 0 := by
      simp only [List.filter_nil] at hev
      have := congrArg List.length hev
      simpa using this.symm
    subst hr
    exact ⟨s, [], rfl, h, by simp, by simp⟩
  | cons e es ih =>
    by_cases he : e.thread = t
    · rw [List.filter_cons_of_pos (by simp [he])] at hev
      cases r with
      | zero => simp at hev
      | succ r =>
        rw [List.range_succ_eq_map, List.map_cons, List.map_map] at hev
        injection hev with hev1 hev2
        simp only [Nat.add_zero] at hev1
        subst hev1
        have hmuk : mutates c (k + 1) = true := by simp [mutates]
        have hsz : size (if mutates c k then stepM L c (machAt L c m0 n0 effs k).1
            else (machAt L c m0 n0 effs k).1) = windowLen c (bytesAt L c m0 n0 b0 effs k).length := by
          rw [bytesAt_length hL c m0 n0 b0 effs k ho hs, ← hs]
          split
          · rw [stepM_size hL, machAt_size hL]
          · rw [machAt_size hL]
        have hgo := hg k (Nat.le_refl _) (by omega)
        have hlen := bytesAt_length hL c m0 n0 b0 effs k ho hs
        have htold : told L c k ((if mutates c k then stepM L c (machAt L c m0 n0 effs k).1
            else (machAt L c m0 n0 effs k).1), (machAt L c m0 n0 effs k).2) (effs k).bbs =
            machAt L c m0 n0 effs (k + 1) := rfl
        have haf : after (effs k).bytes (bytesAt L c m0 n0 b0 effs k) = foundAt b0 effs (k + 1) :=
          after_congr _ _ _ hlen
        obtain ⟨y, hy, hym⟩ := done_again hL c hc s t (effs k) sh k _ _ _ h.busy h.enabled h.owner
          h.mid (by rw [hlen]; exact ho) hsz (by rw [htold]; exact hgo)
        rw [htold, haf, hlen] at hy
        rw [htold, haf] at hym
        have hbk : bytesAt L c m0 n0 b0 effs (k + 1) =
            putVal L c (machAt L c m0 n0 effs (k + 1)).1 (foundAt b0 effs (k + 1)) := by
          simp [bytesAt, hmuk]
        have hAt : At L c sh m0 n0 b0 effs (s.set t y) t (k + 1) :=
          { busy := h.busy
            enabled := h.enabled
            owner := h.owner
            mid := by rw [set_th, hmuk, hbk]; exact hym }
        obtain ⟨s2, o2, k1, k2, k3, k4⟩ := ih (s.set t y) (k + 1) r hAt
          (by
            rw [hev2]
            apply List.map_congr_left
            intro i _
            simp only [Function.comp_apply, Nat.succ_eq_add_one]
            rw [show k + (i + 1) = k + 1 + i by omega])
          (fun j h1 h2 => hg j (by omega) (by omega))
        refine ⟨s2, _ :: o2, by simp [run, hy, k1]; rfl, by rw [show k + (r + 1) = k + 1 + r by omega]; exact k2, ?_, ?_⟩
        · rw [List.filter_cons_of_pos (by simp), k3, List.range_succ_eq_map, List.map_cons,
            List.map_map]
          congr 1
          apply List.map_congr_left
          intro i _
          simp only [Function.comp_apply, Nat.succ_eq_add_one]
          rw [show k + 1 + (i + 1) = k + 1 + 1 + i by omega]
        · intro p hp hpt
          rcases List.mem_cons.1 hp with hp | hp
          · exact absurd (by rw [hp]) hpt
          · obtain ⟨b, sh', e1, e2⟩ := k4 p hp hpt
            exact ⟨b, sh', by simp [e1], e2⟩
    · rw [List.filter_cons_of_neg (by simp [he])] at hev
      obtain ⟨th', busy', o, h1, h2, h3, h4⟩ := other_step L c s t e h.owner he
      have hAt : At L c sh m0 n0 b0 effs { s with th := th', busy := busy' } t k :=
        { busy := h3.trans h.busy
          enabled := h.enabled
          owner := h.owner
          mid := by simp only [h2]; exact h.mid }
      obtain ⟨s2, o2, k1, k2, k3, k4⟩ := ih { s with th := th', busy := busy' } k r hAt hev hg
      refine ⟨s2, o ++ o2, by simp [run, h1, k1], k2, ?_, ?_⟩
      · rw [List.filter_append, k3]
        have : o.filter (fun p => p.1 == t) = [] := by
          rw [List.filter_eq_nil_iff]
          intro p hp
          simpa using (h4 p hp).1
        rw [this, List.nil_append]
      · intro p hp hpt
        rcases List.mem_append.1 hp with hp | hp
        · obtain ⟨_, b, sh', e1, e2⟩ := h4 p hp
          exact ⟨b, sh', by rw [e1]; simp, e2⟩
        · obtain ⟨b, sh', e1, e2⟩ := k4 p hp hpt
          exact ⟨b, sh', by simp [e1], e2⟩

/-- **A fuzz pass.**  The thread `t` calls the target after any history, the call is
fuzzed, and its input is loaded.  Whatever the target leaves in the buffer and the
shadow (`effs`), and whatever other threads do in between: the call runs as iterations
0, 1, ... as long as `goes` holds: iteration `k` runs on what it finds in the buffer
with the next value of the mutator, started on the loaded input, in the window; its
shadow is that of the call; and when `goes` fails, the pass is over. -/
theorem C71_pass {M : Type} {L : Lib M} {size : M → Nat} (hL : L.Ok size) (c : Cfg)
    (hc : c.corpus = none) (hist : List Ev) (s : St M) (os0 : List (Nat × Obs))
    (hrun : run L c (St.init M c) hist = .ok (s, os0)) (t : Nat) (b : List Byte) (sh : Sh)
    (b0 : List Byte) (g : Bool) (hbusy : s.busy t = false) (hen : s.enabled = true)
    (how : s.owner = none ∨ s.owner = some t) (hsk : (s.th t).skip = 0)
    (ho : c.offset < b.length) (hl : loaded c b = some (b0, g)) (effs : Nat → Eff) (k : Nat)
    (evs : List Ev)
    (hev : evs.filter (fun e => e.thread == t) = (List.range k).map (fun i => Ev.done t (effs i)))
    (hg : ∀ j, j < k →
      goes L c j (machAt L c (L.start (window c b0)) (s.th t).bbs effs (j + 1)).1 = true) :
    ∃ s' os, run L c s (.call t b sh :: evs) = .ok (s', os) ∧
      os.filter (fun p => p.1 == t) = (List.range (k + 1)).map (fun j =>
        (t, ⟨true, bytesAt L c (L.start (window c b0)) (s.th t).bbs b0 effs j,
          shAt c sh b0.length effs j⟩)) ∧
      (∀ p ∈ os, p.1 ≠ t → ∃ b sh, Ev.call p.1 b sh ∈ evs ∧ p.2 = ⟨false, b, sh⟩) ∧
      s'.busy t = true ∧
      (goes L c k (machAt L c (L.start (window c b0)) (s.th t).bbs effs (k + 1)).1 = false →
        ∃ s'', step L c s' (.done t (effs k)) = .ok (s'', []) ∧ s''.busy t = false ∧
          Idle (s''.th t) ∧ (s''.th t).skip = 0 ∧ s''.enabled = true ∧ s''.owner = some t) := by
  obtain ⟨s1, os1, e1, hinv⟩ := run_inv hL c hc hist (St.init M c) (inv_init size c)
  rw [hrun] at e1
  injection e1 with e1
  injection e1 with e1 e2
  subst e1; subst e2
  have hi : Idle (s.th t) := hinv.idle t (fun k => by simp [k.1] at hbusy)
  have ho0 : c.offset < b0.length := Nat.lt_of_lt_of_le ho (loaded_length c b b0 g hl)
  have hsz : size (L.start (window c b0)) = windowLen c b0.length := by
    rw [hL.start, window_length c b0 ho0]
  obtain ⟨y, hy, hym⟩ := call_start hL c hc s t b sh b0 g hbusy hen how hi hsk ho hl
  generalize hs1 : ({ (s.set t y).mark t true with
        owner := some t, started := s.started + 1,
        allocs := s.allocs + (if c.replace then 1 else 0) + (if g then 1 else 0),
        frees := s.frees + (if g then 1 else 0) } : St M) = s1 at hy
  have hth : s1.th t = y := by rw [← hs1]; simp [St.mark, St.set]
  have hAt : At L c sh (L.start (window c b0)) (s.th t).bbs b0 effs s1 t 0 :=
    { busy := by rw [← hs1]; simp [St.mark]
      enabled := by rw [← hs1]; exact hen
      owner := by rw [← hs1]
      mid := by rw [hth]; exact hym }
  obtain ⟨s2, o2, k1, k2, k3, k4⟩ := mid_run hL c hc t sh _ (s.th t).bbs b0 effs ho0 hsz evs s1 0 k
    hAt (by simpa using hev) (fun j _ h2 => hg j (by omega))
  rw [Nat.zero_add] at k2
  refine ⟨s2, _ :: o2, by simp [run, hy, k1]; rfl, ?_, ?_, k2.busy, ?_⟩
  · rw [List.filter_cons_of_pos (by simp), k3, List.range_succ_eq_map, List.map_cons, List.map_map]
    congr 1
    apply List.map_congr_left
    intro i _
    simp only [Function.comp_apply, Nat.succ_eq_add_one]
    rw [show 0 + 1 + i = i + 1 by omega]
  · intro p hp hpt
    rcases List.mem_cons.1 hp with hp | hp
    · exact absurd (by rw [hp]) hpt
    · exact k4 p hp hpt
  · intro hstop
    obtain ⟨z, hz, hzi, hzs, _⟩ := done_stop c hc s2 t (effs k) sh k _ _ _ k2.busy k2.enabled
      k2.owner k2.mid (by exact hstop)
    refine ⟨_, hz, by simp [St.mark], ?_, ?_, k2.enabled, k2.owner⟩
    · simp only [St.mark, St.set, if_true]; exact hzi
    · simp only [St.mark, St.set, if_true]; exact hzs

/-- No run writes past the buffer, or uses a null mutator or buffer; at most one
replacement buffer and one mutator are held, and none when no pass is on. -/
theorem C71_safe {M : Type} {L : Lib M} {size : M → Nat} (hL : L.Ok size) (c : Cfg)
    (hc : c.corpus = none) (evs : List Ev) :
    ∃ s os, run L c (St.init M c) evs = .ok (s, os) ∧
      s.frees ≤ s.allocs ∧ s.allocs ≤ s.frees + 1 ∧
      s.stopped ≤ s.started ∧ s.started ≤ s.stopped + 1 ∧
      ((∀ t, s.busy t = false) → s.allocs = s.frees ∧ s.started = s.stopped) := by
  obtain ⟨s, os, h1, h2⟩ := run_inv hL c hc evs (St.init M c) (inv_init size c)
  have hle := held_le h2
  refine ⟨s, os, h1, hle.1, ?_, hle.2, ?_, ?_⟩
  · by_cases hx : ∃ t, inPass s t
    · obtain ⟨t, ht⟩ := hx
      have := (h2.held t ht).1
      split at this <;> omega
    · have := h2.free (fun t ht => hx ⟨t, ht⟩)
      omega
  · by_cases hx : ∃ t, inPass s t
    · obtain ⟨t, ht⟩ := hx
      have := (h2.held t ht).2
      omega
    · have := h2.free (fun t ht => hx ⟨t, ht⟩)
      omega
  · intro hb
    exact h2.free (fun t ht => absurd ht.1 (by simp [hb t]))

/-! ## Calls that are skipped -/

/-- Calls of one thread that all return. -/
def calls (t : Nat) (l : List (List Byte × Sh × Eff)) : List Ev :=
  l.flatMap (fun x => [Ev.call t x.1 x.2.1, Ev.done t x.2.2])

/-- The first `-fuzz_skip_initial` calls of the fuzzing thread run as they are, once
each. -/
theorem C71_skip {M : Type} (L : Lib M) (c : Cfg) (t : Nat) (l : List (List Byte × Sh × Eff))
    (s : St M) (hb : s.busy t = false) (he : s.enabled = true)
    (how : s.owner = none ∨ s.owner = some t) (hl : l.length ≤ (s.th t).skip) (hidle : Idle (s.th t)) :
    ∃ s', run L c s (calls t l) = .ok (s', l.map (fun x => (t, ⟨false, x.1, x.2.1⟩))) ∧
      s'.busy t = false ∧ s'.enabled = true ∧ (s'.th t).skip = (s.th t).skip - l.length ∧
      Idle (s'.th t) ∧ (s'.owner = none ∨ s'.owner = some t) := by
  induction l generalizing s with
  | nil => exact ⟨s, rfl, hb, he, rfl, hidle, how⟩
  | cons x l ih =>
    have hown : some (s.owner.getD t) = some t := by rcases how with k | k <;> simp [k]
    simp only [List.length_cons] at hl
    have h1 : step L c s (.call t x.1 x.2.1) =
        .ok (({ s with owner := some t } : St M).mark t true, [(t, ⟨false, x.1, x.2.1⟩)]) := by
      have hq : pre L c s t x.1 x.2.1 = .ok (({ s with owner := some t } : St M), ⟨false, x.1, x.2.1⟩) := by
        unfold pre
        simp only [hown]
        exact if_pos (Or.inr (Or.inl (by show (s.th t).skip > 0; omega)))
      simp only [step, hb, Bool.false_eq_true, if_false, hq]
    generalize hs1 : ({ s with owner := some t } : St M).mark t true = s1 at h1
    have hth : s1.th t = s.th t := by rw [← hs1]; rfl
    have h2 : step L c s1 (.done t x.2.2) =
        .ok ((s1.set t { ran (s.th t) x.2.2 with skip := (s.th t).skip - 1 }).mark t false, []) := by
      have hq : post L c (s1.set t (ran (s1.th t) x.2.2)) t x.2.2.bbs =
          .ok (s1.set t { ran (s.th t) x.2.2 with skip := (s.th t).skip - 1 }, false) := by
        have hno : ¬ (s1.enabled = false ∨ s1.owner ≠ some t) := by
          rw [← hs1]; simp [St.mark, he]
        refine (if_neg hno).trans ?_
        simp only [set_th, hth]
        rw [if_pos (by simp [ran]; omega), set_set]
        rfl
      have hbz : s1.busy t = true := by rw [← hs1]; simp [St.mark]
      simp only [step, hbz, if_true, hq]
    obtain ⟨s', k1, k2, k3, k4, k5, k6⟩ := ih
      ((s1.set t { ran (s.th t) x.2.2 with skip := (s.th t).skip - 1 }).mark t false)
      (by simp [St.mark]) (by rw [← hs1]; exact he) (by right; rw [← hs1]; rfl)
      (by simp [St.mark, St.set]; omega)
      (by
        simp only [St.mark, St.set, if_true]
        exact ⟨hidle.rep, hidle.idx, hidle.mutr, by simp [ran, hidle.buf], hidle.saved⟩)
    refine ⟨s', ?_, k2, k3, ?_, k5, k6⟩
    · have e0 : calls t (x :: l) = Ev.call t x.1 x.2.1 :: Ev.done t x.2.2 :: calls t l := by
        simp [calls]
      rw [e0]
      simp [run, h1, h2, k1]
    · rw [k4]
      simp only [St.mark, St.set, if_true, List.length_cons]
      omega

end Verif.FuzzDriver
