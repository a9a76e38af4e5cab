import Verif.FuzzDriverThms

/-!
# The fuzzing driver without a corpus: whole passes and whole runs (C71)
-/

namespace Verif.FuzzDriver

theorem run_append {M : Type} (L : Lib M) (c : Cfg) (es fs : List Ev) (s : St M) :
    run L c s (es ++ fs) =
      match run L c s es with
      | .error x => .error x
      | .ok (s1, o1) =>
        match run L c s1 fs with
        | .error x => .error x
        | .ok (s2, o2) => .ok (s2, o1 ++ o2) := by
  induction es generalizing s with
  | nil =>
    simp only [List.nil_append, run]
    cases run L c s fs with
    | error x => rfl
    | ok p => rfl
  | cons e es ih =>
    simp only [List.cons_append, run]
    cases step L c s e with
    | error x => rfl
    | ok p =>
      obtain ⟨s1, o1⟩ := p
      simp only [ih]
      cases run L c s1 es with
      | error x => rfl
      | ok q =>
        obtain ⟨s2, o2⟩ := q
        simp only
        cases run L c s2 fs with
        | error x => rfl
        | ok r => simp [List.append_assoc]

theorem run_one {M : Type} (L : Lib M) (c : Cfg) (e : Ev) (s : St M) :
    run L c s [e] = step L c s e := by
  simp only [run]
  cases step L c s e with
  | error x => rfl
  | ok p => simp

/-! ## The invariant -/

/-- A thread's state in a pass. -/
def Active {M : Type} (size : M → Nat) (c : Cfg) (x : T M) : Prop :=
  ∃ sh k m b n, IsMid c sh x k m b n ∧ c.offset < b.length ∧ size m = windowLen c b.length

/-- The thread is in a pass. -/
def inPass {M : Type} (s : St M) (t : Nat) : Prop :=
  s.busy t = true ∧ s.owner = some t ∧ s.enabled = true ∧ (s.th t).skip = 0

/-- What holds at all times. -/
structure Inv {M : Type} (size : M → Nat) (c : Cfg) (s : St M) : Prop where
  act : ∀ t, inPass s t → Active size c (s.th t)
  idle : ∀ t, ¬ inPass s t → Idle (s.th t)
  held : ∀ t, inPass s t → s.allocs = s.frees + (if c.replace then 1 else 0) ∧
    s.started = s.stopped + 1
  free : (∀ t, ¬ inPass s t) → s.allocs = s.frees ∧ s.started = s.stopped

theorem inv_init {M : Type} (size : M → Nat) (c : Cfg) : Inv size c (St.init M c) where
  act := fun t h => by simp [inPass, St.init] at h
  idle := fun t _ => ⟨rfl, rfl, rfl, rfl, rfl⟩
  held := fun t h => by simp [inPass, St.init] at h
  free := fun _ => ⟨rfl, rfl⟩

theorem inPass_unique {M : Type} (s : St M) (t u : Nat) (ht : inPass s t) (hu : inPass s u) :
    t = u := by
  have := ht.2.1.symm.trans hu.2.1
  simpa using this

/-- The state of other threads, and the counts, after a step of thread `t` that neither
starts nor ends a pass. -/
theorem inv_frame {M : Type} (size : M → Nat) (c : Cfg) (s s' : St M) (t : Nat)
    (h : Inv size c s) (hth : ∀ u, u ≠ t → s'.th u = s.th u)
    (hbusy : ∀ u, u ≠ t → s'.busy u = s.busy u)
    (how : s'.owner = s.owner ∨ (s.owner = none ∧ s'.owner = some t))
    (hen : s'.enabled = s.enabled ∨ s'.owner = some t)
    (hact : inPass s' t → Active size c (s'.th t)) (hidle : ¬ inPass s' t → Idle (s'.th t))
    (hcnt : (inPass s' t ↔ inPass s t) → s'.allocs - s'.frees = s.allocs - s.frees ∧
      s'.started - s'.stopped = s.started - s.stopped)
    (hle : s'.frees ≤ s'.allocs ∧ s'.stopped ≤ s'.started)
    (hup : inPass s' t → ¬ inPass s t → s'.allocs = s'.frees + (if c.replace then 1 else 0) ∧
      s'.started = s'.stopped + 1)
    (hdown : ¬ inPass s' t → inPass s t → s'.allocs = s'.frees ∧ s'.started = s'.stopped) :
    Inv size c s' := by
  have key : ∀ u, u ≠ t → (inPass s' u ↔ inPass s u) := by
    intro u hu
    unfold inPass
    rw [hbusy u hu, hth u hu]
    rcases how with e | ⟨e1, e2⟩
    · rw [e]
      rcases hen with e' | e'
      · rw [e']
      · rw [e] at e'
        rw [e']
        constructor <;> (rintro ⟨_, h2, _⟩; exact absurd (by simpa using h2) (Ne.symm hu))
    · rw [e1, e2]
      constructor
      · rintro ⟨_, h2, _⟩; exact absurd (by simpa using h2) (Ne.symm hu)
      · rintro ⟨_, h2, _⟩; simp at h2
  refine ⟨?_, ?_, ?_, ?_⟩
  · intro u hu
    by_cases e : u = t
    · subst e; exact hact hu
    · rw [hth u e]; exact h.act u ((key u e).1 hu)
  · intro u hu
    by_cases e : u = t
    · subst e; exact hidle hu
    · rw [hth u e]; exact h.idle u (fun k => hu ((key u e).2 k))
  · intro u hu
    by_cases e : u = t
    · subst e
      by_cases h0 : inPass s u
      · have := h.held u h0
        have := hcnt ⟨fun _ => h0, fun _ => hu⟩
        constructor <;> omega
      · exact hup hu h0
    · have hu0 := (key u e).1 hu
      have h1 := h.held u hu0
      have ht0 : ¬ inPass s t := fun k => e (inPass_unique s u t hu0 k)
      have ht1 : ¬ inPass s' t := fun k => e (inPass_unique s' u t hu k)
      have := hcnt ⟨fun k => absurd k ht1, fun k => absurd k ht0⟩
      constructor <;> omega
  · intro hn
    by_cases h0 : inPass s t
    · exact hdown (hn t) h0
    · have hno : ∀ u, ¬ inPass s u := by
        intro u hu
        by_cases e : u = t
        · subst e; exact h0 hu
        · exact hn u ((key u e).2 hu)
      have h1 := h.free hno
      have := hcnt ⟨fun k => absurd k (hn t), fun k => absurd k h0⟩
      constructor <;> omega

theorem held_le {M : Type} {size : M → Nat} {c : Cfg} {s : St M} (h : Inv size c s) :
    s.frees ≤ s.allocs ∧ s.stopped ≤ s.started := by
  by_cases hx : ∃ t, inPass s t
  · obtain ⟨t, ht⟩ := hx
    have := h.held t ht
    constructor <;> omega
  · have := h.free (fun t ht => hx ⟨t, ht⟩)
    constructor <;> omega

/-- A call. -/
theorem call_inv {M : Type} {L : Lib M} {size : M → Nat} (hL : L.Ok size) (c : Cfg)
    (hc : c.corpus = none) (s : St M) (t : Nat) (b : List Byte) (sh : Sh) (h : Inv size c s) :
    ∃ s' o, step L c s (.call t b sh) = .ok (s', o) ∧ Inv size c s' := by
  have hle := held_le h
  by_cases hbusy : s.busy t = true
  · exact ⟨s, [], by simp [step, hbusy], h⟩
  · have hbusy : s.busy t = false := by simpa using hbusy
    have hnp : ¬ inPass s t := fun k => by simp [k.1] at hbusy
    have hi := h.idle t hnp
    by_cases hcond : s.enabled = false ∨ (s.th t).skip > 0 ∨ some (s.owner.getD t) ≠ some t
    · refine ⟨({ s with owner := some (s.owner.getD t) } : St M).mark t true,
        [(t, ⟨false, b, sh⟩)], ?_, ?_⟩
      · simp only [step, hbusy, pre, Bool.false_eq_true, if_false]
        rw [if_pos hcond]
      · have hno : ¬ inPass (({ s with owner := some (s.owner.getD t) } : St M).mark t true) t := by
          rintro ⟨_, h2, h3, h4⟩
          simp only [St.mark] at h2 h3 h4
          rcases hcond with k | k | k
          · simp [k] at h3
          · omega
          · exact k h2
        exact inv_frame size c s _ t h (fun u _ => rfl) (fun u hu => by simp [St.mark, hu])
          (by
            cases ho : s.owner with
            | none => right; simp [St.mark]
            | some v => left; simp [St.mark])
          (Or.inl rfl) (fun k => absurd k hno) (fun _ => hi) (fun _ => ⟨rfl, rfl⟩) hle
          (fun k => absurd k hno) (fun _ k => absurd k hnp)
    · have hen : s.enabled = true := by
        cases k : s.enabled with
        | true => rfl
        | false => exact absurd (Or.inl k) hcond
      have hsk : (s.th t).skip = 0 := by
        rcases Nat.eq_zero_or_pos (s.th t).skip with k | k
        · exact k
        · exact absurd (Or.inr (Or.inl k)) hcond
      have how : s.owner = none ∨ s.owner = some t := by
        cases k : s.owner with
        | none => exact Or.inl rfl
        | some v =>
          right
          by_cases e : v = t
          · rw [e]
          · exact absurd (Or.inr (Or.inr (by simp [k, e]))) hcond
      have hown : some (s.owner.getD t) = some t := by
        rcases how with k | k <;> simp [k]
      have how' : ∀ o, o = some t → o = s.owner ∨ (s.owner = none ∧ o = some t) := by
        intro o ho
        rcases how with k | k
        · exact Or.inr ⟨k, ho⟩
        · exact Or.inl (ho.trans k.symm)
      by_cases ho : c.offset < b.length
      · cases hl : loaded c b with
        | some p =>
          obtain ⟨b0, g⟩ := p
          obtain ⟨y, hy, hm⟩ := call_start hL c hc s t b sh b0 g hbusy hen how hi hsk ho hl
          refine ⟨_, _, hy, ?_⟩
          have ho0 : c.offset < b0.length := Nat.lt_of_lt_of_le ho (loaded_length c b b0 g hl)
          have hsz : size (L.start (window c b0)) = windowLen c b0.length := by
            rw [hL.start, window_length c b0 ho0]
          have hpl := putVal_length hL c _ b0 ho0 hsz
          have hna : ∀ u, ¬ inPass s u := by
            intro u hu
            rcases how with k | k
            · simp [inPass, k] at hu
            · have e : u = t := by simpa [k, eq_comm] using hu.2.1
              subst e; exact hnp hu
          have hf := h.free hna
          have hin : ∀ s' : St M, s'.busy t = true → s'.owner = some t → s'.enabled = true →
              s'.th t = y → inPass s' t :=
            fun s' h1 h2 h3 h4 => ⟨h1, h2, h3, by rw [h4]; exact hm.skip⟩
          have hip := hin ({ (s.set t y).mark t true with
            owner := some t, started := s.started + 1,
            allocs := s.allocs + (if c.replace then 1 else 0) + (if g then 1 else 0),
            frees := s.frees + (if g then 1 else 0) }) (by simp [St.mark]) rfl hen
            (by simp [St.mark, St.set])
          refine inv_frame size c s _ t h (fun u hu => by simp [St.mark, St.set, hu])
            (fun u hu => by simp [St.mark, St.set, hu]) (how' _ rfl) (Or.inr rfl) ?_
            (fun k => absurd hip k) (fun k => absurd (k.1 hip) hnp) ?_ ?_ (fun k => absurd hip k)
          · intro _
            have : (({ (s.set t y).mark t true with
              owner := some t, started := s.started + 1,
              allocs := s.allocs + (if c.replace then 1 else 0) + (if g then 1 else 0),
              frees := s.frees + (if g then 1 else 0) } : St M).th t) = y := by
              simp [St.mark, St.set]
            rw [this]
            refine ⟨sh, 0, _, _, _, hm, ?_, ?_⟩
            · split
              · rw [hpl]; exact ho0
              · exact ho0
            · split
              · rw [stepM_size hL, hpl]; exact hsz
              · exact hsz
          · simp only; constructor
            · split <;> split <;> omega
            · simp only [St.mark, St.set]; omega
          · intro _ _
            simp only [St.mark, St.set]
            constructor
            · split <;> split <;> omega
            · omega
        | none =>
          -- the input file cannot be loaded
          have hin : ∃ f, c.input = some f ∧ load c f b = none := by
            unfold loaded at hl
            cases k : c.input with
            | none => simp [k] at hl
            | some f => simp only [k] at hl; exact ⟨f, rfl, hl⟩
          obtain ⟨f, hf1, hf2⟩ := hin
          have hstep : ∃ y, step L c s (.call t b sh) = .ok ({ (s.set t y).mark t true with
              owner := some t, enabled := false,
              allocs := s.allocs + (if c.replace then 1 else 0),
              frees := s.frees + (if c.replace then 1 else 0) }, [(t, ⟨false, b, sh⟩)]) ∧
              Idle y := by
            refine ⟨{ s.th t with sh := sh, buf := none, idx := 0 }, ?_,
              ⟨hi.rep, rfl, hi.mutr, rfl, hi.saved⟩⟩
            unfold step pre
            simp only [hbusy, Bool.false_eq_true, if_false, hown]
            rw [if_neg (by simp [hen, hsk]), if_neg (by simp [hi.rep]), if_neg (by omega)]
            simp only [hc, prePlain, hf1, hf2]
            cases hr : c.replace <;>
              simp [takeBuffer, freeBuffer, hr, St.set, St.mark] <;>
              (funext u; by_cases hu : u = t <;> simp [hu])
          obtain ⟨y, hy, hyi⟩ := hstep
          refine ⟨_, _, hy, ?_⟩
          have hno : ¬ inPass ({ (s.set t y).mark t true with
              owner := some t, enabled := false,
              allocs := s.allocs + (if c.replace then 1 else 0),
              frees := s.frees + (if c.replace then 1 else 0) } : St M) t := by
            rintro ⟨_, _, h3, _⟩
            exact Bool.noConfusion h3
          refine inv_frame size c s _ t h (fun u hu => by simp [St.mark, St.set, hu])
            (fun u hu => by simp [St.mark, St.set, hu]) (how' _ rfl) (Or.inr rfl)
            (fun k => absurd k hno) (fun _ => ?_) (fun _ => ?_) ?_
            (fun k => absurd k hno) (fun _ k => absurd k hnp)
          · simp only [St.mark, St.set, if_true]; exact hyi
          · simp only [St.mark, St.set]
            constructor
            · omega
            · trivial
          · simp only [St.mark, St.set]
            constructor
            · omega
            · omega
      · refine ⟨(({ s with owner := some t } : St M).set t
            { s.th t with skip := (s.th t).skip + 1 }).mark t true, [(t, ⟨false, b, sh⟩)], ?_, ?_⟩
        · unfold step pre
          simp only [hbusy, Bool.false_eq_true, if_false, hown]
          rw [if_neg (by simp [hen, hsk]), if_neg (by simp [hi.rep]), if_pos (by omega)]
        · have hno : ¬ inPass ((({ s with owner := some t } : St M).set t
              { s.th t with skip := (s.th t).skip + 1 }).mark t true) t := by
            rintro ⟨_, _, _, h4⟩
            simp [St.mark, St.set] at h4
          exact inv_frame size c s _ t h (fun u hu => by simp [St.mark, St.set, hu])
            (fun u hu => by simp [St.mark, St.set, hu]) (how' _ rfl) (Or.inl rfl)
            (fun k => absurd k hno)
            (fun _ => by
              simp only [St.mark, St.set, if_true]
              exact ⟨hi.rep, hi.idx, hi.mutr, hi.buf, hi.saved⟩)
            (fun _ => ⟨rfl, rfl⟩) hle (fun k => absurd k hno) (fun _ k => absurd k hnp)

/-- A return. -/
theorem done_inv {M : Type} {L : Lib M} {size : M → Nat} (hL : L.Ok size) (c : Cfg)
    (hc : c.corpus = none) (s : St M) (t : Nat) (e : Eff) (h : Inv size c s) :
    ∃ s' o, step L c s (.done t e) = .ok (s', o) ∧ Inv size c s' := by
  have hle := held_le h
  by_cases hbusy : s.busy t = true
  · by_cases hp : inPass s t
    · obtain ⟨sh, k, m, b, n, hm, ho, hs⟩ := h.act t hp
      cases hg : goes L c k (told L c k (m, n) e.bbs).1 with
      | true =>
        obtain ⟨y, hy, hym⟩ := done_again hL c hc s t e sh k m b n hbusy hp.2.2.1 hp.2.1 hm ho hs hg
        refine ⟨_, _, hy, ?_⟩
        have hip : inPass (s.set t y) t :=
          ⟨hbusy, hp.2.1, hp.2.2.1, by rw [set_th]; exact hym.skip⟩
        have hsz : size (told L c k (m, n) e.bbs).1 = windowLen c (after e.bytes b).length := by
          rw [told_size hL, after_length]; exact hs
        have hoa : c.offset < (after e.bytes b).length := by rw [after_length]; exact ho
        have hpl := putVal_length hL c _ _ hoa hsz
        exact inv_frame size c s _ t h (fun u hu => by simp [St.set, hu])
          (fun u hu => rfl) (Or.inl rfl) (Or.inl rfl)
          (fun _ => by
            rw [set_th]
            exact ⟨sh, _, _, _, _, hym, by rw [hpl]; exact hoa, by rw [stepM_size hL, hpl]; exact hsz⟩)
          (fun k => absurd hip k) (fun _ => ⟨rfl, rfl⟩) hle (fun _ k => absurd hp k)
          (fun k => absurd hip k)
      | false =>
        obtain ⟨y, hy, hyi, _, _⟩ := done_stop c hc s t e sh k m b n hbusy hp.2.2.1 hp.2.1 hm hg
        refine ⟨_, _, hy, ?_⟩
        have hh := h.held t hp
        have hno : ¬ inPass ({ (s.set t y).mark t false with
            stopped := s.stopped + 1, frees := s.frees + if c.replace then 1 else 0 } : St M) t := by
          rintro ⟨h1, _⟩
          simp [St.mark] at h1
        refine inv_frame size c s _ t h (fun u hu => by simp [St.mark, St.set, hu])
          (fun u hu => by simp [St.mark, St.set, hu]) (Or.inl rfl) (Or.inl rfl)
          (fun k => absurd k hno) (fun _ => ?_) (fun k => absurd (k.2 hp) hno) ?_
          (fun k => absurd k hno) (fun _ _ => ?_)
        · simp only [St.mark, St.set, if_true]; exact hyi
        · simp only [St.mark, St.set]
          constructor <;> omega
        · simp only [St.mark, St.set]
          constructor <;> omega
    · have hi := h.idle t hp
      have hir : Idle (ran (s.th t) e) :=
        ⟨hi.rep, hi.idx, hi.mutr, by simp [ran, hi.buf], hi.saved⟩
      by_cases hcond : s.enabled = false ∨ s.owner ≠ some t
      · refine ⟨(s.set t (ran (s.th t) e)).mark t false, [], ?_, ?_⟩
        · have hq : post L c (s.set t (ran (s.th t) e)) t e.bbs =
              .ok (s.set t (ran (s.th t) e), false) := if_pos hcond
          simp only [step, hbusy, if_true, hq]
        · have hno : ¬ inPass ((s.set t (ran (s.th t) e)).mark t false) t := by
            rintro ⟨h1, _⟩
            simp [St.mark] at h1
          exact inv_frame size c s _ t h (fun u hu => by simp [St.mark, St.set, hu])
            (fun u hu => by simp [St.mark, St.set, hu]) (Or.inl rfl) (Or.inl rfl)
            (fun k => absurd k hno) (fun _ => by simp only [St.mark, St.set, if_true]; exact hir)
            (fun _ => ⟨rfl, rfl⟩) hle (fun k => absurd k hno) (fun _ k => absurd k hp)
      · have hsk : (s.th t).skip > 0 := by
          rcases Nat.eq_zero_or_pos (s.th t).skip with k | k
          · exact absurd ⟨hbusy, by
              by_cases e : s.owner = some t
              · exact e
              · exact absurd (Or.inr e) hcond, by
              cases e : s.enabled with
              | true => rfl
              | false => exact absurd (Or.inl e) hcond, k⟩ hp
          · exact k
        refine ⟨(s.set t { ran (s.th t) e with skip := (s.th t).skip - 1 }).mark t false, [], ?_, ?_⟩
        · have hq : post L c (s.set t (ran (s.th t) e)) t e.bbs =
              .ok (s.set t { ran (s.th t) e with skip := (s.th t).skip - 1 }, false) := by
            refine (if_neg hcond).trans ?_
            simp only [set_th]
            rw [if_pos (by simpa [ran] using hsk), set_set]
            rfl
          simp only [step, hbusy, if_true, hq]
        · have hno : ¬ inPass ((s.set t { ran (s.th t) e with skip := (s.th t).skip - 1 }).mark t
              false) t := by
            rintro ⟨h1, _⟩
            simp [St.mark] at h1
          exact inv_frame size c s _ t h (fun u hu => by simp [St.mark, St.set, hu])
            (fun u hu => by simp [St.mark, St.set, hu]) (Or.inl rfl) (Or.inl rfl)
            (fun k => absurd k hno)
            (fun _ => by
              simp only [St.mark, St.set, if_true]
              exact ⟨hir.rep, hir.idx, hir.mutr, hir.buf, hir.saved⟩)
            (fun _ => ⟨rfl, rfl⟩) hle (fun k => absurd k hno) (fun _ k => absurd k hp)
  · have hbusy : s.busy t = false := by simpa using hbusy
    exact ⟨s, [], by simp [step, hbusy], h⟩

theorem run_inv {M : Type} {L : Lib M} {size : M → Nat} (hL : L.Ok size) (c : Cfg)
    (hc : c.corpus = none) (evs : List Ev) (s : St M) (h : Inv size c s) :
    ∃ s' os, run L c s evs = .ok (s', os) ∧ Inv size c s' := by
  induction evs generalizing s with
  | nil => exact ⟨s, [], rfl, h⟩
  | cons e es ih =>
    have : ∃ s1 o1, step L c s e = .ok (s1, o1) ∧ Inv size c s1 := by
      cases e with
      | call t b sh => exact call_inv hL c hc s t b sh h
      | done t e => exact done_inv hL c hc s t e h
    obtain ⟨s1, o1, h1, hi1⟩ := this
    obtain ⟨s2, o2, h2, hi2⟩ := ih s1 hi1
    exact ⟨s2, o1 ++ o2, by simp [run, h1, h2], hi2⟩

end Verif.FuzzDriver
