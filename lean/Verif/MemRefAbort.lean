import Verif.MemRefStack

/-!
# References of system calls and one shadow value per four bytes

C50: with `MEMREF_ABORT_AFTER_UNADDR` the check stops at the second range, but an
error is never missed; with one shadow value per four bytes (`-no_check_uninitialized`)
a byte can be missed.
-/

namespace Verif.MemRef

open Verif.Define (Sh)

/-- The variables that the ranges need. -/
structure Same (t u : St) : Prop where
  reports : t.reports = u.reports
  found : t.found = u.found
  kind : t.kind = u.kind
  badAddr : t.badAddr = u.badAddr
  badEnd : t.badEnd = u.badEnd
  stop : t.stop = u.stop

/-- The effect of one byte on the ranges. -/
def track (f : Flags) (s : St) (a : Nat) : Option Kind → St
  | none => s
  | some k => s.bad f k a

theorem bad_sh (f : Flags) (s : St) (k : Kind) (a : Nat) :
    (s.bad f k a).sh = s.sh ∧ (s.good = false → (s.bad f k a).good = false) ∧
    ((s.bad f k a).stop = false → (s.bad f k a).good = false) := by
  unfold St.bad
  repeat' split
  all_goals refine ⟨rfl, fun h => ?_, fun h => ?_⟩
  all_goals first | rfl | exact h | (cases h)

theorem core_shape (f : Flags) (c : Conf) (val : Nat → Sh) (addr i : Nat) (s : St) :
    Same (core f c val addr i s) (track f s (addr + i) (wrong f c s.sh (addr + i))) ∧
    ((core f c val addr i s).good = true ↔
      (track f s (addr + i) (wrong f c s.sh (addr + i))).good = true ∧
        ¬ (¬ f.write ∧ ¬ f.checkAddr ∧ f.checkDef ∧ s.sh (addr + i) = .bitlevel)) := by
  unfold core
  by_cases hu : s.sh (addr + i) = .unaddr
  · rw [if_pos hu]
    unfold stepUnaddr wrong
    rw [hu]
    dsimp only
    by_cases hp : f.pushpop = true ∧ f.write = true
    · rw [if_pos hp, if_pos (show (f.pushpop = true ∧ f.write = true) ∨ c.unaddrExc (addr + i) = true
        from .inl hp)]
      split
      · exact ⟨⟨rfl, rfl, rfl, rfl, rfl, rfl⟩, by simp [track, St.set]⟩
      · exact ⟨⟨rfl, rfl, rfl, rfl, rfl, rfl⟩, by simp [track, St.set]⟩
    · rw [if_neg hp]
      by_cases he : c.unaddrExc (addr + i) = true
      · rw [if_pos he, if_pos (.inr he)]
        exact ⟨⟨rfl, rfl, rfl, rfl, rfl, rfl⟩, by simp [track]⟩
      · rw [if_neg he, if_neg (by rintro (h | h); exacts [hp h, he h])]
        exact ⟨⟨rfl, rfl, rfl, rfl, rfl, rfl⟩, by simp [track]⟩
  · rw [if_neg hu]
    by_cases hr : ¬ f.write = true ∧ ¬ f.checkAddr = true
    · rw [if_pos hr]
      unfold stepRead
      dsimp only
      have key : ∀ t : St, Same t (track f s (addr + i) (wrong f c s.sh (addr + i))) →
          (t.good = true ↔ (track f s (addr + i) (wrong f c s.sh (addr + i))).good = true ∧
            ¬ (¬ f.write = true ∧ ¬ f.checkAddr = true ∧ f.checkDef = true ∧
              s.sh (addr + i) = .bitlevel)) →
          Same (if t.stop = true then t else if f.pushpop = true then
            if c.redzone > 0 then (t.set c (addr + i) .undef).set c (addr + i - c.redzone) .unaddr
            else t.set c (addr + i) .unaddr else t)
            (track f s (addr + i) (wrong f c s.sh (addr + i))) ∧
          ((if t.stop = true then t else if f.pushpop = true then
            if c.redzone > 0 then (t.set c (addr + i) .undef).set c (addr + i - c.redzone) .unaddr
            else t.set c (addr + i) .unaddr else t).good = true ↔
            (track f s (addr + i) (wrong f c s.sh (addr + i))).good = true ∧
            ¬ (¬ f.write = true ∧ ¬ f.checkAddr = true ∧ f.checkDef = true ∧
              s.sh (addr + i) = .bitlevel)) := by
        intro t h1 h2
        repeat' split
        · exact ⟨h1, h2⟩
        · exact ⟨⟨h1.1, h1.2, h1.3, h1.4, h1.5, h1.6⟩, h2⟩
        · exact ⟨⟨h1.1, h1.2, h1.3, h1.4, h1.5, h1.6⟩, h2⟩
        · exact ⟨h1, h2⟩
      apply key
      · by_cases hud : s.sh (addr + i) = .undef
        · rw [if_pos hud]
          by_cases hx : ¬ c.undefExc (addr + i) = true ∧ f.checkDef = true
          · rw [if_pos hx]
            have hw : wrong f c s.sh (addr + i) = some .undef := by
              unfold wrong; rw [hud]; dsimp only; rw [if_pos ⟨hr.1, hr.2, hx.2, hx.1⟩]
            rw [hw]
            split
            · exact ⟨rfl, rfl, rfl, rfl, rfl, rfl⟩
            · exact ⟨rfl, rfl, rfl, rfl, rfl, rfl⟩
          · rw [if_neg hx]
            have hw : wrong f c s.sh (addr + i) = none := by
              unfold wrong; rw [hud]; dsimp only
              rw [if_neg (fun h => hx ⟨h.2.2.2, h.2.2.1⟩)]
            rw [hw]
            exact ⟨rfl, rfl, rfl, rfl, rfl, rfl⟩
        · rw [if_neg hud]
          have hw : wrong f c s.sh (addr + i) = none := by
            unfold wrong
            cases h : s.sh (addr + i) <;> simp_all
          rw [hw]
          split <;> exact ⟨rfl, rfl, rfl, rfl, rfl, rfl⟩
      · by_cases hud : s.sh (addr + i) = .undef
        · rw [if_pos hud]
          by_cases hx : ¬ c.undefExc (addr + i) = true ∧ f.checkDef = true
          · rw [if_pos hx]
            have hw : wrong f c s.sh (addr + i) = some .undef := by
              unfold wrong; rw [hud]; dsimp only; rw [if_pos ⟨hr.1, hr.2, hx.2, hx.1⟩]
            rw [hw, hud]
            split <;> simp [track, St.set]
          · rw [if_neg hx]
            have hw : wrong f c s.sh (addr + i) = none := by
              unfold wrong; rw [hud]; dsimp only
              rw [if_neg (fun h => hx ⟨h.2.2.2, h.2.2.1⟩)]
            rw [hw, hud]
            simp [track]
        · rw [if_neg hud]
          have hw : wrong f c s.sh (addr + i) = none := by
            unfold wrong
            cases h : s.sh (addr + i) <;> simp_all
          rw [hw]
          split
          · rename_i h
            have : ¬ f.write = true ∧ ¬ f.checkAddr = true ∧ f.checkDef = true ∧
              s.sh (addr + i) = .bitlevel := ⟨hr.1, hr.2, h.1, h.2⟩
            rw [← not_iff_not]
            simp [this]
          · rename_i h
            have : ¬ (¬ f.write = true ∧ ¬ f.checkAddr = true ∧ f.checkDef = true ∧
              s.sh (addr + i) = .bitlevel) := fun h' => h ⟨h'.2.2.1, h'.2.2.2⟩
            exact ⟨fun h => ⟨h, this⟩, fun h => h.1⟩
    · rw [if_neg hr]
      have hw : wrong f c s.sh (addr + i) = none := by
        unfold wrong
        cases h : s.sh (addr + i)
        · rfl
        · exact absurd h hu
        · rfl
        · dsimp only
          rw [if_neg (fun h => hr ⟨h.1, h.2.1⟩)]
      rw [hw]
      have hn : ¬ (¬ f.write = true ∧ ¬ f.checkAddr = true ∧ f.checkDef = true ∧
              s.sh (addr + i) = .bitlevel) := fun h => hr ⟨h.1, h.2.1⟩
      unfold stepWrite
      dsimp only
      repeat' split
      all_goals exact ⟨⟨rfl, rfl, rfl, rfl, rfl, rfl⟩, fun h => ⟨h, hn⟩, fun h => h.1⟩

/-- A byte changes nothing above it. -/
theorem core_above {f : Flags} {c : Conf} (hc : c.map4 = false) (val : Nat → Sh) (addr i : Nat)
    (s : St) {b : Nat} (hb : addr + i < b) : (core f c val addr i s).sh b = s.sh b := by
  have hset : ∀ (t : St) (a : Nat) (v : Sh), a < b → (t.set c a v).sh b = t.sh b := by
    intro t a v ha
    rw [set_sh hc]
    unfold upd
    rw [if_neg (by omega)]
  have hbad : ∀ k, (s.bad f k (addr + i)).sh b = s.sh b := fun k => by rw [(bad_sh f s k _).1]
  unfold core stepUnaddr stepRead stepWrite
  dsimp only
  repeat' split
  all_goals first
    | rfl
    | exact hbad _
    | rw [hset _ _ _ (by omega)]
  all_goals first
    | rfl
    | exact hbad _
    | rw [hset _ _ _ (by omega)]
  all_goals first
    | rfl
    | exact hbad _
    | rw [hset _ _ _ (by omega)]
  all_goals exact hbad _

/-- `step` is `core` as far as the ranges are concerned. -/
theorem step_same (f : Flags) (c : Conf) (val : Nat → Sh) (addr i : Nat) (s : St) :
    Same (step f c val addr i s) (core f c val addr i s) ∧
    (step f c val addr i s).sh = (core f c val addr i s).sh ∧
    (step f c val addr i s).good = (core f c val addr i s).good := by
  unfold step
  dsimp only
  repeat' split
  all_goals exact ⟨⟨rfl, rfl, rfl, rfl, rfl, rfl⟩, rfl, rfl⟩

/-- Induction over the bytes with an early end. -/
theorem loop_ind' {f : Flags} {c : Conf} (hc : c.map4 = false) {val : Nat → Sh} {addr sz : Nat}
    (P : Nat → St → Prop) (Q : St → Prop)
    (hstep : ∀ i s, i < sz → P i s →
      (P (i + 1) (step f c val addr i s) ∧ (step f c val addr i s).stop = false) ∨
      (Q (step f c val addr i s) ∧ (step f c val addr i s).stop = true)) :
    ∀ n i s, i + n = sz → P i s →
      P sz (loop f c val addr sz n i s) ∨ Q (loop f c val addr sz n i s) := by
  intro n
  induction n with
  | zero =>
    intro i s h hp
    rw [loop]
    left
    rwa [← show i = sz by omega]
  | succ n ih =>
    intro i s h hp
    rw [loop, if_pos (by omega)]
    dsimp only
    rcases hstep i s (by omega) hp with ⟨h1, h2⟩ | ⟨h1, h2⟩
    · rw [h2, hc]
      simp only [Bool.false_eq_true, if_false]
      exact ih (i + 1) _ (by omega) h1
    · rw [if_pos h2]
      exact .inr h1

/-- A report that tells the truth about bytes of `[lo, hi)`. -/
def Truthful (K : Nat → Option Kind) (lo hi : Nat) (r : Report) : Prop :=
  0 < r.size ∧ lo ≤ r.start ∧ r.start + r.size ≤ hi ∧
    ∀ b, r.start ≤ b → b < r.start + r.size → K b = some r.kind

theorem Truthful.mono {K : Nat → Option Kind} {lo hi : Nat} {r : Report}
    (h : Truthful K lo hi r) {hi' : Nat} (hh : hi ≤ hi') : Truthful K lo hi' r :=
  ⟨h.1, h.2.1, Nat.le_trans h.2.2.1 hh, h.2.2.2⟩

/-- `a` is the first unaddressable byte of `[lo, hi)`. -/
def First (K : Nat → Option Kind) (lo a : Nat) : Prop :=
  lo ≤ a ∧ K a = some .unaddr ∧ ∀ b, lo ≤ b → b < a → K b ≠ some .unaddr

/-- Between two bytes of a reference that aborts. -/
structure Live (f : Flags) (c : Conf) (addr : Nat) (sh : Nat → Sh) (i : Nat) (s : St) : Prop where
  stop : s.stop = false
  above : ∀ b, addr + i ≤ b → s.sh b = sh b
  good : s.good = true ↔ ∀ j < i, ¬ spoilt f c sh (addr + j)
  foundBad : s.found = true → s.good = false
  order : s.found = true → s.badAddr ≤ s.badEnd ∧ s.badEnd < addr + i
  undef : ∀ r ∈ s.reports, r.kind = .undef
  truth : ∀ r ∈ s.reports ++ s.pending, Truthful (wrong f c sh) addr (addr + i) r
  state : ((∀ b, addr ≤ b → b < addr + i → wrong f c sh b ≠ some .unaddr) ∧
      (s.found = true → s.kind = .undef)) ∨
    (s.found = true ∧ s.kind = .unaddr ∧ First (wrong f c sh) addr s.badAddr ∧
      s.badEnd + 1 - s.badAddr ≤ 4)

/-- After the end of the check before the last byte. -/
structure Dead (f : Flags) (c : Conf) (addr sz : Nat) (sh : Nat → Sh) (s : St) : Prop where
  good : s.good = false
  spoilt : ∃ j < sz, spoilt f c sh (addr + j)
  found : s.found = false
  truth : ∀ r ∈ s.reports, Truthful (wrong f c sh) addr (addr + sz) r
  last : ∃ R a n, s.reports = R ++ [⟨.unaddr, a, n⟩] ∧ First (wrong f c sh) addr a ∧ n ≤ 4 ∧
    ∀ r ∈ R, r.kind = .undef

theorem Same.pending {t u : St} (h : Same t u) : t.pending = u.pending := by
  unfold St.pending
  rw [h.found, h.kind, h.badAddr, h.badEnd]

theorem live_step {f : Flags} {c : Conf} (hf : f.abort = true) (hc : c.map4 = false)
    {val : Nat → Sh} {addr sz : Nat} {sh : Nat → Sh} {i : Nat} {s : St} (hi : i < sz)
    (h : Live f c addr sh i s) :
    (Live f c addr sh (i + 1) (step f c val addr i s) ∧ (step f c val addr i s).stop = false) ∨
    (Dead f c addr sz sh (step f c val addr i s) ∧ (step f c val addr i s).stop = true) := by
  have he : s.sh (addr + i) = sh (addr + i) := h.above _ (Nat.le_refl _)
  have hwe : wrong f c s.sh (addr + i) = wrong f c sh (addr + i) := by unfold wrong; rw [he]
  obtain ⟨⟨r1, r2, r3, r4, r5, r6⟩, hg⟩ := core_shape f c val addr i s
  obtain ⟨⟨q1, q2, q3, q4, q5, q6⟩, hsh, hgg⟩ := step_same f c val addr i s
  have habove : ∀ b, addr + (i + 1) ≤ b → (step f c val addr i s).sh b = sh b := by
    intro b hb
    rw [hsh, core_above hc val addr i s (by omega)]
    exact h.above b (by omega)
  rw [hwe] at r1 r2 r3 r4 r5 r6 hg
  rw [← hgg, he] at hg
  have e1 := q1.trans r1
  have e2 := q2.trans r2
  have e3 := q3.trans r3
  have e4 := q4.trans r4
  have e5 := q5.trans r5
  have e6 := q6.trans r6
  have hsame : Same (step f c val addr i s) (track f s (addr + i) (wrong f c sh (addr + i))) :=
    ⟨e1, e2, e3, e4, e5, e6⟩
  have hpend := hsame.pending
  clear q1 q2 q3 q4 q5 q6 r1 r2 r3 r4 r5 r6 hsh hgg hwe hsame
  generalize step f c val addr i s = t at *
  cases hw : wrong f c sh (addr + i) with
  | none =>
    left
    rw [hw] at e1 e2 e3 e4 e5 e6 hg hpend
    dsimp only [track] at e1 e2 e3 e4 e5 e6 hg hpend
    have hsp : spoilt f c sh (addr + i) ↔ (¬ f.write = true ∧ ¬ f.checkAddr = true ∧
        f.checkDef = true ∧ sh (addr + i) = .bitlevel) := by
      unfold spoilt; rw [hw]; simp
    refine ⟨⟨e6.trans h.stop, habove, ?_, ?_, ?_, ?_, ?_, ?_⟩, e6.trans h.stop⟩
    · rw [hg, h.good, ← hsp]
      constructor
      · rintro ⟨a, b⟩ j hj
        by_cases hji : j = i
        · rw [hji]; exact b
        · exact a j (by omega)
      · exact fun a => ⟨fun j hj => a j (by omega), a i (by omega)⟩
    · intro hfo
      rw [e2] at hfo
      have := h.foundBad hfo
      cases hgt : t.good with
      | false => rfl
      | true => rw [(hg.1 hgt).1] at this; cases this
    · intro hfo
      rw [e2] at hfo
      rw [e4, e5]
      have := h.order hfo
      omega
    · rw [e1]; exact h.undef
    · rw [e1, hpend]; exact fun r hr => (h.truth r hr).mono (by omega)
    · rcases h.state with ⟨h1, h2⟩ | ⟨h1, h2, h3, h4⟩
      · left
        refine ⟨?_, by rw [e2, e3]; exact h2⟩
        intro b hb1 hb2
        by_cases hb : b = addr + i
        · rw [hb, hw]; simp
        · exact h1 b hb1 (by omega)
      · right
        rw [e2, e3, e4, e5]
        exact ⟨h1, h2, h3, h4⟩
  | some k =>
    have hsp : spoilt f c sh (addr + i) := .inl (by rw [hw]; simp)
    have hnb : ¬ (¬ f.write = true ∧ ¬ f.checkAddr = true ∧
        f.checkDef = true ∧ sh (addr + i) = .bitlevel) := by
      rintro ⟨-, -, -, hb⟩
      unfold wrong at hw
      rw [hb] at hw
      cases hw
    rw [hw] at e1 e2 e3 e4 e5 e6 hg hpend
    dsimp only [track] at e1 e2 e3 e4 e5 e6 hg hpend
    have hgood : t.good = (s.bad f k (addr + i)).good := by
      rw [Bool.eq_iff_iff, hg]
      exact ⟨fun h => h.1, fun h => ⟨h, hnb⟩⟩
    -- the byte alone
    have hone : Truthful (wrong f c sh) addr (addr + (i + 1)) ⟨k, addr + i, 1⟩ := by
      refine ⟨Nat.one_pos, by dsimp only; omega, by dsimp only; omega, ?_⟩
      intro b h1 h2
      dsimp only at h1 h2 ⊢
      rw [show b = addr + i by omega, hw]
    -- a new range
    have hlive : ∀ u : St, t.reports = u.reports → t.found = u.found → t.kind = u.kind →
        t.badAddr = u.badAddr → t.badEnd = u.badEnd → t.stop = u.stop → t.pending = u.pending →
        t.good = u.good → u.good = false → u.stop = false → u.found = true →
        (u.badAddr ≤ u.badEnd ∧ u.badEnd < addr + (i + 1)) → (∀ r ∈ u.reports, r.kind = .undef) →
        (∀ r ∈ u.reports ++ u.pending, Truthful (wrong f c sh) addr (addr + (i + 1)) r) →
        (((∀ b, addr ≤ b → b < addr + (i + 1) → wrong f c sh b ≠ some .unaddr) ∧
            u.kind = .undef) ∨
          (u.kind = .unaddr ∧ First (wrong f c sh) addr u.badAddr ∧
            u.badEnd + 1 - u.badAddr ≤ 4)) →
        (Live f c addr sh (i + 1) t ∧ t.stop = false) := by
      intro u a1 a2 a3 a4 a5 a6 a7 a8 b1 b2 b3 b4 b5 b6 b7
      refine ⟨⟨a6.trans b2, habove, ?_, fun _ => a8.trans b1, ?_, by rw [a1]; exact b5,
        by rw [a1, a7]; exact b6, ?_⟩, a6.trans b2⟩
      · rw [a8, b1]
        simp only [Bool.false_eq_true, false_iff]
        exact fun hall => hall i (by omega) hsp
      · intro _; rw [a4, a5]; exact b4
      · rcases b7 with ⟨c1, c2⟩ | ⟨c1, c2, c3⟩
        · exact .inl ⟨c1, fun _ => a3.trans c2⟩
        · exact .inr ⟨a2.trans b3, a3.trans c1, by rw [a4]; exact c2, by rw [a4, a5]; exact c3⟩
    -- the end
    have hdead : s.found = true → s.kind = .unaddr →
        s.bad f k (addr + i) = { s.flush with found := false, stop := true } →
        (Dead f c addr sz sh t ∧ t.stop = true) := by
      intro hfo hku hb
      have hp : s.pending = [⟨s.kind, s.badAddr, s.badEnd + 1 - s.badAddr⟩] := by
        unfold St.pending; rw [if_pos hfo]
      rw [hb] at e1 e2 e6 hgood
      have er : t.reports = s.reports ++ s.pending := by rw [e1, hp]; rfl
      refine ⟨⟨?_, ⟨i, hi, hsp⟩, e2, ?_, ?_⟩, e6⟩
      · rw [hgood]
        exact h.foundBad hfo
      · rw [er]
        exact fun r hr => (h.truth r hr).mono (by omega)
      · rcases h.state with ⟨h1, h2⟩ | ⟨h1, h2, h3, h4⟩
        · rw [h2 hfo] at hku; cases hku
        · exact ⟨s.reports, s.badAddr, _, by rw [er, hp, hku], h3, h4, h.undef⟩
    by_cases hfo : s.found = true
    · have hp : s.pending = [⟨s.kind, s.badAddr, s.badEnd + 1 - s.badAddr⟩] := by
        unfold St.pending; rw [if_pos hfo]
      have hord := h.order hfo
      have htr := h.truth
      rw [hp] at htr
      have hbs : s.bad f k (addr + i) =
        if s.kind ≠ k then
          if s.kind = .unaddr ∧ f.abort = true then { s.flush with found := false, stop := true }
          else s.flush.start k (addr + i)
        else if s.badEnd < addr + i - 1 ∨ (k = .unaddr ∧ f.abort = true ∧
            s.badEnd + 1 - s.badAddr ≥ abortAfter) then
          if k = .unaddr ∧ f.abort = true then { s.flush with found := false, stop := true }
          else s.flush.start k (addr + i)
        else { s with badEnd := addr + i, good := false } := by
        unfold St.bad; rw [if_pos hfo]
      -- a new range after a range of undefined bytes
      have hnew : s.kind = .undef → s.bad f k (addr + i) = s.flush.start k (addr + i) →
          (Live f c addr sh (i + 1) t ∧ t.stop = false) := by
        intro hku hb
        refine hlive (s.bad f k (addr + i)) e1 e2 e3 e4 e5 e6 hpend hgood ?_ ?_ ?_ ?_ ?_ ?_ ?_
        all_goals rw [hb]
        · rfl
        · exact h.stop
        · rfl
        · exact ⟨Nat.le_refl _, by dsimp only [St.start]; omega⟩
        · intro r hr
          rcases List.mem_append.1 hr with hr | hr
          · exact h.undef r hr
          · rw [List.mem_singleton.1 hr]; exact hku
        · intro r hr
          rcases List.mem_append.1 hr with hr | hr
          · exact (htr r hr).mono (by omega)
          · have : r = ⟨k, addr + i, 1⟩ := by
              have hr' := List.mem_singleton.1 hr
              rw [hr']
              simp [St.start]
            rw [this]
            exact hone
        · rcases h.state with ⟨h1, h2⟩ | ⟨h1, h2, h3, h4⟩
          · cases k with
            | undef =>
              left
              refine ⟨?_, rfl⟩
              intro b hb1 hb2
              by_cases hb : b = addr + i
              · rw [hb, hw]; simp
              · exact h1 b hb1 (by omega)
            | unaddr =>
              right
              refine ⟨rfl, ⟨Nat.le_add_right .., hw, fun b hb1 hb2 => h1 b hb1 hb2⟩, ?_⟩
              dsimp only [St.start]
              omega
          · rw [hku] at h2; cases h2
      -- an extended range
      have hext : s.kind = k → s.badEnd + 1 = addr + i →
          (k = .unaddr → s.badEnd + 1 - s.badAddr < 4) →
          s.bad f k (addr + i) = { s with badEnd := addr + i, good := false } →
          (Live f c addr sh (i + 1) t ∧ t.stop = false) := by
        intro hkk hcont hsz hb
        have hlast := htr ⟨s.kind, s.badAddr, s.badEnd + 1 - s.badAddr⟩ (by simp)
        refine hlive (s.bad f k (addr + i)) e1 e2 e3 e4 e5 e6 hpend hgood ?_ ?_ ?_ ?_ ?_ ?_ ?_
        all_goals rw [hb]
        · exact h.stop
        · exact hfo
        · exact ⟨by dsimp only; omega, by dsimp only; omega⟩
        · exact h.undef
        · intro r hr
          rcases List.mem_append.1 hr with hr | hr
          · exact (htr r (List.mem_append_left _ hr)).mono (by omega)
          · unfold St.pending at hr
            dsimp only at hr
            rw [if_pos hfo] at hr
            rw [List.mem_singleton.1 hr]
            obtain ⟨l1, l2, l3, l4⟩ := hlast
            dsimp only at l1 l2 l3 l4
            refine ⟨by dsimp only; omega, l2, by dsimp only; omega, ?_⟩
            intro b hb1 hb2
            dsimp only at hb1 hb2 ⊢
            by_cases hbb : b = addr + i
            · rw [hbb, hw, hkk]
            · exact l4 b hb1 (by omega)
        · rcases h.state with ⟨h1, h2⟩ | ⟨h1, h2, h3, h4⟩
          · left
            refine ⟨?_, h2 hfo⟩
            intro b hb1 hb2
            by_cases hb : b = addr + i
            · rw [hb, hw, ← hkk, h2 hfo]; simp
            · exact h1 b hb1 (by omega)
          · right
            have := hsz (hkk.symm.trans h2)
            exact ⟨h2, h3, by dsimp only; omega⟩
      by_cases hkk : s.kind = k
      · rw [if_neg (show ¬ s.kind ≠ k from fun hh => hh hkk)] at hbs
        by_cases hcond : s.badEnd < addr + i - 1 ∨ (k = .unaddr ∧ f.abort = true ∧
            s.badEnd + 1 - s.badAddr ≥ abortAfter)
        · rw [if_pos hcond] at hbs
          cases k with
          | unaddr =>
            rw [if_pos ⟨rfl, hf⟩] at hbs
            exact .inr (hdead hfo hkk hbs)
          | undef =>
            rw [if_neg (by simp)] at hbs
            exact .inl (hnew hkk hbs)
        · rw [if_neg hcond] at hbs
          refine .inl (hext hkk ?_ ?_ hbs)
          · have : ¬ s.badEnd < addr + i - 1 := fun hh => hcond (.inl hh)
            omega
          · intro hku
            have : ¬ s.badEnd + 1 - s.badAddr ≥ abortAfter := fun hh => hcond (.inr ⟨hku, hf, hh⟩)
            unfold abortAfter at this
            omega
      · rw [if_pos hkk] at hbs
        cases hku : s.kind with
        | unaddr =>
          rw [if_pos ⟨hku, hf⟩] at hbs
          exact .inr (hdead hfo hku hbs)
        | undef =>
          rw [if_neg (by rw [hku]; simp)] at hbs
          exact .inl (hnew hku hbs)
    · have hfo' : s.found = false := by simpa using hfo
      have hp : s.pending = [] := by unfold St.pending; rw [if_neg hfo]
      have hb : s.bad f k (addr + i) = s.start k (addr + i) := by
        unfold St.bad; rw [if_neg hfo]
      left
      have htr := h.truth
      rw [hp, List.append_nil] at htr
      refine hlive (s.bad f k (addr + i)) e1 e2 e3 e4 e5 e6 hpend hgood ?_ ?_ ?_ ?_ ?_ ?_ ?_
      all_goals rw [hb]
      · rfl
      · exact h.stop
      · rfl
      · exact ⟨Nat.le_refl _, by dsimp only [St.start]; omega⟩
      · exact h.undef
      · intro r hr
        rcases List.mem_append.1 hr with hr | hr
        · exact (htr r hr).mono (by omega)
        · have : r = ⟨k, addr + i, 1⟩ := by
            have hr' := List.mem_singleton.1 hr
            rw [hr']
            simp [St.start]
          rw [this]
          exact hone
      · rcases h.state with ⟨h1, h2⟩ | ⟨h1, h2, h3, h4⟩
        · cases k with
          | undef =>
            left
            refine ⟨?_, rfl⟩
            intro b hb1 hb2
            by_cases hb : b = addr + i
            · rw [hb, hw]; simp
            · exact h1 b hb1 (by omega)
          | unaddr =>
            right
            refine ⟨rfl, ⟨Nat.le_add_right .., hw, fun b hb1 hb2 => h1 b hb1 hb2⟩, ?_⟩
            dsimp only [St.start]
            omega
        · rw [hfo'] at h1; cases h1

/-- C50: a reference that aborts (the arguments of system calls) returns false exactly
if some byte is wrong, although it does not look at all bytes; all its reports are
true; and if there is an unaddressable byte, the last report is for the first such
byte and up to three more. -/
theorem C50_abort {f : Flags} {c : Conf} (hf : f.abort = true) (hc : c.map4 = false)
    (val : Nat → Sh) (addr sz : Nat) (sh : Nat → Sh) :
    let s := memRef f c val addr sz sh
    (s.good = true ↔ ∀ j < sz, ¬ spoilt f c sh (addr + j)) ∧
    (∀ r ∈ s.reports, Truthful (wrong f c sh) addr (addr + sz) r) ∧
    (((∀ b, addr ≤ b → b < addr + sz → wrong f c sh b ≠ some .unaddr) ∧
        ∀ r ∈ s.reports, r.kind = .undef) ∨
      ∃ R a n, s.reports = R ++ [⟨.unaddr, a, n⟩] ∧ First (wrong f c sh) addr a ∧ n ≤ 4 ∧
        ∀ r ∈ R, r.kind = .undef) := by
  have h0 : Live f c addr sh 0 (St.init sh) := by
    refine ⟨rfl, fun _ _ => rfl, by simp [St.init], fun h => (by cases h),
      fun h => (by cases h), fun r hr => (by cases hr), fun r hr => (by cases hr),
      .inl ⟨fun b h1 h2 => (by omega), fun h => (by cases h)⟩⟩
  obtain ⟨g1, g2, g3, g4⟩ := memRef_fields f c val addr sz sh
  dsimp only
  rw [g1, g3]
  rcases loop_ind' hc (P := fun i s => Live f c addr sh i s) (Q := Dead f c addr sz sh)
    (fun i s hi h => live_step (val := val) hf hc hi h) sz 0 _ (by omega) h0 with h | h
  · refine ⟨h.good, h.truth, ?_⟩
    rcases h.state with ⟨h1, h2⟩ | ⟨h1, h2, h3, h4⟩
    · left
      refine ⟨h1, ?_⟩
      intro r hr
      rcases List.mem_append.1 hr with hr | hr
      · exact h.undef r hr
      · unfold St.pending at hr
        split at hr
        · rename_i hfo
          rw [List.mem_singleton.1 hr]
          exact h2 hfo
        · cases hr
    · right
      refine ⟨_, _, _, ?_, h3, h4, h.undef⟩
      unfold St.pending
      rw [if_pos h1, h2]
  · have hp : (loop f c val addr sz sz 0 (St.init sh)).pending = [] := by
      unfold St.pending; rw [h.found]; rfl
    rw [hp, List.append_nil]
    refine ⟨?_, h.truth, .inr h.last⟩
    rw [h.good]
    simp only [Bool.false_eq_true, false_iff]
    intro hall
    obtain ⟨j, hj, hsp⟩ := h.spoilt
    exact hall j hj hsp

end Verif.MemRef
