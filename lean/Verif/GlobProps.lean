import Verif.Glob
/-!
# Properties C01 and C02: wildcard matching
-/
namespace Verif.Glob

/-! ## Helper lemmas -/

theorem fold_iff (ic : Bool) (a b : UInt8) : fold ic a = fold ic b ↔ ceq ic a b := by
  unfold fold ceq; cases ic <;> simp

theorem skipStarsN_spec (P : List UInt8) (n i : Nat) (hi : i ≤ P.length) (hn : P.length < n + i) :
    ∃ p, skipStarsN P n i = some p ∧ i ≤ p ∧ p ≤ P.length ∧
      (∀ j (h : j < P.length), i ≤ j → j < p → P[j] = star) ∧
      (∀ h : p < P.length, P[p] ≠ star) := by
  induction n generalizing i with
  | zero => omega
  | succ n ih =>
    rw [skipStarsN]
    rcases Nat.lt_or_eq_of_le hi with h | h
    · rw [rd_lt h]
      by_cases hc : P[i] = star
      · simp only [hc, if_true]
        obtain ⟨p, h1, h2, h3, h4, h5⟩ := ih (i + 1) (by omega) (by omega)
        refine ⟨p, h1, by omega, h3, ?_, h5⟩
        intro j hj hij hjp
        by_cases hji : j = i
        · subst hji; exact hc
        · exact h4 j hj (by omega) hjp
      · simp only [hc, if_false]
        exact ⟨i, rfl, by omega, hi, by intro j _ _ _; omega, fun _ => hc⟩
    · subst h
      rw [rd_len]
      refine ⟨P.length, by simp [star], by omega, by omega, ?_, ?_⟩
      · intro j _ _ _; omega
      · intro h; omega

theorem skipStars_spec (P : List UInt8) (i : Nat) (hi : i ≤ P.length) :
    ∃ p, skipStars P i = some p ∧ i ≤ p ∧ p ≤ P.length ∧
      (∀ j (h : j < P.length), i ≤ j → j < p → P[j] = star) ∧
      (∀ h : p < P.length, P[p] ≠ star) :=
  skipStarsN_spec P _ i hi (by omega)

variable {eq : UInt8 → UInt8 → Prop}

theorem matches_star_iff (p t : List UInt8) :
    Matches eq (star :: p) t ↔ ∃ k, k ≤ t.length ∧ Matches eq p (t.drop k) := by
  constructor
  · intro h
    generalize hs : star :: p = q at h
    cases h with
    | nil => cases hs
    | @star p' t' w h =>
      cases hs
      exact ⟨w.length, by simp, by simpa using h⟩
    | quest c h => simp [star, quest] at hs
    | lit hc _ _ => cases hs; exact absurd rfl hc
  · rintro ⟨k, hk, h⟩
    have := Matches.star (eq := eq) (t.take k) h
    rwa [List.take_append_drop] at this

theorem matches_cons_iff {c : UInt8} (hc : c ≠ star) (p t : List UInt8) :
    Matches eq (c :: p) t ↔ ∃ d t', t = d :: t' ∧ (eq d c ∨ c = quest) ∧ Matches eq p t' := by
  constructor
  · intro h
    generalize hs : c :: p = q at h
    cases h with
    | nil => cases hs
    | star w h => cases hs; exact absurd rfl hc
    | @quest p' t' d h => cases hs; exact ⟨d, _, rfl, .inr rfl, h⟩
    | @lit p' t' c' d hc' he h => cases hs; exact ⟨d, _, rfl, .inl he, h⟩
  · rintro ⟨d, t', rfl, h | h, hm⟩
    · exact .lit hc h hm
    · subst h; exact .quest d hm

theorem matches_nil_iff (t : List UInt8) : Matches eq [] t ↔ t = [] := by
  constructor
  · intro h; cases h; rfl
  · rintro rfl; exact .nil

/-- Skipping a run of stars: matching from the first star equals matching the remainder at some
later position. -/
theorem matches_stars (P t : List UInt8) (i p : Nat) (hip : i < p) (hp : p ≤ P.length)
    (hst : ∀ j (h : j < P.length), i ≤ j → j < p → P[j] = star) :
    Matches eq (P.drop i) t ↔ ∃ k, k ≤ t.length ∧ Matches eq (P.drop p) (t.drop k) := by
  induction hn : p - i using Nat.strongRecOn generalizing i t with
  | _ n ih =>
    have hi : i < P.length := by omega
    rw [List.drop_eq_getElem_cons hi, hst i hi (by omega) hip, matches_star_iff]
    by_cases h1 : i + 1 = p
    · rw [h1]
    · constructor
      · rintro ⟨k, hk, h⟩
        rw [ih (p - (i + 1)) (by omega) (t := t.drop k) (i := i + 1) (by omega)
          (fun j hj h1 h2 => hst j hj (by omega) h2) rfl] at h
        obtain ⟨l, hl, h⟩ := h
        rw [List.drop_drop] at h
        simp at hl
        exact ⟨k + l, by omega, h⟩
      · rintro ⟨k, hk, h⟩
        refine ⟨k, hk, ?_⟩
        rw [ih (p - (i + 1)) (by omega) (t := t.drop k) (i := i + 1) (by omega)
          (fun j hj h1 h2 => hst j hj (by omega) h2) rfl]
        exact ⟨0, by omega, by simpa using h⟩

/-- A star-free segment of the pattern consumes exactly its own length of text. -/
theorem matches_seg (P : List UInt8) (m pl : Nat) (t : List UInt8) (hm : pl + m ≤ P.length)
    (hns : ∀ j (h : j < P.length), pl ≤ j → j < pl + m → P[j] ≠ star)
    (h : Matches eq (P.drop pl) t) :
    m ≤ t.length ∧ Matches eq (P.drop (pl + m)) (t.drop m) := by
  induction m generalizing pl t with
  | zero => exact ⟨by omega, by simpa using h⟩
  | succ m ih =>
    have hpl : pl < P.length := by omega
    rw [List.drop_eq_getElem_cons hpl, matches_cons_iff (hns pl hpl (by omega) (by omega))] at h
    obtain ⟨d, t', rfl, _, h⟩ := h
    have := ih (pl + 1) t' (by omega) (fun j hj h1 h2 => hns j hj (by omega) (by omega)) h
    refine ⟨by simp; omega, ?_⟩
    have e : pl + (m + 1) = pl + 1 + m := by omega
    rw [e]; simpa using this.2

/-- Loop invariant of `text_matches_pattern`. -/
def Inv (ic : Bool) (T P : List UInt8) (s : St) : Prop :=
  s.cur ≤ T.length ∧ s.pat ≤ P.length ∧
  match s.last with
  | none => (Matches (ceq ic) P T ↔ Matches (ceq ic) (P.drop s.pat) (T.drop s.cur))
  | some (tl, pl) => ∃ st, (tl = st ∨ tl = st + 1) ∧ pl ≤ s.pat ∧ s.cur = st + (s.pat - pl) ∧
      pl < P.length ∧
      (∀ j (h : j < P.length), pl ≤ j → j < s.pat → P[j] ≠ star) ∧
      (Matches (ceq ic) (P.drop pl) (T.drop st) ↔
        Matches (ceq ic) (P.drop s.pat) (T.drop s.cur)) ∧
      (Matches (ceq ic) P T ↔
        ∃ k, st ≤ k ∧ k ≤ T.length ∧ Matches (ceq ic) (P.drop pl) (T.drop k))

/-- Termination measure of the loop (lexicographic). -/
def meas (T P : List UInt8) (s : St) : Nat × Nat × Nat :=
  match s.last with
  | none => (P.length + 1, 0, T.length - s.cur)
  | some (tl, pl) => (P.length - pl, T.length + 1 - tl, T.length - s.cur)

/-- Under the invariant, if the text is exhausted then the whole match is decided by the rest of
the pattern; same at a trailing star. -/
theorem inv_current {ic : Bool} {T P : List UInt8} {s : St} (h : Inv ic T P s)
    (hend : s.cur = T.length) :
    Matches (ceq ic) P T ↔ Matches (ceq ic) (P.drop s.pat) (T.drop s.cur) := by
  obtain ⟨h1, h2, h3⟩ := h
  cases hl : s.last with
  | none => simpa [hl] using h3
  | some q =>
    obtain ⟨tl, pl⟩ := q
    simp only [hl] at h3
    obtain ⟨st, _, hp, hc, hpl, hns, hseg, hall⟩ := h3
    rw [hall, ← hseg]
    constructor
    · rintro ⟨k, hk, hk', hm⟩
      have := matches_seg P (s.pat - pl) pl (T.drop k) (by omega)
        (fun j hj a b => hns j hj a (by omega)) hm
      simp at this
      have : k = st := by omega
      subst this; exact hm
    · intro hm
      exact ⟨st, by omega, by omega, hm⟩

theorem step_ok {ic : Bool} {T P : List UInt8} (hT : (0 : UInt8) ∉ T) (hP : (0 : UInt8) ∉ P)
    (s : St) (h : Inv ic T P s) :
    (∀ s', step ic T P s = .inl s' → Inv ic T P s' ∧
      (inferInstance : WellFoundedRelation (Nat × Nat × Nat)).rel (meas T P s') (meas T P s)) ∧
    (∀ r, step ic T P s = .inr r → ∃ b, r = .ret b ∧ (b = true ↔ Matches (ceq ic) P T)) := by
  have hI := h
  obtain ⟨h1, h2, h3⟩ := h
  unfold step
  rcases Nat.lt_or_eq_of_le h1 with hc | hc
  · -- inside the text
    have hne : T[s.cur] ≠ 0 := fun e => hT (e ▸ List.getElem_mem hc)
    rw [rd_lt hc]
    simp only [hne, if_false]
    rcases Nat.lt_or_eq_of_le h2 with hp | hp
    · rw [rd_lt hp]
      have hpne : P[s.pat] ≠ 0 := fun e => hP (e ▸ List.getElem_mem hp)
      by_cases hs : P[s.pat] = star
      · -- star
        simp only [hs, if_true]
        obtain ⟨p, e1, e2, e3, e4, e5⟩ := skipStars_spec P (s.pat + 1) (by omega)
        rw [e1]
        have hstars : ∀ j (h : j < P.length), s.pat ≤ j → j < p → P[j] = star := by
          intro j hj a b
          by_cases hj' : j = s.pat
          · subst hj'; exact hs
          · exact e4 j hj (by omega) b
        have hcur : Matches (ceq ic) (P.drop s.pat) (T.drop s.cur) ↔
            ∃ k, s.cur ≤ k ∧ k ≤ T.length ∧ Matches (ceq ic) (P.drop p) (T.drop k) := by
          rw [matches_stars P _ s.pat p (by omega) e3 hstars]
          constructor
          · rintro ⟨k, hk, hm⟩
            rw [List.drop_drop] at hm
            simp at hk
            exact ⟨s.cur + k, by omega, by omega, hm⟩
          · rintro ⟨k, hk, hk', hm⟩
            refine ⟨k - s.cur, by simp; omega, ?_⟩
            rw [List.drop_drop]
            have : s.cur + (k - s.cur) = k := by omega
            rwa [this]
        have hall : Matches (ceq ic) P T ↔
            ∃ k, s.cur ≤ k ∧ k ≤ T.length ∧ Matches (ceq ic) (P.drop p) (T.drop k) := by
          rw [← hcur]
          cases hl : s.last with
          | none => simpa [hl] using h3
          | some q =>
            obtain ⟨tl, pl⟩ := q
            simp only [hl] at h3
            obtain ⟨st, _, hp', hc', hpl, hns, hseg, hall⟩ := h3
            rw [hall]
            constructor
            · rintro ⟨k, hk, hk', hm⟩
              obtain ⟨hlen, hm2⟩ := matches_seg P (s.pat - pl) pl (T.drop k) (by omega)
                (fun j hj a b => hns j hj a (by omega)) hm
              have e : pl + (s.pat - pl) = s.pat := by clear hall hcur; omega
              rw [e, List.drop_drop, matches_stars P _ s.pat p (by omega) e3 hstars] at hm2
              obtain ⟨l, hl', hm'⟩ := hm2
              rw [List.drop_drop] at hm'
              rw [List.length_drop] at hl' hlen
              rw [hcur]
              clear hall hcur hseg hI
              exact ⟨k + (s.pat - pl) + l, by omega, by omega, hm'⟩
            · intro hm
              rw [← hseg] at hm
              clear hall hcur
              exact ⟨st, by omega, by omega, hm⟩
        dsimp only
        rcases Nat.lt_or_eq_of_le e3 with hlt | hle
        · rw [rd_lt hlt]
          have hpne' : P[p] ≠ 0 := fun e => hP (e ▸ List.getElem_mem hlt)
          simp only [hpne', if_false]
          refine ⟨?_, by intro r hr; simp at hr⟩
          intro s' hs'
          simp at hs'
          subst hs'
          refine ⟨⟨h1, e3, s.cur, .inl rfl, by simp, by simp, hlt, ?_, by simp, hall⟩, ?_⟩
          · intro j hj a b; simp at b; omega
          · cases hl : s.last with
            | none =>
              simp only [meas, hl]
              exact Prod.Lex.left _ _ (by show P.length - p < P.length + 1; omega)
            | some q =>
              obtain ⟨tl, pl⟩ := q
              simp only [hl] at h3
              obtain ⟨st, _, hp', hc', hpl, _⟩ := h3
              simp only [meas, hl]
              exact Prod.Lex.left _ _ (by show P.length - p < P.length - pl; omega)
        · subst hle
          rw [rd_len]
          simp only [if_true]
          refine ⟨by intro s' hs'; simp at hs', ?_⟩
          intro r hr
          simp at hr
          subst hr
          refine ⟨true, rfl, ?_⟩
          rw [hall]
          refine ⟨fun _ => ⟨T.length, h1, Nat.le_refl _, ?_⟩, fun _ => rfl⟩
          simp; exact .nil
      · -- not a star
        simp only [hs, if_false]
        by_cases he : fold ic T[s.cur] = fold ic P[s.pat] ∨ P[s.pat] = quest
        · simp only [he, if_true]
          refine ⟨?_, by intro r hr; simp at hr⟩
          intro s' hs'
          simp at hs'
          subst hs'
          have hadv : Matches (ceq ic) (P.drop s.pat) (T.drop s.cur) ↔
              Matches (ceq ic) (P.drop (s.pat + 1)) (T.drop (s.cur + 1)) := by
            rw [List.drop_eq_getElem_cons hp, List.drop_eq_getElem_cons hc, matches_cons_iff hs]
            constructor
            · rintro ⟨d, t', e, _, hm⟩
              injection e with e1 e2
              rw [e2]; exact hm
            · intro hm
              refine ⟨_, _, rfl, ?_, hm⟩
              rw [← fold_iff]; exact he
          refine ⟨⟨by simp; omega, by simp; omega, ?_⟩, ?_⟩
          · cases hl : s.last with
            | none =>
              simp only [hl] at h3 ⊢
              rw [h3, hadv]
            | some q =>
              obtain ⟨tl, pl⟩ := q
              simp only [hl] at h3 ⊢
              obtain ⟨st, ht, hp', hc', hpl, hns, hseg, hall⟩ := h3
              refine ⟨st, ht, by omega, by clear hall; omega, hpl, ?_, hseg.trans hadv, hall⟩
              intro j hj a b
              by_cases hj' : j = s.pat
              · subst hj'; exact hs
              · exact hns j hj a (by omega)
          · simp only [meas]
            cases hl : s.last with
            | none => exact Prod.Lex.right _ (Prod.Lex.right _ (by show T.length - (s.cur+1) < T.length - s.cur; omega))
            | some q => exact Prod.Lex.right _ (Prod.Lex.right _ (by show T.length - (s.cur+1) < T.length - s.cur; omega))
        · simp only [he, if_false]
          have hfail : ¬ Matches (ceq ic) (P.drop s.pat) (T.drop s.cur) := by
            rw [List.drop_eq_getElem_cons hp, List.drop_eq_getElem_cons hc, matches_cons_iff hs]
            rintro ⟨d, t', e, h, hm⟩
            injection e with e1 e2
            subst e1
            rw [← fold_iff] at h
            exact he h
          cases hl : s.last with
          | none =>
            simp only [hl] at h3 ⊢
            refine ⟨by intro s' hs'; simp at hs', ?_⟩
            intro r hr
            simp at hr
            subst hr
            exact ⟨false, rfl, by rw [h3]; simpa using hfail⟩
          | some q =>
            obtain ⟨tl, pl⟩ := q
            simp only [hl] at h3 ⊢
            obtain ⟨st, ht, hp', hc', hpl, hns, hseg, hall⟩ := h3
            refine ⟨?_, by intro r hr; simp at hr⟩
            intro s' hs'
            simp at hs'
            subst hs'
            refine ⟨⟨by clear hall; simp; omega, by clear hall; simp; omega, tl, .inr rfl, by simp, by simp, hpl,
              by intro j hj a b; simp at b; omega, by simp, ?_⟩, ?_⟩
            · rw [hall]
              rcases ht with ht | ht
              · subst ht; exact Iff.rfl
              · subst ht
                constructor
                · rintro ⟨k, hk, hk', hm⟩
                  by_cases hks : k = st
                  · subst hks; exact absurd (hseg.1 hm) hfail
                  · exact ⟨k, by omega, hk', hm⟩
                · rintro ⟨k, hk, hk', hm⟩
                  exact ⟨k, by omega, hk', hm⟩
            · simp only [meas, hl]
              exact Prod.Lex.right _ (Prod.Lex.left _ _
                (by clear hall; show T.length + 1 - (tl + 1) < T.length + 1 - tl; omega))
    · -- pattern exhausted
      rw [hp, rd_len]
      have h0s : ¬ ((0 : UInt8) = star) := by decide
      have h0q : ¬ ((0 : UInt8) = quest) := by decide
      have hfold : ¬ (fold ic T[s.cur] = fold ic 0) := by
        rw [fold_iff]; unfold ceq
        cases ic
        · simpa using hne
        · simp only [if_true]
          intro e
          have h0 : toLower 0 = 0 := by decide
          rw [h0] at e
          unfold toLower at e
          split at e
          · rename_i hh
            have := congrArg UInt8.toNat e
            simp [UInt8.le_iff_toNat_le] at hh
            simp [UInt8.toNat_add] at this
            omega
          · exact hne e
      simp only [h0s, if_false, hfold, h0q, or_self]
      have hfail : ¬ Matches (ceq ic) (P.drop s.pat) (T.drop s.cur) := by
        rw [hp, List.drop_length, matches_nil_iff, List.drop_eq_nil_iff]; omega
      cases hl : s.last with
      | none =>
        simp only [hl] at h3 ⊢
        refine ⟨by intro s' hs'; simp at hs', ?_⟩
        intro r hr
        simp at hr
        subst hr
        exact ⟨false, rfl, by rw [h3]; simpa using hfail⟩
      | some q =>
        obtain ⟨tl, pl⟩ := q
        simp only [hl] at h3 ⊢
        obtain ⟨st, ht, hp', hc', hpl, hns, hseg, hall⟩ := h3
        refine ⟨?_, by intro r hr; simp at hr⟩
        intro s' hs'
        simp at hs'
        subst hs'
        refine ⟨⟨by clear hall; simp; omega, by clear hall; simp; omega, tl, .inr rfl, by simp, by simp, hpl,
          by intro j hj a b; simp at b; omega, by simp, ?_⟩, ?_⟩
        · rw [hall]
          rcases ht with ht | ht
          · subst ht; exact Iff.rfl
          · subst ht
            constructor
            · rintro ⟨k, hk, hk', hm⟩
              by_cases hks : k = st
              · subst hks; exact absurd (hseg.1 hm) hfail
              · exact ⟨k, by omega, hk', hm⟩
            · rintro ⟨k, hk, hk', hm⟩
              exact ⟨k, by omega, hk', hm⟩
        · simp only [meas, hl]
          exact Prod.Lex.right _ (Prod.Lex.left _ _
            (by clear hall; show T.length + 1 - (tl + 1) < T.length + 1 - tl; omega))
  · -- end of text
    rw [hc, rd_len]
    simp only [if_true]
    obtain ⟨p, e1, e2, e3, e4, e5⟩ := skipStars_spec P s.pat h2
    rw [e1]
    have hdec : Matches (ceq ic) P T ↔ p = P.length := by
      rw [inv_current hI hc, hc, List.drop_length]
      by_cases hsp : s.pat < p
      · rw [matches_stars P _ s.pat p hsp e3 e4]
        simp only [List.length_nil, Nat.le_zero_eq, List.drop_nil, exists_eq_left]
        rcases Nat.lt_or_eq_of_le e3 with hlt | hle
        · rw [List.drop_eq_getElem_cons hlt, matches_cons_iff (e5 hlt)]
          constructor
          · rintro ⟨_, _, e, _⟩; cases e
          · intro e; omega
        · subst hle; simp; exact .nil
      · have : s.pat = p := by omega
        rw [this]
        rcases Nat.lt_or_eq_of_le e3 with hlt | hle
        · rw [List.drop_eq_getElem_cons hlt, matches_cons_iff (e5 hlt)]
          constructor
          · rintro ⟨_, _, e, _⟩; cases e
          · intro e; omega
        · rw [hle]; simp; exact .nil
    dsimp only
    rcases Nat.lt_or_eq_of_le e3 with hlt | hle
    · rw [rd_lt hlt]
      have hpne : P[p] ≠ 0 := fun e => hP (e ▸ List.getElem_mem hlt)
      refine ⟨by intro s' hs'; simp at hs', ?_⟩
      intro r hr
      simp at hr
      subst hr
      refine ⟨P[p] == 0, rfl, ?_⟩
      rw [hdec]
      simp [hpne]; omega
    · subst hle
      rw [rd_len]
      refine ⟨by intro s' hs'; simp at hs', ?_⟩
      intro r hr
      simp at hr
      subst hr
      exact ⟨true, rfl, by rw [hdec]; simp⟩

/-! ## C01 -/

/-- **C01.**  For every text and pattern, `text_matches_pattern` terminates without reading outside
the two strings, and returns true iff the text is in the glob language of the pattern. -/
theorem C01_glob_exact (ic : Bool) (T P : List UInt8) (hT : (0 : UInt8) ∉ T) (hP : (0 : UInt8) ∉ P) :
    ∃ b, Returns ic T P b ∧ (b = true ↔ Matches (ceq ic) P T) := by
  obtain ⟨r, h1, b, rfl, hb⟩ := Runs.of_inv (step := step ic T P) (Inv ic T P)
    (fun r => ∃ b, r = .ret b ∧ (b = true ↔ Matches (ceq ic) P T)) (meas T P)
    (fun s s' hs he => (step_ok hT hP s hs).1 s' he)
    (fun s r hs he => (step_ok hT hP s hs).2 r he)
    ⟨0, 0, none⟩ ⟨by simp, by simp, by simp⟩
  exact ⟨b, h1, hb⟩

/-- The answer is unique: the function cannot also return the other value or go out of bounds. -/
theorem C01_glob_unique (ic : Bool) (T P : List UInt8) (b : Bool) (r : Res)
    (h : Returns ic T P b) (h' : Runs (step ic T P) ⟨0, 0, none⟩ r) : r = .ret b :=
  Runs.unique h' h

/-- Convert an ASCII string to bytes (for examples). -/
def bytes (s : String) : List UInt8 := s.toUTF8.toList

-- "lib*.so*" against "libfoo.so.6": needs backtracking over two stars
example : run false [108,105,98,102,46,115,46,115,111,46,54] [108,105,98,42,46,115,111,42] 100
    = some (.ret true) := by decide
-- '?' and case folding; and a failing one
example : run true [65,98,67] [97,63,99] 100 = some (.ret true) := by decide
example : run false [65,98,67] [97,63,99] 100 = some (.ret false) := by decide
example : (0 : UInt8) ∉ ([65,98,67] : List UInt8) := by decide

/-! ## C02 -/

theorem strlenAtN_spec (n : Nat) (M p rest : List UInt8) (i : Nat) (hp : (0 : UInt8) ∉ p)
    (hM : M.drop i = p ++ 0 :: rest) (hn : p.length < n) : strlenAtN M n i = some p.length := by
  induction n generalizing p i with
  | zero => omega
  | succ n ih =>
    have hi : i < M.length := by
      apply Decidable.byContradiction; intro h
      rw [List.drop_eq_nil_of_le (by omega)] at hM
      cases p <;> simp at hM
    rw [strlenAtN, rd_lt hi]
    have hd := List.drop_eq_getElem_cons hi
    rw [hM] at hd
    cases p with
    | nil =>
      simp only [List.nil_append, List.cons.injEq] at hd
      simp [← hd.1]
    | cons c p =>
      simp only [List.cons_append, List.cons.injEq] at hd
      have hc : M[i] ≠ 0 := by
        rw [← hd.1]; intro e; exact hp (by simp [e])
      simp only [hc, if_false]
      rw [ih p (i + 1) (fun h => hp (by simp [h])) hd.2.symm (by simp at hn; omega)]
      simp

/-- Walk over the encoded list starting at member `ps` of a list whose earlier members all fail. -/
theorem any_walk (f : List UInt8 → Bool) (pre ps : List (List UInt8))
    (hne : ∀ p ∈ ps, p ≠ []) (h0 : ∀ p ∈ ps, (0 : UInt8) ∉ p) :
    Runs (anyStep f (encode (pre ++ ps))) (encode pre).length
      (some ((ps.findIdx? f).map fun i => (encode (pre ++ ps.take i)).length)) := by
  induction ps generalizing pre with
  | nil =>
    refine Runs.step_inr ?_
    simp [anyStep, rd_len]
  | cons p ps ih =>
    have henc : ∀ a b : List (List UInt8), encode (a ++ b) = encode a ++ encode b := by
      intro a b
      induction a with
      | nil => rfl
      | cons x a iha => simp [encode, iha]
    have hd : (encode (pre ++ p :: ps)).drop (encode pre).length = p ++ 0 :: encode ps := by
      rw [henc]; simp [encode]
    have hpne := hne p (by simp)
    have hp0 := h0 p (by simp)
    have hlt : (encode pre).length < (encode (pre ++ p :: ps)).length := by
      rw [henc]; simp [encode]; omega
    have hlen : strlenAt (encode (pre ++ p :: ps)) (encode pre).length = some p.length :=
      strlenAtN_spec _ _ p (encode ps) _ hp0 hd (by rw [henc]; simp [encode]; omega)
    have hch : (encode (pre ++ p :: ps))[(encode pre).length] ≠ 0 := by
      intro e
      have := List.drop_eq_getElem_cons hlt
      rw [hd, e] at this
      cases p with
      | nil => exact hpne rfl
      | cons c p =>
        simp only [List.cons_append, List.cons.injEq] at this
        exact hp0 (by simp [this.1])
    have hstep : anyStep f (encode (pre ++ p :: ps)) (encode pre).length =
        if f p then .inr (some (some (encode pre).length))
        else .inl ((encode pre).length + p.length + 1) := by
      unfold anyStep
      rw [rd_lt hlt]
      simp only [hch, if_false, hlen]
      rw [hd]
      simp
    by_cases hf : f p
    · refine Runs.step_inr ?_
      rw [hstep]
      simp [hf, List.findIdx?_cons]
    · refine Runs.step_inl (s' := (encode pre).length + p.length + 1) (by rw [hstep]; simp [hf]) ?_
      have := ih (pre ++ [p]) (fun q hq => hne q (by simp [hq])) (fun q hq => h0 q (by simp [hq]))
      rw [List.append_assoc] at this
      have e : (encode (pre ++ [p])).length = (encode pre).length + p.length + 1 := by
        rw [henc]; simp [encode]; omega
      rw [e] at this
      simp only [List.singleton_append] at this
      have e2 : (List.findIdx? f (p :: ps)).map (fun i => (encode (pre ++ (p :: ps).take i)).length)
          = (List.findIdx? f ps).map (fun i => (encode (pre ++ [p] ++ ps.take i)).length) := by
        simp only [List.findIdx?_cons, hf]
        cases List.findIdx? f ps <;> simp
      rw [e2]; exact this

/-- **C02.**  For every list of non-empty patterns, the walk over its memory image stays in bounds,
stops, and finds a member iff the text matches some member; the member it stops at is the first
matching one (`c` is its offset in the memory image: the image of the earlier members).  `f p` stands
for the value returned by the call `text_matches_pattern(text, p, ignore_case)`. -/
theorem C02_any_pattern (ic : Bool) (T : List UInt8) (ps : List (List UInt8))
    (hT : (0 : UInt8) ∉ T) (hne : ∀ p ∈ ps, p ≠ []) (h0 : ∀ p ∈ ps, (0 : UInt8) ∉ p)
    (f : List UInt8 → Bool) (hf : ∀ p ∈ ps, Returns ic T p (f p)) :
    ∃ res : Option Nat, Runs (anyStep f (encode ps)) 0 (some res) ∧
      (res.isSome = true ↔ ∃ p ∈ ps, Matches (ceq ic) p T) ∧
      (∀ c, res = some c → ∃ pre p post, ps = pre ++ p :: post ∧ c = (encode pre).length ∧
        Matches (ceq ic) p T ∧ ∀ q ∈ pre, ¬ Matches (ceq ic) q T) := by
  have hiff : ∀ p ∈ ps, (f p = true ↔ Matches (ceq ic) p T) := by
    intro p hp
    obtain ⟨b, h1, h2⟩ := C01_glob_exact ic T p hT (h0 p hp)
    have := Runs.unique (hf p hp) h1
    injection this with this
    rw [this]; exact h2
  refine ⟨_, any_walk f [] ps hne h0, ?_, ?_⟩
  · simp only [Option.isSome_map, List.findIdx?_isSome, List.any_eq_true]
    constructor
    · rintro ⟨p, hp, h⟩; exact ⟨p, hp, (hiff p hp).1 h⟩
    · rintro ⟨p, hp, h⟩; exact ⟨p, hp, (hiff p hp).2 h⟩
  · intro c hc
    simp only [List.nil_append, Option.map_eq_some_iff] at hc
    obtain ⟨i, hi, rfl⟩ := hc
    rw [List.findIdx?_eq_some_iff_getElem] at hi
    obtain ⟨hlt, hfi, hbefore⟩ := hi
    refine ⟨ps.take i, ps[i], ps.drop (i + 1), ?_, rfl, ?_, ?_⟩
    · rw [← List.drop_eq_getElem_cons hlt, List.take_append_drop]
    · exact (hiff _ (List.getElem_mem hlt)).1 hfi
    · intro q hq hm
      obtain ⟨j, hj, rfl⟩ := List.getElem_of_mem hq
      rw [List.length_take] at hj
      have := hbefore j (by omega)
      rw [List.getElem_take] at hm
      exact this ((hiff _ (List.getElem_mem _)).2 hm)

-- two members "a*", "b": hypotheses are met, and the text "b" is found at offset 3
example : (∀ p ∈ ([[97, 42], [98]] : List (List UInt8)), p ≠ [] ∧ (0 : UInt8) ∉ p) := by decide
example : loop (anyStep (fun p => run false [98] p 50 == some (.ret true)) (encode [[97, 42], [98]])) 10 0
    = some (some (some 3)) := by decide

end Verif.Glob
