import Verif.FuzzDriverCorpusRun

/-!
# The fuzzing driver with a corpus: the properties (C71)
-/

namespace Verif.FuzzDriver

/-! ## Before the pass -/

/-- A thread that has not started a pass. -/
structure Unused {M : Type} (x : T M) : Prop where
  rep : x.rep = false
  idx : x.idx = 0
  bbs : x.bbs = 0
  ci : x.ci = 0
  mi : x.mi = 0
  should : x.should = false
  orig : x.useOrig = false

/-- The fuzzing thread is in its pass. -/
def passing {M : Type} (s : St M) (t : Nat) : Prop :=
  s.owner = some t ∧ s.busy t = true ∧ (s.th t).skip = 0

/-- Before the corpus pass nothing has been collected. -/
def Before {M : Type} (s : St M) : Prop :=
  s.enabled = true → (∀ t, ¬ passing s t) →
    s.vec = [] ∧ s.dumps = [] ∧ s.allocs = s.frees ∧ ∀ t, Unused (s.th t)

theorem unused_ran {M : Type} {x : T M} (h : Unused x) (e : Eff) : Unused (ran x e) :=
  ⟨h.rep, h.idx, h.bbs, h.ci, h.mi, h.should, h.orig⟩

theorem unused_skip {M : Type} {x : T M} (h : Unused x) (k : Nat) : Unused { x with skip := k } :=
  ⟨h.rep, h.idx, h.bbs, h.ci, h.mi, h.should, h.orig⟩

/-- What the driver's inner functions leave alone. -/
def Fr {M : Type} (s s' : St M) (t : Nat) : Prop :=
  s'.owner = s.owner ∧ s'.busy = s.busy ∧ (s'.th t).skip = (s.th t).skip ∧ s'.enabled = s.enabled

theorem Fr.trans {M : Type} {s s1 s2 : St M} {t : Nat} (h : Fr s s1 t) (k : Fr s1 s2 t) : Fr s s2 t :=
  ⟨k.1.trans h.1, k.2.1.trans h.2.1, k.2.2.1.trans h.2.2.1, k.2.2.2.trans h.2.2.2⟩

theorem fr_set {M : Type} (s : St M) (t : Nat) (x : T M) (h : x.skip = (s.th t).skip) :
    Fr s (s.set t x) t := ⟨rfl, rfl, by rw [set_th, h], rfl⟩

theorem fr_mutExit {M : Type} (s : St M) (t : Nat) : Fr s (mutExit s t) t := by
  unfold mutExit
  split
  · exact ⟨rfl, rfl, rfl, rfl⟩
  · exact fr_set s t _ rfl

theorem fr_mutInit {M : Type} (L : Lib M) (c : Cfg) (s s' : St M) (t : Nat)
    (h : mutInit L c s t = .ok s') : Fr s s' t := by
  unfold mutInit at h
  split at h
  · simp at h
  · simp only [Except.ok.injEq] at h
    subst h
    exact (fr_mutExit s t).trans (fr_set (mutExit s t) t _ rfl)

theorem skip_init {M : Type} (c : Cfg) (x : T M) (b : Bool) : (shadowInit c x b).skip = x.skip := by
  unfold shadowInit
  split
  · split <;> rfl
  · rfl

theorem skip_restore {M : Type} (c : Cfg) (x : T M) : (shadowRestore c x).skip = x.skip := by
  unfold shadowRestore
  split
  · split <;> rfl
  · rfl

theorem skip_next {M : Type} (L : Lib M) (c : Cfg) (x y : T M) (h : mutNext L c x = .ok y) :
    y.skip = x.skip := by
  unfold mutNext at h
  split at h
  · simp at h
  · split at h
    · injection h with h; rw [← h]
    · split at h
      · simp at h
      · split at h
        · injection h with h; rw [← h]
        · split at h
          · injection h with h; rw [← h]
          · simp at h

theorem fr_empty {M : Type} (L : Lib M) (c : Cfg) (s s' : St M) (t : Nat) (files : List File)
    (h : corpusEmpty L c s t files = .ok s') : Fr s s' t := by
  unfold corpusEmpty at h
  split at h
  · split at h
    · simp at h
    · rename_i s1 h1
      injection h with h
      subst h
      exact (Fr.trans (fr_set s t { s.th t with useOrig := true } rfl) (fr_mutInit L c _ s1 t h1)).trans
        (fr_set s1 t _ (skip_init c _ _))
  · injection h with h
    subst h
    exact fr_set s t _ rfl

theorem fr_loaded {M : Type} (L : Lib M) (c : Cfg) (s s' : St M) (t : Nat) (b : List Byte) (g : Bool)
    (ci : Nat) (h : corpusLoaded L c s t b g ci = .ok s') : Fr s s' t := by
  unfold corpusLoaded at h
  simp only at h
  split at h
  · simp at h
  · rename_i s1 h1
    injection h with h
    subst h
    refine (Fr.trans (s1 := if g then { s.set t { s.th t with buf := some b, ci := ci, mutr := none } with
      allocs := s.allocs + 1, frees := s.frees + 1 } else
      s.set t { s.th t with buf := some b, ci := ci, mutr := none }) ?_
      (fr_mutInit L c _ s1 t h1)).trans (fr_set s1 t _ ?_)
    · cases g
      · exact fr_set s t _ rfl
      · exact fr_set s t { s.th t with buf := some b, ci := ci, mutr := none } rfl
    · simp only
      split
      · exact skip_restore c _
      · exact skip_init c _ _

theorem fr_pre {M : Type} (L : Lib M) (c : Cfg) (s s' : St M) (t : Nat) (files : List File) (o : Obs)
    (h : preCorpus L c s t files = .ok (s', o)) : Fr s s' t := by
  unfold preCorpus at h
  split at h
  · simp at h
  · rename_i s1 h1
    split at h
    · simp at h
    · rename_i s2 h2
      injection h with h
      injection h with h _
      subst h
      refine Fr.trans (s1 := s1) ?_ ?_
      · unfold corpusPhase at h1
        simp only at h1
        split at h1
        · injection h1 with h1; subst h1; exact ⟨rfl, rfl, rfl, rfl⟩
        · split at h1
          · simp at h1
          · split at h1
            · exact fr_loaded L c s s1 t _ _ _ h1
            · rename_i k _
              exact Fr.trans (fr_set s t { s.th t with ci := (s.th t).ci + k } rfl)
                (fr_empty L c _ s1 t files h1)
      · unfold mutatePhase at h2
        simp only at h2
        split at h2
        · split at h2
          · simp at h2
          · split at h2
            · simp at h2
            · rename_i x1 hx
              injection h2 with h2
              subst h2
              have := skip_next L c _ x1 hx
              exact fr_set s1 t _ ((skip_restore c x1).trans this)
        · injection h2 with h2; subst h2; exact ⟨rfl, rfl, rfl, rfl⟩

theorem fr_collect {M : Type} (L : Lib M) (c : Cfg) (s s' : St M) (t : Nat) (n : Option Nat)
    (h : collect L c s t n = .ok s') : Fr s s' t := by
  unfold collect at h
  simp only at h
  split at h
  · injection h with h; subst h; exact ⟨rfl, rfl, rfl, rfl⟩
  · split at h
    · split at h
      · simp at h
      · injection h with h
        subst h
        split
        · exact fr_set s t _ rfl
        · exact fr_set s t _ rfl
    · split at h
      · split at h
        · simp at h
        · split at h
          · simp at h
          · rename_i m' s1 h1
            injection h with h
            subst h
            have hs1 : Fr s s1 t := by
              unfold copied at h1
              split at h1
              · injection h1 with h1
                injection h1 with _ h1
                subst h1
                exact ⟨rfl, rfl, rfl, rfl⟩
              · split at h1
                · simp at h1
                · injection h1 with h1
                  injection h1 with _ h1
                  subst h1
                  exact ⟨rfl, rfl, rfl, rfl⟩
            refine hs1.trans ?_
            refine ⟨rfl, rfl, ?_, rfl⟩
            rw [set_th]
            exact hs1.2.2.1.symm
      · injection h with h
        subst h
        exact fr_set s t _ rfl

/-- A return in the pass either goes on or disables the target. -/
theorem fr_post {M : Type} (L : Lib M) (c : Cfg) (s s' : St M) (t : Nat) (n : Option Nat) (r : Bool)
    (h : postCorpus L c s t n = .ok (s', r)) :
    (r = true ∧ (s'.th t).rep = true ∧ Fr s s' t) ∨ (r = false ∧ s'.enabled = false) := by
  unfold postCorpus at h
  split at h
  · simp at h
  · rename_i s1 h1
    have := fr_collect L c s s1 t n h1
    simp only at h
    split at h
    · split at h
      · injection h with h
        injection h with h1 h2
        subst h1; subst h2
        refine Or.inl ⟨rfl, by rw [set_th], this.trans ?_⟩
        exact Fr.trans (fr_set s1 t { s1.th t with idx := (s1.th t).idx + 1 } rfl) (fr_set _ t _ rfl)
      · injection h with h
        injection h with h1 h2
        subst h1; subst h2
        exact Or.inr ⟨rfl, rfl⟩
    · injection h with h
      injection h with h1 h2
      subst h1; subst h2
      exact Or.inr ⟨rfl, rfl⟩

theorem before_passing {M : Type} {s : St M} {t : Nat} (h : passing s t) : Before s :=
  fun _ hn => absurd h (hn t)

theorem before_step {M : Type} (L : Lib M) (c : Cfg) (files : List File)
    (hc : c.corpus = some files) (s s' : St M) (o : List (Nat × Obs)) (e : Ev) (h : Before s)
    (hs : step L c s e = .ok (s', o)) : Before s' := by
  by_cases hx : ∃ t, passing s t ∧ e.thread ≠ t
  · obtain ⟨t, ht, het⟩ := hx
    obtain ⟨th', busy', o', h1, h2, h3, _⟩ := other_step L c s t e ht.1 het
    rw [hs] at h1
    injection h1 with h1
    injection h1 with h1 _
    subst h1
    exact before_passing (t := t) ⟨ht.1, h3.trans ht.2.1, by simp only [h2]; exact ht.2.2⟩
  · cases e with
    | call t b sh =>
      simp only [step] at hs
      split at hs
      · injection hs with hs; injection hs with hs _; subst hs; exact h
      · rename_i hbt
        have hnp : ∀ u, ¬ passing s u := by
          intro u hu
          by_cases hut : t = u
          · subst hut; exact hbt hu.2.1
          · exact hx ⟨u, hu, hut⟩
        split at hs
        · simp at hs
        · rename_i s1 o1 hp
          injection hs with hs; injection hs with hs _; subst hs
          unfold pre at hp
          simp only at hp
          split at hp
          · rename_i hcond
            injection hp with hp; injection hp with hp _; subst hp
            intro hen hn
            exact h hen hnp
          · rename_i hcond
            have hq : ¬ (s.enabled = false) ∧ ¬ ((s.th t).skip > 0) ∧ some (s.owner.getD t) = some t :=
              ⟨fun k => hcond (Or.inl k), fun k => hcond (Or.inr (Or.inl k)),
                by
                  by_cases k : some (s.owner.getD t) = some t
                  · exact k
                  · exact absurd (Or.inr (Or.inr k)) hcond⟩
            split at hp
            · rw [hc] at hp
              simp only at hp
              have := fr_pre L c _ s1 t files o1 hp
              refine before_passing (t := t) ⟨?_, ?_, ?_⟩
              · show s1.owner = some t
                rw [this.1]; exact hq.2.2
              · simp [St.mark]
              · show (s1.th t).skip = 0
                rw [this.2.2.1]
                have := hq.2.1
                show (s.th t).skip = 0
                omega
            · split at hp
              · injection hp with hp; injection hp with hp _; subst hp
                intro hen hn
                obtain ⟨k1, k2, k3, k4⟩ := h hen hnp
                refine ⟨k1, k2, k3, fun u => ?_⟩
                simp only [St.mark, St.set]
                split
                · exact unused_skip (k4 t) _
                · exact k4 u
              · rw [hc] at hp
                simp only at hp
                have := fr_pre L c _ s1 t files o1 hp
                refine before_passing (t := t) ⟨?_, ?_, ?_⟩
                · show s1.owner = some t
                  rw [this.1]
                  unfold takeBuffer
                  split <;> exact hq.2.2
                · simp [St.mark]
                · show (s1.th t).skip = 0
                  rw [this.2.2.1]
                  have := hq.2.1
                  unfold takeBuffer
                  split <;> simp [St.set] <;> omega
    | done t e =>
      simp only [step] at hs
      split at hs
      · rename_i hbt
        split at hs
        · simp at hs
        · rename_i s1 hp
          injection hs with hs; injection hs with hs _; subst hs
          unfold post at hp
          simp only at hp
          split at hp
          · rename_i hcond
            injection hp with hp; injection hp with hp _; subst hp
            intro hen hn
            have hnp : ∀ u, ¬ passing s u := by
              intro u hu
              by_cases hut : t = u
              · subst hut
                rcases hcond with k | k
                · have k' : s.enabled = false := k
                  rw [show s.enabled = true from hen] at k'; simp at k'
                · exact k hu.1
              · exact hx ⟨u, hu, hut⟩
            obtain ⟨k1, k2, k3, k4⟩ := h hen hnp
            refine ⟨k1, k2, k3, fun u => ?_⟩
            simp only [St.mark, St.set]
            split
            · exact unused_ran (k4 t) _
            · exact k4 u
          · split at hp
            · rename_i hsk
              injection hp with hp; injection hp with hp _; subst hp
              intro hen hn
              have hnp : ∀ u, ¬ passing s u := by
                intro u hu
                by_cases hut : t = u
                · subst hut
                  have := hu.2.2
                  simp only [set_th, ran] at hsk
                  omega
                · exact hx ⟨u, hu, hut⟩
              obtain ⟨k1, k2, k3, k4⟩ := h hen hnp
              refine ⟨k1, k2, k3, fun u => ?_⟩
              simp only [St.mark, St.set, if_true]
              split
              · exact unused_skip (unused_ran (k4 t) _) _
              · exact k4 u
            · rw [hc] at hp
              simp only at hp
              rcases fr_post L c _ s1 t _ _ hp with k | k
              · simp at k
              · intro hen
                rw [show s1.enabled = true from hen] at k
                simp at k
        · rename_i s1 hp
          split at hs
          · simp at hs
          · rename_i s2 o2 hq
            injection hs with hs; injection hs with hs _; subst hs
            unfold post at hp
            simp only at hp
            split at hp
            · simp at hp
            · rename_i hcond
              split at hp
              · simp at hp
              · rename_i hsk
                rw [hc] at hp
                simp only at hp
                rcases fr_post L c _ s1 t _ _ hp with k | k
                · obtain ⟨_, k0, k1, k2, k3, k4⟩ := k
                  have ho1 : s1.owner = some t := by
                    rw [k1]
                    by_cases hoo : s.owner = some t
                    · exact hoo
                    · exact absurd (Or.inr hoo) hcond
                  have hs1 : (s1.th t).skip = 0 := by rw [k3]; simp only [set_th] at hsk ⊢; omega
                  have hb1 : s1.busy t = true := by rw [k2]; exact hbt
                  have he1 : s1.enabled = true := by
                    rw [k4]
                    by_cases hoo : s.enabled = true
                    · exact hoo
                    · exact absurd (Or.inl (show s.enabled = false by simpa using hoo)) hcond
                  have h1 : ({ s1 with owner := some (s1.owner.getD t) } : St M) = s1 := by
                    rw [ho1, Option.getD_some, ← ho1]
                  unfold pre at hq
                  simp only [h1] at hq
                  rw [if_neg (by simp [he1, ho1, hs1])] at hq
                  split at hq
                  · rw [hc] at hq
                    simp only at hq
                    have := fr_pre L c _ s2 t files o2 hq
                    exact before_passing (t := t) ⟨this.1.trans ho1, by rw [this.2.1]; exact hb1,
                      this.2.2.1.trans hs1⟩
                  · rename_i hrep
                    exact absurd k0 hrep
                · simp at k
      · injection hs with hs; injection hs with hs _; subst hs; exact h

theorem before_run {M : Type} (L : Lib M) (c : Cfg) (files : List File)
    (hc : c.corpus = some files) (evs : List Ev) (s s' : St M) (o : List (Nat × Obs)) (h : Before s)
    (hs : run L c s evs = .ok (s', o)) : Before s' := by
  induction evs generalizing s o with
  | nil =>
    simp only [run, Except.ok.injEq, Prod.mk.injEq] at hs
    rw [← hs.1]; exact h
  | cons e es ih =>
    simp only [run] at hs
    split at hs
    · simp at hs
    · rename_i s1 o1 h1
      split at hs
      · simp at hs
      · rename_i s2 o2 h2
        simp only [Except.ok.injEq, Prod.mk.injEq] at hs
        obtain ⟨rfl, _⟩ := hs
        exact ih s1 o2 (before_step L c files hc s s1 o1 e h h1) h2

theorem before_init {M : Type} (c : Cfg) : Before (St.init M c) :=
  fun _ _ => ⟨rfl, rfl, rfl, fun _ => ⟨rfl, rfl, rfl, rfl, rfl, rfl, rfl⟩⟩

/-! ## The pass -/

/-- The blocks reached when iteration `k` has returned. -/
def blocks (effs : Nat → Eff) (k : Nat) : Nat := (effs k).bbs.getD 0

/-- The machine in iteration `k`. -/
def passAt {M : Type} (L : Lib M) (c : Cfg) (files : List File) (b : List Byte) (effs : Nat → Eff) :
    Nat → Pass M
  | 0 => Pass.next L c b { left := readable files, cur := L.start b }
  | k + 1 => (passAt L c files b effs k).step L c (foundAt b effs (k + 1)) (blocks effs k)

/-- The shadow of iteration `k`: the arguments as in the call, and the input all
defined. -/
def cShAt (c : Cfg) (sh : Sh) (n : Nat) (effs : Nat → Eff) (k : Nat) : Sh :=
  if c.uninit then { sh with buf := List.replicate n 0 }
  else match k with
    | 0 => sh
    | k + 1 => (effs k).sh

theorem corpus_start {M : Type} {L : Lib M} {size : M → Nat} (hL : L.Ok size) (c : Cfg) (hw : Whole c)
    (files : List File) (hc : c.corpus = some files) (sh : Sh) (b : List Byte) (hne : b ≠ [])
    (hf : Fits c files b.length) (hr : readable files ≠ []) (s : St M) (t : Nat)
    (hbusy : s.busy t = false) (hen : s.enabled = true) (how : s.owner = none ∨ s.owner = some t)
    (hsk : (s.th t).skip = 0) (hu : Unused (s.th t)) (hv : s.vec = []) (hd : s.dumps = [])
    (ha : s.allocs = s.frees) (effs : Nat → Eff) :
    ∃ s', step L c s (.call t b sh) = .ok (s', [(t, ⟨true, (passAt L c files b effs 0).bytes,
        cSh c sh b.length sh⟩)]) ∧
      CAt size c files sh b.length s' t 0 (passAt L c files b effs 0) := by
  obtain ⟨d, ds, hds⟩ := List.exists_cons_of_ne_nil hr
  obtain ⟨_, hn2⟩ := nextFile_eq c b hne files hf
  obtain ⟨k, k1, k2, k3, k4⟩ := hn2 d ds hds
  have hol := overlay_length b d
  have hown : some (s.owner.getD t) = some t := by rcases how with k | k <;> simp [k]
  have hp : passAt L c files b effs 0 =
      { left := ds, cur := L.start (overlay b d), bytes := overlay b d } := by
    simp [passAt, Pass.next, hds]
  rw [hp]
  generalize hs1 : takeBuffer c (({ s with owner := some t } : St M).set t
    { s.th t with sh := sh }) t b = s1
  have hth : s1.th t = { s.th t with sh := sh, buf := some b } := by
    rw [← hs1]; unfold takeBuffer; simp only; split <;> simp [St.set]
  have hv1 : s1.vec = [] := by rw [← hs1]; unfold takeBuffer; simp only; split <;> exact hv
  have hd1 : s1.dumps = [] := by rw [← hs1]; unfold takeBuffer; simp only; split <;> exact hd
  have ho1 : s1.owner = some t := by rw [← hs1]; unfold takeBuffer; simp only; split <;> rfl
  have he1 : s1.enabled = true := by rw [← hs1]; unfold takeBuffer; simp only; split <;> exact hen
  have ha1 : s1.allocs = s1.frees + if c.replace then 1 else 0 := by
    rw [← hs1]; unfold takeBuffer; simp only; split
    · exact congrArg (· + 1) ha
    · exact ha
  obtain ⟨y, y0, y1, y2, y3, y4, y5, y6, y7, y8, y9, y10, y11⟩ := pre_file L c s1 t files b
    (overlay b d) k sh (by rw [hth]; exact hu.should) (by rw [hth])
    (by rw [hth]; simp only [hu.ci, List.drop_zero]; exact k1) hol
    (Or.inr ⟨by rw [hth]; exact hu.rep, by rw [hth]⟩)
  have hpre : pre L c s t b sh = preCorpus L c s1 t files := by
    unfold pre
    simp only [hown]
    rw [if_neg (by simp [hen, hsk]), if_neg (by simp [hu.rep]), if_neg (by
      have := hw.1
      have : 0 < b.length := List.length_pos_iff.2 hne
      omega), hc]
    simp only [hs1]
  have hs' : ({ s1.set t y with started := s1.started + 1 } : St M).th t = y := set_th s1 t y
  refine ⟨({ s1.set t y with started := s1.started + 1 } : St M).mark t true, ?_, ?_⟩
  · simp only [step, hbusy, Bool.false_eq_true, if_false, hpre, y0, hth]
  · have hm : (({ s1.set t y with started := s1.started + 1 } : St M).mark t true).th t = y := hs'
    refine { core := ?_, busy := by simp [St.mark], enabled := he1, owner := ho1, idx := fun _ => ?_,
             buf := ?_, len := hol, vec := fun h => by simp at h }
    · constructor
      · exact hv1
      · exact hd1
      · exact ha1
      · rw [hm, y6, hth]; exact hsk
      · rw [hm, y3, whole_window c hw]
      · rw [hm, y2]
      · rw [hm, y5, hth]; exact hu.mi
      · rw [hm, y9, hth]; exact hu.bbs
      · rw [hm, y10, hth]; exact hu.orig
      · rw [hm]; exact y11
      · intro _
        rw [hm, y4, hth]
        simp only [hu.ci, Nat.zero_add]
        exact k3
      · intro m hm; simp at hm
      · exact (hL.start _).trans hol
      · exact Or.inr ⟨rfl, rfl⟩
    · rw [hm, y7, hth]; exact hu.idx
    · rw [hm, y1]

theorem corpus_mid {M : Type} {L : Lib M} {size : M → Nat} (hL : L.Ok size) (c : Cfg) (hw : Whole c)
    (files : List File) (hc : c.corpus = some files) (hfne : files ≠ []) (sh : Sh) (b : List Byte)
    (hn : 0 < b.length) (hf : Fits c files b.length) (t : Nat) (effs : Nat → Eff)
    (hbb : ∀ k, (effs k).bbs.isSome) (evs : List Ev) (s : St M) (k r : Nat)
    (h : CAt size c files sh b.length s t k (passAt L c files b effs k))
    (hev : evs.filter (fun e => e.thread == t) =
      (List.range r).map (fun i => Ev.done t (effs (k + i))))
    (hk : (k : Int) + r < c.iters ∨ r = 0) :
    ∃ s' os, run L c s evs = .ok (s', os) ∧
      CAt size c files sh b.length s' t (k + r) (passAt L c files b effs (k + r)) ∧
      os.filter (fun p => p.1 == t) = (List.range r).map (fun i =>
        (t, ⟨true, (passAt L c files b effs (k + 1 + i)).bytes, cShAt c sh b.length effs (k + 1 + i)⟩)) ∧
      ∀ p ∈ os, p.1 ≠ t → ∃ b sh, Ev.call p.1 b sh ∈ evs ∧ p.2 = ⟨false, b, sh⟩ := by
  induction evs generalizing s k r with
  | nil =>
    have hr : r = 0 := by
      simp only [List.filter_nil] at hev
      have := congrArg List.length hev
      simpa using this.symm
    subst hr
    exact ⟨s, [], rfl, h, by simp, by simp⟩
  | cons e es ih =>
    by_cases he : e.thread = t
    · rw [List.filter_cons_of_pos (by simp [he])] at hev
      cases r with
      | zero => simp at hev
      | succ r =>
        rw [List.range_succ_eq_map, List.map_cons, List.map_map] at hev
        injection hev with hev1 hev2
        simp only [Nat.add_zero] at hev1
        subst hev1
        obtain ⟨nb, hnb⟩ := Option.isSome_iff_exists.1 (hbb k)
        have haf : after (effs k).bytes (passAt L c files b effs k).bytes = foundAt b effs (k + 1) :=
          after_congr _ _ _ h.len
        obtain ⟨s1, hy, hAt⟩ := corpus_again hL c hw files hc hfne sh b.length hn hf s t k _ h
          (effs k) nb hnb (by omega)
        have hbl : blocks effs k = nb := by simp [blocks, hnb]
        rw [haf, ← hbl] at hy hAt
        obtain ⟨s2, o2, k1, k2, k3, k4⟩ := ih s1 (k + 1) r hAt
          (by
            rw [hev2]
            apply List.map_congr_left
            intro i _
            simp only [Function.comp_apply, Nat.succ_eq_add_one]
            rw [show k + (i + 1) = k + 1 + i by omega])
          (by omega)
        refine ⟨s2, _ :: o2, by simp [run, hy, k1]; rfl,
          by rw [show k + (r + 1) = k + 1 + r by omega]; exact k2, ?_, ?_⟩
        · rw [List.filter_cons_of_pos (by simp), k3, List.range_succ_eq_map, List.map_cons,
            List.map_map]
          congr 1
          apply List.map_congr_left
          intro i _
          simp only [Function.comp_apply, Nat.succ_eq_add_one]
          rw [show k + 1 + (i + 1) = k + 1 + 1 + i by omega]
        · intro p hp hpt
          rcases List.mem_cons.1 hp with hp | hp
          · exact absurd (by rw [hp]) hpt
          · obtain ⟨b, sh', e1, e2⟩ := k4 p hp hpt
            exact ⟨b, sh', by simp [e1], e2⟩
    · rw [List.filter_cons_of_neg (by simp [he])] at hev
      obtain ⟨th', busy', o, h1, h2, h3, h4⟩ := other_step L c s t e h.owner he
      have hAt : CAt size c files sh b.length { s with th := th', busy := busy' } t k
          (passAt L c files b effs k) :=
        { core := by
            have hcore := h.core
            constructor
            · exact hcore.vec
            · exact hcore.dumps
            · exact hcore.held
            · simp only [h2]; exact hcore.skip
            · simp only [h2]; exact hcore.mutr
            · simp only [h2]; exact hcore.should
            · simp only [h2]; exact hcore.mi
            · simp only [h2]; exact hcore.bbs
            · simp only [h2]; exact hcore.orig
            · simp only [h2]; exact hcore.saved
            · simp only [h2]; exact hcore.left
            · exact hcore.sizes
            · exact hcore.scur
            · exact hcore.turn
          busy := h3.trans h.busy
          enabled := h.enabled
          owner := h.owner
          idx := by simp only [h2]; exact h.idx
          buf := by simp only [h2]; exact h.buf
          len := h.len
          vec := h.vec }
      obtain ⟨s2, o2, k1, k2, k3, k4⟩ := ih { s with th := th', busy := busy' } k r hAt hev hk
      refine ⟨s2, o ++ o2, by simp [run, h1, k1], k2, ?_, ?_⟩
      · rw [List.filter_append, k3]
        have : o.filter (fun p => p.1 == t) = [] := by
          rw [List.filter_eq_nil_iff]
          intro p hp
          simpa using (h4 p hp).1
        rw [this, List.nil_append]
      · intro p hp hpt
        rcases List.mem_append.1 hp with hp | hp
        · obtain ⟨_, b, sh', e1, e2⟩ := h4 p hp
          exact ⟨b, sh', by rw [e1]; simp, e2⟩
        · obtain ⟨b, sh', e1, e2⟩ := k4 p hp hpt
          exact ⟨b, sh', by simp [e1], e2⟩

/-- **A pass with a corpus.**  The whole buffer is mutated, no file is larger than the
buffer (or the files are cut), and one at least can be read.  After any history, the
first call that is fuzzed runs as iterations 0, 1, ..., `iters - 1`, whatever the
target leaves and other threads do in between: iteration `k` runs on the bytes of
`passAt k` with the arguments' shadow of the call and an input all defined; no write goes past
a block and no null is used; after the last one, the target is not fuzzed any more,
the replacement buffer is released, and the dumped inputs are those of the machine. -/
theorem C71_corpus_partial {M : Type} {L : Lib M} {size : M → Nat} (hL : L.Ok size) (c : Cfg)
    (hw : Whole c) (files : List File) (hc : c.corpus = some files) (hist : List Ev) (s : St M)
    (os0 : List (Nat × Obs)) (hrun : run L c (St.init M c) hist = .ok (s, os0)) (t : Nat)
    (b : List Byte) (sh : Sh) (hidle : ∀ u, ¬ passing s u) (hbusy : s.busy t = false)
    (hen : s.enabled = true) (how : s.owner = none ∨ s.owner = some t) (hsk : (s.th t).skip = 0)
    (hne : b ≠ []) (hf : Fits c files b.length) (hr : readable files ≠ []) (effs : Nat → Eff)
    (hbb : ∀ k, (effs k).bbs.isSome) (k : Nat) (hk : (k : Int) < c.iters ∨ k = 0) (evs : List Ev)
    (hev : evs.filter (fun e => e.thread == t) = (List.range k).map (fun i => Ev.done t (effs i))) :
    ∃ s' os, run L c s (.call t b sh :: evs) = .ok (s', os) ∧
      os.filter (fun p => p.1 == t) = (List.range (k + 1)).map (fun j =>
        (t, ⟨true, (passAt L c files b effs j).bytes, cShAt c sh b.length effs j⟩)) ∧
      (∀ p ∈ os, p.1 ≠ t → ∃ b sh, Ev.call p.1 b sh ∈ evs ∧ p.2 = ⟨false, b, sh⟩) ∧
      s'.busy t = true ∧
      (c.iters ≤ (k : Int) + 1 →
        ∃ s'', step L c s' (.done t (effs k)) = .ok (s'', []) ∧ s''.busy t = false ∧
          s''.enabled = false ∧ s''.allocs = s''.frees ∧ (s''.th t).buf = none ∧
          s''.dumps = (passAt L c files b effs (k + 1)).dumps) := by
  have hfne : files ≠ [] := by
    intro h0; subst h0; exact hr rfl
  have hn : 0 < b.length := List.length_pos_iff.2 hne
  obtain ⟨v1, v2, v3, v4⟩ := before_run L c files hc hist _ s os0 (before_init c) hrun hen hidle
  obtain ⟨s1, e1, e2⟩ := corpus_start hL c hw files hc sh b hne hf hr s t hbusy hen how hsk (v4 t) v1 v2
    v3 effs
  obtain ⟨s2, o2, k1, k2, k3, k4⟩ := corpus_mid hL c hw files hc hfne sh b hn hf t effs hbb evs s1 0 k e2
    (by simpa using hev) (by omega)
  rw [Nat.zero_add] at k2
  refine ⟨s2, _ :: o2, by simp [run, e1, k1]; rfl, ?_, ?_, k2.busy, ?_⟩
  · rw [List.filter_cons_of_pos (by simp), k3, List.range_succ_eq_map, List.map_cons, List.map_map]
    congr 1
    apply List.map_congr_left
    intro i _
    simp only [Function.comp_apply, Nat.succ_eq_add_one]
    rw [show 0 + 1 + i = i + 1 by omega]
  · intro p hp hpt
    rcases List.mem_cons.1 hp with hp | hp
    · exact absurd (by rw [hp]) hpt
    · exact k4 p hp hpt
  · intro hstop
    obtain ⟨nb, hnb⟩ := Option.isSome_iff_exists.1 (hbb k)
    have haf : after (effs k).bytes (passAt L c files b effs k).bytes = foundAt b effs (k + 1) :=
      after_congr _ _ _ k2.len
    obtain ⟨z, z1, z2, z3, z4, z5, z6, z7⟩ := corpus_stop hL c hw files hc sh b.length s2 t k _ k2
      (effs k) nb hnb hstop
    refine ⟨z, z1, z2, z3, z4, z5, ?_⟩
    have hbl : blocks effs k = nb := by simp [blocks, hnb]
    have hnd : ∀ (p : Pass M) (b : List Byte), (p.next L c b).dumps = p.dumps := by
      intro p b
      unfold Pass.next
      split
      · rfl
      · split <;> rfl
    rw [z7, passAt, Pass.step, hnd, haf, hbl]

end Verif.FuzzDriver
