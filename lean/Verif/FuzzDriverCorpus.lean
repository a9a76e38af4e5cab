import Verif.FuzzDriverProps

/-!
# The fuzzing driver with a corpus (C71)

The corpus phase runs the target once on every file that can be read, in order; then
the mutators that were started on these inputs take turns; an input that reaches new
blocks is dumped and gets a mutator of its own.  This holds when the whole buffer is
mutated and no file is larger than it: see `FuzzDriverWrong` for the other cases.
-/

namespace Verif.FuzzDriver

/-! ## Files -/

/-- The files that can be read and are not empty. -/
def readable : List File → List (List Byte)
  | [] => []
  | none :: fs => readable fs
  | some d :: fs => if d = [] then readable fs else d :: readable fs

/-- The files fit in a buffer of this size, or are cut to it. -/
def Fits (c : Cfg) (files : List File) (n : Nat) : Prop :=
  c.replace = false ∨ ∀ d, some d ∈ files → d.length ≤ n

/-- A file read into a buffer: cut to the buffer, and the rest of the buffer stays. -/
def overlay (b d : List Byte) : List Byte := d.take b.length ++ b.drop d.length

theorem overlay_length (b d : List Byte) : (overlay b d).length = b.length := by
  simp [overlay]; omega

theorem load_fit (c : Cfg) (b d : List Byte) (hb : b ≠ []) (hd : d ≠ [])
    (hf : c.replace = false ∨ d.length ≤ b.length) :
    load c (some d) b = some (overlay b d, false) := by
  have h1 : b.length ≠ 0 := fun h => hb (List.eq_nil_of_length_eq_zero h)
  have h2 : d.length ≠ 0 := fun h => hd (List.eq_nil_of_length_eq_zero h)
  unfold load
  simp only
  cases hr : c.replace with
  | true =>
    have hle : d.length ≤ b.length := by
      rcases hf with h | h
      · simp [hr] at h
      · exact h
    rw [if_pos rfl, if_neg h2, if_neg (by omega)]
    simp [overlay, splice, List.take_of_length_le hle]
  | false =>
    rw [if_neg (by simp), if_neg (by omega)]
    simp only [overlay, splice, List.take_zero, List.nil_append, Nat.zero_add, List.length_take,
      Option.some.injEq, Prod.mk.injEq, and_true, List.append_cancel_left_eq]
    by_cases hle : b.length ≤ d.length
    · rw [Nat.min_eq_left hle, List.drop_of_length_le (Nat.le_refl _), List.drop_of_length_le hle]
    · rw [Nat.min_eq_right (by omega)]

/-- The next file that is loaded is the next readable one. -/
theorem nextFile_eq (c : Cfg) (b : List Byte) (hb : b ≠ []) (fs : List File)
    (hf : Fits c fs b.length) :
    (readable fs = [] → nextFile c b fs = (none, fs.length)) ∧
    ∀ d ds, readable fs = d :: ds → ∃ k, nextFile c b fs = (some (overlay b d, false), k) ∧
      k ≤ fs.length ∧ readable (fs.drop k) = ds ∧ d ≠ [] := by
  induction fs with
  | nil => exact ⟨fun _ => rfl, fun d ds h => by simp [readable] at h⟩
  | cons f fs ih =>
    have hf' : Fits c fs b.length := by
      rcases hf with h | h
      · exact Or.inl h
      · exact Or.inr (fun d hd => h d (by simp [hd]))
    obtain ⟨ih1, ih2⟩ := ih hf'
    have skip : load c f b = none → readable (f :: fs) = readable fs →
        ((readable (f :: fs) = [] → nextFile c b (f :: fs) = (none, (f :: fs).length)) ∧
        ∀ d ds, readable (f :: fs) = d :: ds → ∃ k,
          nextFile c b (f :: fs) = (some (overlay b d, false), k) ∧
          k ≤ (f :: fs).length ∧ readable ((f :: fs).drop k) = ds ∧ d ≠ []) := by
      intro hl hr
      rw [hr]
      refine ⟨fun h => ?_, fun d ds h => ?_⟩
      · simp [nextFile, hl, ih1 h]
      · obtain ⟨k, k1, k2, k3, k4⟩ := ih2 d ds h
        exact ⟨k + 1, by simp [nextFile, hl, k1], by simp; omega, by simpa using k3, k4⟩
    cases f with
    | none => exact skip rfl rfl
    | some d0 =>
      by_cases hd0 : d0 = []
      · subst hd0
        exact skip (by unfold load; simp) (by simp [readable])
      · refine ⟨fun h => ?_, fun d ds h => ?_⟩
        · simp [readable, hd0] at h
        · simp only [readable, hd0, if_false, List.cons.injEq] at h
          obtain ⟨rfl, rfl⟩ := h
          refine ⟨1, ?_, by simp, by simp, hd0⟩
          have := load_fit c b d0 hb hd0 (by
            rcases hf with h | h
            · exact Or.inl h
            · exact Or.inr (h d0 (by simp)))
          simp [nextFile, this]

/-! ## One iteration -/

/-- The whole buffer is mutated. -/
def Whole (c : Cfg) : Prop := c.offset = 0 ∧ c.fixed = 0

theorem whole_window (c : Cfg) (h : Whole c) (b : List Byte) : window c b = b := by
  simp [window, windowLen, h.1, h.2]

theorem whole_len (c : Cfg) (h : Whole c) (n : Nat) : windowLen c n = n := by
  simp [windowLen, h.1, h.2]

/-- The saved shadow of a corpus pass: arguments of the call, buffer to be marked
defined. -/
def CSaved {M : Type} (c : Cfg) (sh : Sh) (x : T M) : Prop :=
  c.uninit = true → x.saved = some ⟨sh.regs, sh.frame, none⟩

/-- The shadow an iteration of a corpus pass starts with. -/
def cSh (c : Cfg) (sh : Sh) (n : Nat) (now : Sh) : Sh :=
  if c.uninit then { sh with buf := List.replicate n 0 } else now

theorem cRestore {M : Type} (c : Cfg) (sh : Sh) (x : T M) (b : List Byte) (hb : x.buf = some b)
    (hs : CSaved c sh x) : shadowRestore c x = { x with sh := cSh c sh b.length x.sh } := by
  unfold shadowRestore cSh
  cases hu : c.uninit with
  | false => simp
  | true =>
    rw [if_pos rfl, hs hu, if_pos rfl]
    simp [allDefined, hb]

theorem cInit {M : Type} (c : Cfg) (x : T M) (b : List Byte) (hb : x.buf = some b) :
    CSaved c x.sh (shadowInit c x false) ∧
    shadowInit c x false = { x with saved := (shadowInit c x false).saved,
                                    sh := cSh c x.sh b.length x.sh } := by
  unfold shadowInit cSh CSaved
  cases hu : c.uninit with
  | false => simp
  | true => simp [allDefined, hb]

/-- The corpus phase loads a file. -/
theorem pre_file {M : Type} (L : Lib M) (c : Cfg) (s : St M) (t : Nat) (files : List File)
    (b b' : List Byte) (k : Nat) (sh : Sh) (hsh : (s.th t).should = false) (hb : (s.th t).buf = some b)
    (hn : nextFile c b (files.drop (s.th t).ci) = (some (b', false), k))
    (hlen : b'.length = b.length)
    (hs : ((s.th t).rep = true ∧ CSaved c sh (s.th t)) ∨ ((s.th t).rep = false ∧ (s.th t).sh = sh)) :
    ∃ y, preCorpus L c s t files = .ok ({ s.set t y with started := s.started + 1 },
        ⟨true, b', cSh c sh b.length (s.th t).sh⟩) ∧
      y.buf = some b' ∧ y.should = false ∧ y.mutr = some (L.start (window c b')) ∧
      y.ci = (s.th t).ci + k ∧ y.mi = (s.th t).mi ∧ y.skip = (s.th t).skip ∧ y.idx = (s.th t).idx ∧
      y.rep = (s.th t).rep ∧ y.bbs = (s.th t).bbs ∧ y.useOrig = (s.th t).useOrig ∧ CSaved c sh y := by
  let x1 : T M := { s.th t with buf := some b', ci := (s.th t).ci + k,
                                mutr := some (L.start (window c b')) }
  have hph : corpusPhase L c s t files =
      .ok ({ s.set t { (if x1.rep then shadowRestore c x1 else shadowInit c x1 false) with
               should := false } with started := s.started + 1 }) := by
    unfold corpusPhase
    simp only [hsh, Bool.false_eq_true, if_false, hb, hn, corpusLoaded, mutInit, set_th, mutExit]
    simp only [St.set, x1]
    congr 2
    funext u
    by_cases hu : u = t <;> simp [hu, hsh]
  have hmu : ∀ z : T M, z.should = false → ∀ s1 : St M, s1.th t = z →
      mutatePhase L c s1 t = .ok s1 := by
    intro z hz s1 h1
    unfold mutatePhase
    simp [h1, hz]
  refine ⟨{ (if x1.rep then shadowRestore c x1 else shadowInit c x1 false) with should := false },
    ?_, ?_⟩
  · unfold preCorpus
    rw [hph]
    simp only
    rw [hmu { (if x1.rep then shadowRestore c x1 else shadowInit c x1 false) with should := false }
      rfl _ (by simp [St.set])]
    simp only [St.set, if_true, seen]
    rcases hs with ⟨h1, h2⟩ | ⟨h1, h2⟩
    · have := cRestore c sh x1 b' rfl h2
      simp only [x1, h1, if_true] at this ⊢
      rw [this]
      simp [hlen]
    · have := (cInit c x1 b' rfl).2
      simp only [x1, h1] at this ⊢
      simp only [Bool.false_eq_true, if_false]
      rw [this]
      simp [hlen, h2]
  · rcases hs with ⟨h1, h2⟩ | ⟨h1, h2⟩
    · have := cRestore c sh x1 b' rfl h2
      simp only [x1, h1, if_true] at this ⊢
      rw [this]
      and_intros
      all_goals first
        | trivial
        | rfl
        | exact fun hu => h2 hu
    · have := cInit c x1 b' rfl
      have h3 := this.1
      have h4 := this.2
      simp only [x1, h1, h2] at h3 h4 ⊢
      simp only [Bool.false_eq_true, if_false]
      rw [h4]
      and_intros
      all_goals first
        | trivial
        | rfl
        | exact fun hu => by simpa using h3 hu

/-- The mutate phase: the next mutator in turn gives a value. -/
theorem turn_ok {M : Type} {L : Lib M} {size : M → Nat} (hL : L.Ok size) (c : Cfg) (hw : Whole c)
    (s : St M) (t : Nat) (b : List Byte) (m : M) (sh : Sh) (hne : b ≠ [])
    (hsh : (s.th t).should = true) (hb : (s.th t).buf = some b)
    (hm : s.vec[(s.th t).mi]? = some m) (hsz : size m = b.length) (hs : CSaved c sh (s.th t)) :
    mutatePhase L c s t = .ok { s.set t { s.th t with
        mutr := some (stepM L c m), buf := some (putVal L c m b),
        mi := if (s.th t).mi + 1 ≥ s.vec.length then 0 else (s.th t).mi + 1,
        sh := cSh c sh b.length (s.th t).sh } with
      vec := s.vec.set (s.th t).mi (stepM L c m) } := by
  have hvne : s.vec ≠ [] := by
    intro h; simp [h] at hm
  have ho : c.offset < b.length := by
    rw [hw.1]
    exact Nat.pos_of_ne_zero (fun h => hne (List.eq_nil_of_length_eq_zero h))
  have hsz' : size m = windowLen c b.length := by rw [whole_len c hw]; exact hsz
  unfold mutatePhase
  have hx := mutNext_eq hL c ({ s.th t with
    mutr := some m,
    mi := if (s.th t).mi + 1 ≥ s.vec.length then 0 else (s.th t).mi + 1 } : T M) m b hb rfl ho hsz'
  refine (if_pos ⟨hsh, hvne⟩).trans ?_
  rw [hm]
  simp only
  rw [hx]
  simp only
  have hr := cRestore c sh ({ s.th t with
    mutr := some (stepM L c m), buf := some (putVal L c m b),
    mi := if (s.th t).mi + 1 ≥ s.vec.length then 0 else (s.th t).mi + 1 } : T M)
    (putVal L c m b) rfl (fun hu => hs hu)
  rw [putVal_length hL c m b ho hsz'] at hr
  rw [hr]
  rfl

theorem pre_turn {M : Type} {L : Lib M} {size : M → Nat} (hL : L.Ok size) (c : Cfg) (hw : Whole c)
    (s : St M) (t : Nat) (files : List File) (b : List Byte) (m : M) (sh : Sh) (hne : b ≠ [])
    (hsh : (s.th t).should = true ∨ (files ≠ [] ∧ ∃ k, nextFile c b (files.drop (s.th t).ci) = (none, k)))
    (hb : (s.th t).buf = some b)
    (hm : s.vec[(s.th t).mi]? = some m) (hsz : size m = b.length) (hs : CSaved c sh (s.th t)) :
    ∃ y, preCorpus L c s t files = .ok ({ s.set t y with
        vec := s.vec.set (s.th t).mi (stepM L c m) },
        ⟨true, putVal L c m b, cSh c sh b.length (s.th t).sh⟩) ∧
      y.buf = some (putVal L c m b) ∧ y.should = true ∧ y.mutr = some (stepM L c m) ∧
      y.mi = (if (s.th t).mi + 1 ≥ s.vec.length then 0 else (s.th t).mi + 1) ∧
      y.skip = (s.th t).skip ∧ y.idx = (s.th t).idx ∧
      y.rep = (s.th t).rep ∧ y.bbs = (s.th t).bbs ∧ y.useOrig = (s.th t).useOrig ∧ CSaved c sh y := by
  have hvne : s.vec ≠ [] := by
    intro h; simp [h] at hm
  by_cases h1 : (s.th t).should = true
  · have hph : corpusPhase L c s t files = .ok s := by
      unfold corpusPhase; simp [h1]
    have := turn_ok hL c hw s t b m sh hne h1 hb hm hsz hs
    refine ⟨{ s.th t with
        mutr := some (stepM L c m), buf := some (putVal L c m b),
        mi := if (s.th t).mi + 1 ≥ s.vec.length then 0 else (s.th t).mi + 1,
        sh := cSh c sh b.length (s.th t).sh }, ?_, rfl, h1, rfl, rfl, rfl, rfl, rfl, rfl, rfl,
        fun hu => hs hu⟩
    · unfold preCorpus
      rw [hph]
      simp only
      rw [this]
      simp [seen, St.set]
  · have h1 : (s.th t).should = false := by simpa using h1
    rcases hsh with h2 | ⟨hfne, k, h2⟩
    · simp [h1] at h2
    · have hph : corpusPhase L c s t files =
          .ok (s.set t { s.th t with ci := (s.th t).ci + k, should := true }) := by
        unfold corpusPhase
        simp only [h1, Bool.false_eq_true, if_false, hb, h2, corpusEmpty]
        rw [if_neg (by
          rintro (h | h)
          · exact hfne h
          · exact hvne h)]
        simp only [set_th, set_set]
      generalize hs1 : s.set t { s.th t with ci := (s.th t).ci + k, should := true } = s1 at hph
      have hth : s1.th t = { s.th t with ci := (s.th t).ci + k, should := true } := by
        rw [← hs1, set_th]
      have hv : s1.vec = s.vec := by rw [← hs1]; rfl
      have := turn_ok hL c hw s1 t b m sh hne (by rw [hth]) (by rw [hth]; exact hb)
        (by rw [hth, hv]; exact hm) hsz (by rw [hth]; exact hs)
      refine ⟨{ s1.th t with
        mutr := some (stepM L c m), buf := some (putVal L c m b),
        mi := if (s1.th t).mi + 1 ≥ s1.vec.length then 0 else (s1.th t).mi + 1,
        sh := cSh c sh b.length (s1.th t).sh }, ?_, rfl, by rw [hth], rfl, by rw [hth, hv],
        by rw [hth], by rw [hth], by rw [hth], by rw [hth], by rw [hth], ?_⟩
      · unfold preCorpus
        rw [hph]
        simp only
        rw [this]
        have e2 : ∀ z, s1.set t z = s.set t z := fun z => by rw [← hs1, set_set]
        rw [e2]
        simp only [seen, St.set, if_true, hth, hv, Option.getD_some]
      · intro hu
        rw [hth]
        exact hs hu

end Verif.FuzzDriver
