import Verif.HandleCheckExact
/-
C72: what the handle leak checker reports.
-/
namespace Verif.HandleCheck

/-- C72: no callstack is used after it has been freed and none is freed while the table of
callstacks holds it, whatever the threads do: every step of every run succeeds. -/
theorem C72_safe (op : Opts) (es : List Ev) (y : Sys) (hr : Run op Sys.init es y) (e : Ev)
    (he : enabled y e) : ∃ y1, step op y e = some y1 := by
  obtain ⟨y1, h, _⟩ := step_ok op y e (run_inv op inv_init hr) he
  exact ⟨y1, h⟩

theorem dropEnts_ok (l : List (Key × Nat)) : ∀ st, st.ents = l → Refs st (fun _ => 0) →
    ∃ st', dropEnts l st = some st' ∧ Refs st' (fun _ => 0) ∧ st'.ents = [] ∧ st'.pairs = st.pairs ∧
      st'.pend = st.pend ∧ st'.reps = st.reps := by
  -- the entries go one after the other
  have key : ∀ (l : List (Key × Nat)) (st : St), Refs { st with ents := l } (fun _ => 0) →
      ∃ st', dropEnts l st = some st' ∧ Refs st' (fun _ => 0) ∧ st'.ents = [] ∧ st'.pairs = st.pairs ∧
      st'.pend = st.pend ∧ st'.reps = st.reps := by
    intro l
    induction l with
    | nil => intro st h; exact ⟨_, rfl, h, rfl, rfl, rfl, rfl⟩
    | cons e r ih =>
      intro st h
      obtain ⟨k, s⟩ := e
      have h1 : Refs { st with ents := r } (fun y => 0 + one s y) := by
        intro y
        have a := h y
        have b : total { st with ents := (k, s) :: r } y = total { st with ents := r } y + one s y := by
          have e1 : live { st with ents := (k, s) :: r } y = live { st with ents := r } y + one s y := by
            unfold live one
            rw [List.countP_cons]
            by_cases e : y = s
            · simp [e]
            · have e' : ¬ s = y := fun h => e h.symm
              simp [e, e']
          have e2 : underway { st with ents := (k, s) :: r } y = underway { st with ents := r } y := rfl
          have e3 : opened { st with ents := (k, s) :: r } y = opened { st with ents := r } y := rfl
          have e4 : closed { st with ents := (k, s) :: r } y = closed { st with ents := r } y := rfl
          unfold total
          omega
        dsimp only at a ⊢
        omega
      obtain ⟨rf, h2, h3⟩ := dropRef_ok { st with ents := r } (fun _ => 0) s h1
      have h4 : dropRef s st = some { st with ref := rf } := by
        unfold dropRef at h2 ⊢
        dsimp only at h2
        by_cases hle : st.ref s ≤ 1
        · rw [if_pos hle] at h2; cases h2
        · rw [if_neg hle] at h2 ⊢
          have := Option.some.inj h2
          have hrf : setRef st.ref s (st.ref s - 1) = rf := congrArg St.ref this
          rw [hrf]
      unfold dropEnts
      rw [h4]
      obtain ⟨st', g1, g2, g3, g4, g5, g6⟩ := ih { st with ref := rf } h3
      exact ⟨st', g1, g2, g3, g4, g5, g6⟩
  intro st he h
  apply key l st
  rw [← he]
  exact h

theorem dropPairs_ok (l : List (Nat × Nat)) : ∀ (st : St), Refs { st with pairs := l } (fun _ => 0) →
    ∃ st', dropPairs l st = some st' ∧ Refs st' (fun _ => 0) ∧ st'.ents = st.ents ∧ st'.pairs = [] ∧
      st'.pend = st.pend ∧ st'.reps = st.reps := by
  induction l with
  | nil => intro st h; exact ⟨_, rfl, h, rfl, rfl, rfl, rfl⟩
  | cons e r ih =>
    intro st h
    obtain ⟨o, c⟩ := e
    have h1 : Refs { st with pairs := r } (fun y => (0 + one c y) + one o y) := by
      intro y
      have a := h y
      have b := total_pair { st with pairs := r } st.ref o c y
      have b' : total { st with pairs := (o, c) :: r } y = total { st with pairs := r } y + one o y + one c y := b
      dsimp only at a ⊢
      omega
    obtain ⟨rf, h2, h3⟩ := dropRef_ok { st with pairs := r } (fun y => 0 + one c y) o h1
    obtain ⟨rf2, h5, h6⟩ := dropRef_ok { st with
      pairs := r
      ref := rf } (fun _ => 0) c h3
    have back : ∀ (s : Nat) (a : St) (q : Nat → Nat), dropRef s { a with pairs := r } = some { a with
        pairs := r
        ref := q } → dropRef s a = some { a with ref := q } := by
      intro s a q hq
      unfold dropRef at hq ⊢
      dsimp only at hq
      by_cases hle : a.ref s ≤ 1
      · rw [if_pos hle] at hq; cases hq
      · rw [if_neg hle] at hq ⊢
        have := Option.some.inj hq
        have hrf : setRef a.ref s (a.ref s - 1) = q := congrArg St.ref this
        rw [hrf]
    have h4 := back o st rf h2
    have h7 := back c { st with ref := rf } rf2 h5
    unfold dropPairs
    rw [h4]
    dsimp only
    rw [h7]
    obtain ⟨st', g1, g2, g3, g4, g5, g6⟩ := ih { st with ref := rf2 } h6
    exact ⟨st', g1, g2, g3, g4, g5, g6⟩

/-- C72: at exit every callstack is freed and none is freed twice, and the last report is the one of
a nudge. -/
theorem C72_exit (op : Opts) (es : List Ev) (y : Sys) (hr : Run op Sys.init es y)
    (list : Option (List Nat)) : ∃ st, exit op list y.tool = some st ∧ st.ents = [] ∧ st.pairs = [] ∧
      (∀ s, st.ref s = 0) ∧ st.reps = y.tool.reps ++ iterate op list y.tool := by
  have h := run_inv op inv_init hr
  unfold exit
  dsimp only
  obtain ⟨s1, a1, a2, a3, a4, a5, a6⟩ := dropEnts_ok (nudge op list y.tool).ents (nudge op list y.tool) rfl h.refs
  rw [a1]
  dsimp only
  obtain ⟨s2, b1, b2, b3, b4, b5, b6⟩ := dropPairs_ok s1.pairs s1 a2
  rw [b1]
  exact ⟨_, rfl, b3.trans a3, b4, fun s => rfl, b6.trans a6⟩

/-- The references to a callstack are those of the table of callstacks, of the handles in the
tables, of the closes under way and of the pairs of opening and closing callstacks, whatever the
threads do. -/
theorem C72_refs (op : Opts) (es : List Ev) (y : Sys) (hr : Run op Sys.init es y) (s : Nat) :
    (y.tool.ref s = 0 ∧
      (∀ k, get y.tool.ents k ≠ some s) ∧ get y.tool.pairs s = none ∧ (∀ o, get y.tool.pairs o ≠ some s)) ∨
    y.tool.ref s = 1 + y.tool.ents.countP (fun e => decide (e.2 = s)) +
      y.tool.pend.countP (fun e => decide (e.2 = Info.hci s)) +
      (if get y.tool.pairs s = none then 0 else 1) +
      y.tool.pairs.countP (fun e => decide (e.2 = s)) := by
  have h := run_inv op inv_init hr
  have hop : opened y.tool s = if get y.tool.pairs s = none then 0 else 1 := by
    have hu := h.upairs
    unfold opened
    generalize y.tool.pairs = l at hu ⊢
    induction l with
    | nil => rfl
    | cons e r ih =>
      obtain ⟨a, v⟩ := e
      have hu' := List.pairwise_cons.mp hu
      rw [List.countP_cons]
      by_cases ha : a = s
      · have hz : r.countP (fun e => decide (e.1 = s)) = 0 := by
          rw [List.countP_eq_zero]
          intro e he
          have := hu'.1 e he
          simp only [decide_eq_true_eq]
          intro hes
          exact this (ha.trans hes.symm)
        rw [hz, ha, get_cons_eq]
        simp
      · rw [ih hu'.2, get_cons_ne _ _ _ _ (fun e => ha e.symm)]
        simp [ha]
  rcases h.refs s with ⟨h1, h2⟩ | h1
  · left
    have hz : total y.tool s = 0 := by omega
    unfold total at hz
    have z1 : live y.tool s = 0 := by omega
    have z3 : opened y.tool s = 0 := by omega
    have z4 : closed y.tool s = 0 := by omega
    refine ⟨h1, ?_, ?_, ?_⟩
    · intro k hk
      unfold live at z1
      rw [List.countP_eq_zero] at z1
      exact z1 _ (mem_of_get _ _ _ hk) (by simp)
    · rw [hop] at z3
      by_cases hg : get y.tool.pairs s = none
      · exact hg
      · rw [if_neg hg] at z3; cases z3
    · intro o ho
      unfold closed at z4
      rw [List.countP_eq_zero] at z4
      exact z4 _ (mem_of_get _ _ _ ho) (by simp)
  · right
    unfold total live underway closed at h1
    rw [hop] at h1
    dsimp only at h1
    omega

/-- C72: over a run in which no two threads work on the same handle, a handle that nobody is busy
with is in the tables, with the callstack that opened it, if it is open; and if it is in the
tables, it is open and was opened by that callstack, or another process has closed it. -/
theorem C72_exact (op : Opts) (es : List Ev) (y : Sys) (hr : CalmRun op Sys.init es y) (k : Key)
    (hk : ∀ t, ¬ busy y t k) (s : Nat) :
    (y.kern k = some s → get y.tool.ents k = some s) ∧
    (get y.tool.ents k = some s → y.kern k = some s ∨ (y.kern k = none ∧ y.ext k = true)) := by
  obtain ⟨_, h⟩ := calm_exact op inv_init (exact_init op) hr
  have hq := h.quiet k hk
  constructor
  · intro hs
    rcases hq with hq | ⟨hq, _⟩
    · rw [hq]; exact hs
    · rw [hs] at hq; cases hq
  · intro hs
    rcases hq with hq | hq
    · left; rw [← hq]; exact hs
    · exact Or.inr hq

/-! ## The reports -/

/-- The handle of a report. -/
def Report.key : Report → Option Key
  | .leak k _ _ _ _ => some k
  | .onSyscall _ _ => none

theorem checkOpen_shape (op : Opts) (k : Key) (s : Nat) (st : St) :
    ∃ n cl p, checkOpen op k s st = .leak k n s cl p := by
  unfold checkOpen
  dsimp only
  split
  · split
    · exact ⟨_, _, _, rfl⟩
    · exact ⟨_, _, _, rfl⟩
  · exact ⟨_, _, _, rfl⟩

theorem mem_iterTable (op : Opts) (ty : Ty) (st : St) (hu : Uniq st.ents) (r : Report) :
    r ∈ iterTable op ty st ↔ ∃ h s, get st.ents (ty, h) = some s ∧ r = checkOpen op (ty, h) s st := by
  unfold iterTable
  rw [List.mem_map]
  constructor
  · rintro ⟨⟨⟨ty', h⟩, s⟩, hm, rfl⟩
    rw [List.mem_filter] at hm
    have ht : ty' = ty := by simpa using hm.2
    subst ht
    exact ⟨h, s, get_of_mem _ _ _ hu hm.1, rfl⟩
  · rintro ⟨h, s, hg, rfl⟩
    exact ⟨((ty, h), s), List.mem_filter.mpr ⟨mem_of_get _ _ _ hg, by simp⟩, rfl⟩

theorem mem_enumerate (op : Opts) (st : St) (l : List Nat) (r : Report) :
    r ∈ enumerate op st l ↔
      ∃ h s, h ∈ l ∧ get st.ents (Ty.kernel, h) = some s ∧ r = checkOpen op (Ty.kernel, h) s st := by
  unfold enumerate
  rw [List.mem_filterMap]
  constructor
  · rintro ⟨h, hm, hr⟩
    cases hg : get st.ents (Ty.kernel, h) with
    | none => rw [hg] at hr; cases hr
    | some s => rw [hg] at hr; cases hr; exact ⟨h, s, hm, hg, rfl⟩
  · rintro ⟨h, s, hm, hg, rfl⟩
    exact ⟨h, hm, by rw [hg]⟩

/-- Which handles are looked at. -/
def Looked (list : Option (List Nat)) (k : Key) : Prop :=
  match list with
  | none => True
  | some l => k.1 = Ty.kernel → k.2 ∈ l

theorem mem_iterate (op : Opts) (list : Option (List Nat)) (st : St) (hu : Uniq st.ents) (r : Report) :
    r ∈ iterate op list st ↔
      ∃ k s, get st.ents k = some s ∧ Looked list k ∧ r = checkOpen op k s st := by
  unfold iterate
  rw [List.mem_append, List.mem_append, mem_iterTable op .user st hu, mem_iterTable op .gdi st hu]
  constructor
  · rintro ((h | ⟨h, s, h1, h2⟩) | ⟨h, s, h1, h2⟩)
    · cases list with
      | none =>
        obtain ⟨h, s, h1, h2⟩ := (mem_iterTable op .kernel st hu r).mp h
        exact ⟨_, s, h1, trivial, h2⟩
      | some l =>
        obtain ⟨h, s, hm, h1, h2⟩ := (mem_enumerate op st l r).mp h
        exact ⟨_, s, h1, fun _ => hm, h2⟩
    · refine ⟨_, s, h1, ?_, h2⟩
      cases list with
      | none => trivial
      | some l => intro e; cases e
    · refine ⟨_, s, h1, ?_, h2⟩
      cases list with
      | none => trivial
      | some l => intro e; cases e
  · rintro ⟨⟨ty, h⟩, s, h1, h2, h3⟩
    cases ty with
    | kernel =>
      left; left
      cases list with
      | none => exact (mem_iterTable op .kernel st hu r).mpr ⟨h, s, h1, h3⟩
      | some l => exact (mem_enumerate op st l r).mpr ⟨h, s, h2 rfl, h1, h3⟩
    | user => left; right; exact ⟨h, s, h1, h3⟩
    | gdi => right; exact ⟨h, s, h1, h3⟩

theorem filterMap_key_table (op : Opts) (ty : Ty) (st : St) :
    (iterTable op ty st).filterMap Report.key =
      (st.ents.filter (fun e => decide (e.1.1 = ty))).map Prod.fst := by
  unfold iterTable
  generalize st.ents.filter (fun e => decide (e.1.1 = ty)) = l
  induction l with
  | nil => rfl
  | cons e r ih =>
    rw [List.map_cons, List.map_cons, List.filterMap_cons]
    obtain ⟨n, cl, p, hs⟩ := checkOpen_shape op e.1 e.2 st
    rw [hs]
    show e.1 :: _ = _
    rw [ih]

theorem filterMap_key_enum (op : Opts) (st : St) (l : List Nat) :
    (enumerate op st l).filterMap Report.key =
      (l.filter (fun h => (get st.ents (Ty.kernel, h)).isSome)).map (fun h => (Ty.kernel, h)) := by
  unfold enumerate
  induction l with
  | nil => rfl
  | cons h r ih =>
    rw [List.filterMap_cons, List.filter_cons]
    cases hg : get st.ents (Ty.kernel, h) with
    | none =>
      rw [if_neg (by simp)]
      exact ih
    | some s =>
      dsimp only
      rw [if_pos (by simp), List.map_cons, List.filterMap_cons]
      obtain ⟨n, cl, p, hs⟩ := checkOpen_shape op (Ty.kernel, h) s st
      rw [hs]
      show (Ty.kernel, h) :: _ = _
      rw [ih]

theorem nodup_table (l : List (Key × Nat)) (ty : Ty) (hu : Uniq l) :
    ((l.filter (fun e => decide (e.1.1 = ty))).map Prod.fst).Nodup := by
  unfold List.Nodup
  rw [List.pairwise_map]
  exact List.Pairwise.filter _ hu

theorem type_table (l : List (Key × Nat)) (ty : Ty) (k : Key)
    (h : k ∈ (l.filter (fun e => decide (e.1.1 = ty))).map Prod.fst) : k.1 = ty := by
  obtain ⟨e, he, rfl⟩ := List.mem_map.mp h
  simpa using (List.mem_filter.mp he).2

/-- C72: no handle is reported twice by one report, if the list of the system holds no handle
twice. -/
theorem C72_once (op : Opts) (es : List Ev) (y : Sys) (hr : Run op Sys.init es y)
    (list : Option (List Nat)) (hl : ∀ l, list = some l → l.Nodup) :
    ((iterate op list y.tool).filterMap Report.key).Nodup := by
  have hi := run_inv op inv_init hr
  unfold iterate
  rw [List.filterMap_append, List.filterMap_append, filterMap_key_table, filterMap_key_table]
  have hk : ((match list with
      | some l => enumerate op y.tool l
      | none => iterTable op .kernel y.tool).filterMap Report.key).Nodup ∧
      ∀ k ∈ ((match list with
      | some l => enumerate op y.tool l
      | none => iterTable op .kernel y.tool).filterMap Report.key), k.1 = Ty.kernel := by
    cases list with
    | none =>
      dsimp only
      rw [filterMap_key_table]
      exact ⟨nodup_table _ _ hi.uents, fun k hk => type_table _ _ k hk⟩
    | some l =>
      dsimp only
      rw [filterMap_key_enum]
      constructor
      · unfold List.Nodup
        rw [List.pairwise_map]
        exact (List.Pairwise.filter _ (hl l rfl)).imp (fun h e => h (congrArg Prod.snd e))
      · intro k hk
        obtain ⟨h, _, rfl⟩ := List.mem_map.mp hk
        rfl
  rw [List.nodup_append, List.nodup_append]
  refine ⟨⟨hk.1, nodup_table _ _ hi.uents, ?_⟩, nodup_table _ _ hi.uents, ?_⟩
  · intro a ha b hb e
    have h1 := hk.2 a ha
    have h2 := type_table _ _ b hb
    rw [e, h2] at h1
    cases h1
  · intro a ha b hb e
    have h2 := type_table _ _ b hb
    rcases List.mem_append.mp ha with ha | ha
    · have h1 := hk.2 a ha
      rw [e, h2] at h1
      cases h1
    · have h1 := type_table _ _ a ha
      rw [e, h2] at h1
      cases h1

/-- The list of the system tells which kernel handles are open. -/
def Accurate (y : Sys) (l : List Nat) : Prop :=
  (∀ h, y.kern (Ty.kernel, h) ≠ none → h ∈ l) ∧
  (∀ h ∈ l, y.kern (Ty.kernel, h) = none → y.ext (Ty.kernel, h) = false)

/-- C72: over a calm run, every open handle that nobody is busy with is reported, with the callstack
that opened it; and a reported handle is open and was opened by the callstack of the report, or
another process has closed it and the list of the system was not used for it. -/
theorem C72_reported (op : Opts) (es : List Ev) (y : Sys) (hr : CalmRun op Sys.init es y)
    (list : Option (List Nat)) (hl : ∀ l, list = some l → Accurate y l) (k : Key)
    (hk : ∀ t, ¬ busy y t k) :
    (∀ s, y.kern k = some s → ∃ n cl p, Report.leak k n s cl p ∈ iterate op list y.tool) ∧
    (∀ n s cl p, Report.leak k n s cl p ∈ iterate op list y.tool → y.kern k = some s ∨
      (y.kern k = none ∧ y.ext k = true ∧ (k.1 = Ty.kernel → list = none))) := by
  have hi := run_inv op inv_init (run_of_calm op hr)
  constructor
  · intro s hs
    have hg := (C72_exact op es y hr k hk s).1 hs
    obtain ⟨n, cl, p, he⟩ := checkOpen_shape op k s y.tool
    refine ⟨n, cl, p, (mem_iterate op list y.tool hi.uents _).mpr ⟨k, s, hg, ?_, he.symm⟩⟩
    cases list with
    | none => trivial
    | some l =>
      intro hty
      apply (hl l rfl).1
      have : (Ty.kernel, k.2) = k := by rw [← hty]
      rw [this, hs]
      exact Option.some_ne_none _
  · intro n s cl p hm
    obtain ⟨k', s', hg, hlo, he⟩ := (mem_iterate op list y.tool hi.uents _).mp hm
    obtain ⟨n', cl', p', he'⟩ := checkOpen_shape op k' s' y.tool
    rw [he'] at he
    cases he
    rcases (C72_exact op es y hr k hk s).2 hg with h | ⟨h1, h2⟩
    · exact Or.inl h
    · refine Or.inr ⟨h1, h2, fun hty => ?_⟩
      cases list with
      | none => rfl
      | some l =>
        have hkk : (Ty.kernel, k.2) = k := by rw [← hty]
        have := (hl l rfl).2 k.2 (hlo hty) (by rw [hkk]; exact h1)
        rw [hkk, h2] at this
        cases this

theorem pairsAfter_off (op : Opts) (hf : op.filter = false) (o c : Nat) (l : List (Nat × Nat)) :
    pairsAfter op o c l = l := by
  unfold pairsAfter
  rw [if_pos hf]

theorem run_off (op : Opts) (hf : op.filter = false) {y : Sys} {es : List Ev} {y2 : Sys} (hi : Inv y)
    (hr : Run op y es y2) : y2.tool.pairs = y.tool.pairs := by
  induction hr with
  | nil y => rfl
  | @cons y e y1 es y2 he hs hr ih =>
    obtain ⟨y1', h1, h2⟩ := step_ok op _ _ hi he
    rw [hs] at h1
    cases h1
    rw [ih h2]
    cases e with
    | ext k => cases hs; rfl
    | nudge l => cases hs; rfl
    | exec t r =>
      obtain ⟨c, hfl, _⟩ := he
      unfold step at hs
      dsimp only at hs
      rw [hfl] at hs
      cases hs
      exact congrArg St.pairs ((kopen_tool c (opens c r) _).1.trans (kclose_tool y c _).1)
    | pre t c =>
      have hfl : y.flight t = none := he
      have hp : get y.tool.pend t = none := by
        cases hg : get y.tool.pend t with
        | none => rfl
        | some i =>
          obtain ⟨c', o', d', h1, _⟩ := hi.flight t (by rw [hg]; exact Option.some_ne_none _)
          rw [hfl] at h1; cases h1
      obtain ⟨st, a1, _, a3, _⟩ := preCall_ok t c y.tool hi.refs hp
      unfold step at hs
      dsimp only at hs
      rw [a1] at hs
      cases hs
      exact a3
    | post t =>
      obtain ⟨c, r, hfl⟩ := he
      obtain ⟨st, a1, _, _, _, a5, _⟩ := postCall_ok op t c r y.tool hi.refs hi.uents
      unfold step at hs
      dsimp only at hs
      rw [hfl] at hs
      dsimp only at hs
      rw [a1] at hs
      cases hs
      show st.pairs = _
      rw [a5]
      cases c.dele with
      | none => rfl
      | some d =>
        dsimp only
        unfold pairsPost
        split
        · exact pairsAfter_off op hf _ _ _
        · rfl

/-- C72: the number of similar handles and the level of a report, for every run: with `m` the
handles in the tables with the same callstack, plus the closes under way of such handles, plus the
closes recorded with this very callstack. -/
theorem C72_level (op : Opts) (es : List Ev) (y : Sys) (hr : Run op Sys.init es y)
    (list : Option (List Nat)) (k : Key) (n s : Nat) (cl : Option Nat) (p : Bool)
    (hm : Report.leak k n s cl p ∈ iterate op list y.tool) :
    n + 1 = live y.tool s + underway y.tool s + closed y.tool s ∧
    cl = (if op.filter then get y.tool.pairs s else none) ∧
    (p = true ↔ op.filter = true ∧ (if get y.tool.pairs s = none then n + 1 < op.threshold else n + 1 ≤ 2)) := by
  have hi := run_inv op inv_init hr
  obtain ⟨k', s', hg, _, he⟩ := (mem_iterate op list y.tool hi.uents _).mp hm
  have hs' : s' = s ∧ k' = k := by
    obtain ⟨n', cl', p', he'⟩ := checkOpen_shape op k' s' y.tool
    rw [he'] at he; cases he; exact ⟨rfl, rfl⟩
  obtain ⟨rfl, rfl⟩ := hs'
  have hlive : 0 < live y.tool s' := by
    unfold live
    rw [List.countP_pos_iff]
    exact ⟨(k', s'), mem_of_get _ _ _ hg, by simp⟩
  have href := C72_refs op es y hr s'
  have href' : y.tool.ref s' = 1 + live y.tool s' + underway y.tool s' +
      (if get y.tool.pairs s' = none then 0 else 1) + closed y.tool s' := by
    rcases href with ⟨_, h2, _⟩ | h
    · exact absurd hg (h2 k')
    · exact h
  unfold checkOpen at he
  dsimp only at he
  cases hf : op.filter with
  | false =>
    rw [hf, if_neg (by decide)] at he
    cases he
    cases hp : get y.tool.pairs s' with
    | none =>
      rw [hp, if_pos rfl] at href'
      refine ⟨?_, by rw [if_neg (by decide)], by constructor <;> intro h <;> simp at h⟩
      omega
    | some c =>
      have := run_off op hf inv_init hr
      rw [this] at hp
      cases hp
  | true =>
    rw [hf, if_pos rfl] at he
    cases hp : get y.tool.pairs s' with
    | none =>
      rw [hp] at he
      rw [hp, if_pos rfl] at href'
      dsimp only at he
      cases he
      refine ⟨?_, by rw [if_pos rfl], ?_⟩
      · omega
      · rw [if_pos rfl, decide_eq_true_eq]
        constructor
        · intro h; exact ⟨rfl, by omega⟩
        · rintro ⟨_, h⟩; omega
    | some c =>
      rw [hp] at he
      rw [hp, if_neg (by simp)] at href'
      dsimp only at he
      cases he
      refine ⟨?_, by rw [if_pos rfl], ?_⟩
      · omega
      · rw [if_neg (by simp), decide_eq_true_eq]
        constructor
        · intro h; exact ⟨rfl, by omega⟩
        · rintro ⟨_, h⟩; omega

/-- C72: with -filter_handle_leaks, over a calm run, a report shows a closing callstack only if the
kernel closed, in a call from there, a handle that had been opened by the callstack of the report;
and if it has closed such a handle and no close is under way, the report shows one. -/
theorem C72_pairs (op : Opts) (es : List Ev) (y : Sys) (hr : CalmRun op Sys.init es y)
    (list : Option (List Nat)) (k : Key) (n s : Nat) (cl : Option Nat) (p : Bool)
    (hf : op.filter = true) (hm : Report.leak k n s cl p ∈ iterate op list y.tool) :
    (∀ c, cl = some c → (s, c) ∈ y.hist) ∧
    ((∀ t, y.flight t = none) → ∀ c, (s, c) ∈ y.hist → cl ≠ none) := by
  obtain ⟨_, h⟩ := calm_exact op inv_init (exact_init op) hr
  have hl := (C72_level op es y (run_of_calm op hr) list k n s cl p hm).2.1
  rw [hf, if_pos rfl] at hl
  rw [hl]
  refine ⟨fun c hc => h.pairs s c hc, fun hq c hc => ?_⟩
  rcases h.hist hf s c hc with hh | ⟨t, c', cl, r, d, h1, _⟩
  · exact hh
  · rw [hq t] at h1; cases h1

/-- C72: the number in a report is right: over a calm run, with no call under way, no handle closed
by another process, and no handle ever closed from the callstack of the report, it is the number of
open handles that this callstack opened, less the reported one. -/
theorem C72_similar (op : Opts) (es : List Ev) (y : Sys) (hr : CalmRun op Sys.init es y)
    (list : Option (List Nat)) (k : Key) (n s : Nat) (cl : Option Nat) (p : Bool)
    (hm : Report.leak k n s cl p ∈ iterate op list y.tool)
    (hq : ∀ t, y.flight t = none) (hx : ∀ k, y.ext k = false) (hc : ∀ o, (o, s) ∉ y.hist)
    (L : List Key) (hL : L.Nodup) (hLm : ∀ k, k ∈ L ↔ y.kern k = some s) : n + 1 = L.length := by
  obtain ⟨hi, h⟩ := calm_exact op inv_init (exact_init op) hr
  have hn := (C72_level op es y (run_of_calm op hr) list k n s cl p hm).1
  have hb : ∀ k t, ¬ busy y t k := by
    intro k t hb
    rcases (busy_iff _ _ _).mp hb with ⟨c', o', d, h1, _⟩ | ⟨c', r', h1, _⟩
    · rw [hq t] at h1; cases h1
    · rw [hq t] at h1; cases h1
  have hu : underway y.tool s = 0 := by
    unfold underway
    rw [List.countP_eq_zero]
    rintro ⟨t, i⟩ hm
    have := get_of_mem _ _ _ hi.upend hm
    obtain ⟨c, o, d, h1, _⟩ := hi.flight t (by rw [this]; exact Option.some_ne_none _)
    rw [hq t] at h1; cases h1
  have hcl : closed y.tool s = 0 := by
    unfold closed
    rw [List.countP_eq_zero]
    rintro ⟨o, c⟩ hm
    simp only [decide_eq_true_eq]
    intro e
    rw [e] at hm
    exact hc o (h.pairs o s (get_of_mem _ _ _ hi.upairs hm))
  have hlive : live y.tool s = L.length := by
    unfold live
    rw [List.countP_eq_length_filter, ← List.length_map (f := Prod.fst)]
    apply List.Perm.length_eq
    rw [List.perm_ext_iff_of_nodup _ hL]
    · intro k'
      rw [hLm, List.mem_map]
      constructor
      · rintro ⟨⟨k2, s2⟩, hm2, rfl⟩
        rw [List.mem_filter] at hm2
        have e : s2 = s := by simpa using hm2.2
        subst e
        rcases (C72_exact op es y hr k2 (hb k2) s2).2 (get_of_mem _ _ _ hi.uents hm2.1) with e | ⟨_, e⟩
        · exact e
        · rw [hx k2] at e; cases e
      · intro hk
        exact ⟨(k', s), List.mem_filter.mpr ⟨mem_of_get _ _ _ ((C72_exact op es y hr k' (hb k') s).1 hk),
          by simp⟩, rfl⟩
    · unfold List.Nodup
      rw [List.pairwise_map]
      exact List.Pairwise.filter _ hi.uents
  omega

/-- C72: without -filter_handle_leaks no report is a potential error and none shows a closing
callstack, and no pairs are kept. -/
theorem C72_unfiltered (op : Opts) (es : List Ev) (y : Sys) (hr : Run op Sys.init es y)
    (list : Option (List Nat)) (k : Key) (n s : Nat) (cl : Option Nat) (p : Bool)
    (hf : op.filter = false) (hm : Report.leak k n s cl p ∈ iterate op list y.tool) :
    p = false ∧ cl = none := by
  obtain ⟨_, h2, h3⟩ := C72_level op es y hr list k n s cl p hm
  rw [hf] at h2 h3
  refine ⟨?_, by rw [h2]; rfl⟩
  cases p with
  | false => rfl
  | true => exact absurd (h3.mp rfl).1 (by decide)

theorem postArgs_reps (s : Nat) (outs : List Out) : ∀ (st st' : St) (x : Nat → Nat), Refs st x →
    postArgs s outs st = some st' →
    st'.reps = st.reps ++ outs.filterMap (fun o => match o with
      | .null own => some (Report.onSyscall own s)
      | .handle _ _ => none) := by
  induction outs with
  | nil =>
    intro st st' x _ h
    cases h
    simp
  | cons o r ih =>
    intro st st' x hR h
    unfold postArgs postArg at h
    rw [List.filterMap_cons]
    cases o with
    | null b =>
      dsimp only at h ⊢
      have := ih { st with
        reps := st.reps ++ [.onSyscall b s] } st' x hR h
      rw [this]
      dsimp only
      rw [List.append_assoc]
      rfl
    | handle b k =>
      dsimp only at h ⊢
      obtain ⟨s1, a1, a2, _, _, a5, _⟩ := create_ok b k s st x hR
      rw [a1] at h
      dsimp only at h
      have := ih s1 st' x a2 h
      rw [this, a5]

/-- C72: a successful call that was given no place for the new handle is reported, once for each
such place, and nothing else is reported by a system call. -/
theorem C72_null (op : Opts) (es : List Ev) (y y1 : Sys) (hr : Run op Sys.init es y) (t : Nat)
    (c : Call) (r : Res) (hf : y.flight t = some (c, some r)) (hs : step op y (.post t) = some y1) :
    y1.tool.reps = y.tool.reps ++ (if r.succ && c.creates then
      r.outs.filterMap (fun o => match o with
        | .null own => some (Report.onSyscall own c.stack)
        | .handle _ _ => none) else []) := by
  have hi := run_inv op inv_init hr
  unfold step at hs
  dsimp only at hs
  rw [hf] at hs
  dsimp only at hs
  cases hp : postCall op t c r y.tool with
  | none => rw [hp] at hs; cases hs
  | some st =>
    rw [hp] at hs
    cases hs
    show st.reps = _
    unfold postCall at hp
    cases hd : postDel op t c r y.tool with
    | none => rw [hd] at hp; cases hp
    | some s2 =>
      rw [hd] at hp
      dsimp only at hp
      have hreps : s2.reps = y.tool.reps ∧ Refs s2 (fun _ => 0) := by
        obtain ⟨s3, d1, d2, _, _, _, _, d7⟩ := postDel_ok op t c r y.tool hi.refs hi.uents
        rw [hd] at d1
        cases d1
        exact ⟨d7, d2⟩
      by_cases hc : (r.succ && c.creates) = true
      · rw [if_pos hc] at hp ⊢
        rw [postArgs_reps c.stack r.outs s2 st _ hreps.2 hp, hreps.1]
      · rw [if_neg hc] at hp ⊢
        cases hp
        rw [hreps.1, List.append_nil]

end Verif.HandleCheck
