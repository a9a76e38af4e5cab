import Verif.HandleCheckThms
/-
The reference counts over whole runs, whatever the threads do.
-/
namespace Verif.HandleCheck

theorem dropRef_pend (s : Nat) (st : St) (p : List (Nat × Info)) :
    dropRef s { st with
      pend := p } = (dropRef s st).map (fun a => { a with
      pend := p }) := by
  unfold dropRef
  by_cases h : st.ref s ≤ 1
  · rw [if_pos h, if_pos h]; rfl
  · rw [if_neg h, if_neg h]; rfl

theorem addRef_pend (s : Nat) (st : St) (p : List (Nat × Info)) :
    addRef s { st with
      pend := p } = (addRef s st).map (fun a => { a with
      pend := p }) := by
  unfold addRef
  by_cases h : st.ref s = 0
  · rw [if_pos h, if_pos h]; rfl
  · rw [if_neg h, if_neg h]; rfl

theorem handleAdd_pend (k : Key) (s : Nat) (st : St) (p : List (Nat × Info)) :
    handleAdd k s { st with
      pend := p } = (handleAdd k s st).map (fun a => { a with
      pend := p }) := by
  unfold handleAdd
  dsimp only
  cases hg : get st.ents k with
  | none => rfl
  | some o => exact dropRef_pend o { st with
      ents := (k, s) :: del st.ents k } p

theorem pairAdd_pend (op : Opts) (o c : Nat) (st : St) (p : List (Nat × Info)) :
    pairAdd op o c { st with
      pend := p } = (pairAdd op o c st).map (fun a => { a with
      pend := p }) := by
  unfold pairAdd
  by_cases hf : op.filter = false
  · rw [if_pos hf, if_pos hf]; rfl
  · rw [if_neg hf, if_neg hf]
    dsimp only
    cases hg : get st.pairs o with
    | some v => rfl
    | none =>
      dsimp only
      rw [addRef_pend]
      cases addRef o st with
      | none => rfl
      | some a => rfl

theorem deletePost_pend (op : Opts) (k : Key) (c : Nat) (i : Info) (b : Bool) (st : St)
    (p : List (Nat × Info)) :
    deletePost op k c i b { st with
      pend := p } = (deletePost op k c i b st).map (fun a => { a with
      pend := p }) := by
  unfold deletePost
  cases i with
  | null => rfl
  | other => rfl
  | hci s =>
    cases b with
    | false => exact handleAdd_pend k s st p
    | true =>
      simp only [if_true]
      cases hf : op.filter with
      | false =>
        simp only [Bool.false_eq_true, if_false]
        exact dropRef_pend s st p
      | true =>
        simp only [if_true]
        rw [pairAdd_pend]
        cases pairAdd op s c st with
        | none => rfl
        | some a => exact dropRef_pend s a p

theorem held_if (i : Info) (y : Nat) : (if decide (i = Info.hci y) = true then 1 else 0) = held i y := by
  cases i with
  | null => rfl
  | other => rfl
  | hci s =>
    unfold held one
    by_cases e : y = s
    · subst e; simp
    · have e' : ¬ s = y := fun h => e h.symm
      simp [e, e']

theorem total_pend_cons (st : St) (t : Nat) (i : Info) (y : Nat) :
    total { st with
      pend := (t, i) :: st.pend } y = total st y + held i y := by
  have e1 : underway { st with
      pend := (t, i) :: st.pend } y = underway st y + held i y := by
    unfold underway
    rw [List.countP_cons]
    simp only [held_if]
  have e2 : live { st with
      pend := (t, i) :: st.pend } y = live st y := rfl
  have e3 : opened { st with
      pend := (t, i) :: st.pend } y = opened st y := rfl
  have e4 : closed { st with
      pend := (t, i) :: st.pend } y = closed st y := rfl
  unfold total
  omega

theorem total_pend_del (st : St) (t : Nat) (y : Nat) :
    total { st with
      pend := del st.pend t } y + held (infoOf t st) y = total st y := by
  have e1 : underway { st with
      pend := del st.pend t } y + held (infoOf t st) y = underway st y := by
    unfold underway infoOf
    cases hg : get st.pend t with
    | none => rw [del_of_none _ _ hg]; rfl
    | some i =>
      have hc := count_del (fun e : Nat × Info => decide (e.2 = Info.hci y)) (fun _ _ _ => rfl) st.pend t i hg
      simp only [held_if] at hc
      exact hc
  have e2 : live { st with
      pend := del st.pend t } y = live st y := rfl
  have e3 : opened { st with
      pend := del st.pend t } y = opened st y := rfl
  have e4 : closed { st with
      pend := del st.pend t } y = closed st y := rfl
  unfold total
  omega

/-- What the first event finds. -/
def infoPre (d : Del) (ents : List (Key × Nat)) : Info :=
  if d.key.2 = invalid then .null else
  if d.own = false then .other else infoFor (get ents d.key)

/-- The tables after the first event. -/
def entsPre (d : Del) (ents : List (Key × Nat)) : List (Key × Nat) :=
  if d.key.2 = invalid then ents else
  if d.own = false then ents else del ents d.key

theorem preCall_ok (t : Nat) (c : Call) (st : St) (h : Refs st (fun _ => 0))
    (ht : get st.pend t = none) :
    ∃ st', preCall t c st = some st' ∧ Refs st' (fun _ => 0) ∧ st'.pairs = st.pairs ∧
      st'.ents = (match c.dele with | none => st.ents | some d => entsPre d st.ents) ∧
      st'.pend = (match c.dele with
        | none => st.pend
        | some d => (t, infoPre d st.ents) :: st.pend) := by
  unfold preCall
  cases hd : c.dele with
  | none => exact ⟨st, rfl, h, rfl, rfl, rfl⟩
  | some d =>
    dsimp only
    have hdel : ∃ r, deletePre d.own d.key st = some ({ st with
        ents := entsPre d st.ents
        ref := r }, infoPre d st.ents) ∧ Refs { st with
        ents := entsPre d st.ents
        ref := r } (fun y => 0 + held (infoPre d st.ents) y) := by
      unfold deletePre entsPre infoPre
      by_cases hi : d.key.2 = invalid
      · rw [if_pos hi, if_pos hi, if_pos hi]
        exact ⟨st.ref, rfl, h⟩
      · rw [if_neg hi, if_neg hi, if_neg hi]
        by_cases ho : d.own = false
        · rw [if_pos ho, if_pos ho, if_pos ho]
          exact ⟨st.ref, rfl, h⟩
        · rw [if_neg ho, if_neg ho, if_neg ho]
          exact handleRemove_ok st (fun _ => 0) d.key h
    obtain ⟨r, h1, h2⟩ := hdel
    rw [h1]
    dsimp only
    rw [del_of_none _ _ ht]
    refine ⟨_, rfl, ?_, rfl, rfl, rfl⟩
    intro y
    have a := h2 y
    have b := total_pend_cons { st with
        ents := entsPre d st.ents
        ref := r } t (infoPre d st.ents) y
    dsimp only at a b ⊢
    omega

/-- Whether the tool takes the close for done. -/
def took (d : Del) (r : Res) : Bool := d.forced || r.succ

theorem uniq_entsPost (k : Key) (i : Info) (b : Bool) (l : List (Key × Nat)) (h : Uniq l) :
    Uniq (entsPost k i b l) := by
  unfold entsPost
  split
  · exact uniq_put _ _ _ h
  · exact h

theorem postDel_ok (op : Opts) (t : Nat) (c : Call) (r : Res) (st : St) (h : Refs st (fun _ => 0))
    (hu : Uniq st.ents) :
    ∃ s2, postDel op t c r st = some s2 ∧ Refs s2 (fun _ => 0) ∧
      Uniq s2.ents ∧
      s2.pend = (match c.dele with | none => st.pend | some _ => del st.pend t) ∧
      s2.pairs = (match c.dele with
        | none => st.pairs
        | some d => pairsPost op (infoOf t st) (took d r) c.stack st.pairs) ∧
      s2.ents = (match c.dele with
        | none => st.ents
        | some d => entsPost d.key (infoOf t st) (took d r) st.ents) ∧ s2.reps = st.reps := by
  unfold postDel
  cases hd : c.dele with
  | none => exact ⟨st, rfl, h, hu, rfl, rfl, rfl, rfl⟩
  | some d =>
    dsimp only
    have h0 : Refs { st with
        pend := del st.pend t } (fun y => 0 + held (infoOf t st) y) := by
      intro y
      have a := h y
      have b := total_pend_del st t y
      dsimp only at a b ⊢
      omega
    obtain ⟨s1, b1, b2, b3, b4, b5, b6⟩ := deletePost_ok op d.key c.stack (infoOf t st)
      (d.forced || r.succ) _ (fun _ => 0) h0
    rw [deletePost_pend] at b1
    cases hp : deletePost op d.key c.stack (infoOf t st) (d.forced || r.succ) st with
    | none => rw [hp] at b1; cases b1
    | some a =>
      rw [hp] at b1
      have b1' : { a with pend := del st.pend t } = s1 := Option.some.inj b1
      have hap : a.pend = st.pend := by
        obtain ⟨s3, c1, _, c3, _⟩ := deletePost_ok op d.key c.stack (infoOf t st)
          (d.forced || r.succ) _ (fun _ => 0) h0
        revert hp
        unfold deletePost
        cases infoOf t st with
        | null => intro hp; cases hp; rfl
        | other => intro hp; cases hp; rfl
        | hci s =>
          cases (d.forced || r.succ) with
          | false =>
            simp only [Bool.false_eq_true, if_false]
            unfold handleAdd
            cases get st.ents d.key with
            | none => intro hp; cases hp; rfl
            | some o =>
              dsimp only
              unfold dropRef
              split
              · intro hp; cases hp
              · intro hp; cases hp; rfl
          | true =>
            simp only [if_true]
            intro hp
            have hx : ∀ q, (if op.filter = true then pairAdd op s c.stack st else some st) = some q →
                q.pend = st.pend := by
              intro q hq
              revert hq
              split
              · unfold pairAdd
                split
                · intro hq; cases hq; rfl
                · cases get st.pairs s with
                  | some v => intro hq; cases hq; rfl
                  | none =>
                    dsimp only
                    unfold addRef
                    by_cases hr : st.ref s = 0
                    · rw [if_pos hr]; intro hq; cases hq
                    · rw [if_neg hr]; intro hq; cases hq; rfl
              · intro hq; cases hq; rfl
            cases hq : (if op.filter = true then pairAdd op s c.stack st else some st) with
            | none => rw [hq] at hp; cases hp
            | some q =>
              rw [hq] at hp
              dsimp only at hp
              have := hx q hq
              rw [← this]
              revert hp
              unfold dropRef
              split
              · intro hp; cases hp
              · intro hp; cases hp; rfl
      dsimp only
      rw [hap, b1']
      refine ⟨s1, rfl, b2, ?_, b3, b6, b5, b4⟩
      rw [b5]
      exact uniq_entsPost _ _ _ _ hu

theorem postCall_ok (op : Opts) (t : Nat) (c : Call) (r : Res) (st : St) (h : Refs st (fun _ => 0))
    (hu : Uniq st.ents) :
    ∃ st', postCall op t c r st = some st' ∧ Refs st' (fun _ => 0) ∧ Uniq st'.ents ∧
      st'.pend = (match c.dele with | none => st.pend | some _ => del st.pend t) ∧
      st'.pairs = (match c.dele with
        | none => st.pairs
        | some d => pairsPost op (infoOf t st) (took d r) c.stack st.pairs) ∧
      (∀ k, k ∈ opens c r → get st'.ents k = some c.stack) ∧
      (∀ k, k ∉ opens c r → get st'.ents k = get (match c.dele with
        | none => st.ents
        | some d => entsPost d.key (infoOf t st) (took d r) st.ents) k) := by
  obtain ⟨s2, d1, d2, d3, d4, d5, d6, _⟩ := postDel_ok op t c r st h hu
  unfold postCall
  rw [d1]
  dsimp only
  rw [opens_eq]
  by_cases hc : (r.succ && c.creates) = true
  · rw [if_pos hc, if_pos hc]
    obtain ⟨st', h1, h2, h3, h4, h5, h6, h7⟩ := postArgs_ok c.stack r.outs s2 _ d2 d3
    refine ⟨st', h1, h2, h5, h3.trans d4, h4.trans d5, h6, ?_⟩
    intro k hk
    rw [h7 k hk, d6]
  · rw [if_neg hc, if_neg hc]
    exact ⟨s2, rfl, d2, d3, d4, d5, fun k hk => (by cases hk), fun k _ => by rw [d6]⟩

/-- A handle value that can be in the tables. -/
def Good (k : Key) : Prop := k.2 ≠ invalid ∧ k.2 ≠ 0

theorem good_of_opens (c : Call) (r : Res) (k : Key) (h : k ∈ opens c r) : Good k := by
  rw [opens_eq] at h
  by_cases hc : (r.succ && c.creates) = true
  · rw [if_pos hc] at h
    obtain ⟨o, _, ho⟩ := List.mem_filterMap.mp h
    cases o with
    | null b => cases ho
    | handle b k' =>
      cases b with
      | false => cases ho
      | true =>
        dsimp only at ho
        by_cases hv : k'.2 = invalid ∨ k'.2 = 0
        · rw [if_pos hv] at ho; cases ho
        · rw [if_neg hv] at ho
          cases ho
          exact ⟨fun e => hv (Or.inl e), fun e => hv (Or.inr e)⟩
  · rw [if_neg hc] at h; cases h

/-- What holds whatever the threads do. -/
structure Inv (y : Sys) : Prop where
  refs : Refs y.tool (fun _ => 0)
  uents : Uniq y.tool.ents
  upairs : Uniq y.tool.pairs
  upend : Uniq y.tool.pend
  flight : ∀ t, get y.tool.pend t ≠ none → ∃ c o d, y.flight t = some (c, o) ∧ c.dele = some d
  good : ∀ k s, get y.tool.ents k = some s → Good k
  pgood : ∀ t s c o d, get y.tool.pend t = some (.hci s) → y.flight t = some (c, o) →
    c.dele = some d → Good d.key ∧ d.own = true

theorem inv_init : Inv Sys.init where
  refs := by intro s; left; exact ⟨rfl, rfl⟩
  uents := List.Pairwise.nil
  upairs := List.Pairwise.nil
  upend := List.Pairwise.nil
  flight := fun t h => absurd rfl h
  good := fun k s h => by cases h
  pgood := fun t s c o d h => by cases h

theorem kopen_tool (c : Call) (l : List Key) : ∀ y, (kopen c l y).tool = y.tool ∧
    (kopen c l y).flight = y.flight ∧ (kopen c l y).hist = y.hist := by
  induction l with
  | nil => intro y; exact ⟨rfl, rfl, rfl⟩
  | cons k r ih => intro y; unfold kopen; exact ih _

theorem kclose_tool (y : Sys) (c : Call) (k : Option Key) : (kclose y c k).tool = y.tool ∧
    (kclose y c k).flight = y.flight ∧ (kclose y c k).ext = y.ext := by
  cases k <;> exact ⟨rfl, rfl, rfl⟩

theorem uniq_pairsAfter (op : Opts) (o c : Nat) (l : List (Nat × Nat)) (h : Uniq l) :
    Uniq (pairsAfter op o c l) := by
  unfold pairsAfter
  split
  · exact h
  · cases hg : get l o with
    | some v => exact h
    | none =>
      have := uniq_put l o c h
      rw [del_of_none _ _ hg] at this
      exact this

theorem uniq_pairsPost (op : Opts) (i : Info) (b : Bool) (c : Nat) (l : List (Nat × Nat))
    (h : Uniq l) : Uniq (pairsPost op i b c l) := by
  unfold pairsPost
  split
  · exact uniq_pairsAfter _ _ _ _ h
  · exact h

theorem get_entsPre (d : Del) (l : List (Key × Nat)) (k : Key) (hu : Uniq l)
    (s : Nat) (h : get (entsPre d l) k = some s) : get l k = some s := by
  unfold entsPre at h
  split at h
  · exact h
  · split at h
    · exact h
    · by_cases e : k = d.key
      · rw [e, get_del_self l d.key hu] at h; cases h
      · rw [get_del_ne l d.key k e] at h; exact h

theorem uniq_entsPre (d : Del) (l : List (Key × Nat)) (h : Uniq l) : Uniq (entsPre d l) := by
  unfold entsPre
  split
  · exact h
  · split
    · exact h
    · exact uniq_del _ _ h

/-- Every step of a run is safe and keeps the invariant. -/
theorem step_ok (op : Opts) (y : Sys) (e : Ev) (h : Inv y) (he : enabled y e) :
    ∃ y1, step op y e = some y1 ∧ Inv y1 := by
  cases e with
  | ext k =>
    refine ⟨_, rfl, ?_⟩
    exact { refs := h.refs, uents := h.uents, upairs := h.upairs, upend := h.upend,
            flight := h.flight, good := h.good, pgood := h.pgood }
  | nudge l =>
    refine ⟨_, rfl, ?_⟩
    exact { refs := h.refs, uents := h.uents, upairs := h.upairs, upend := h.upend,
            flight := h.flight, good := h.good, pgood := h.pgood }
  | exec t r =>
    obtain ⟨c, hc, _⟩ := he
    unfold step
    dsimp only
    rw [hc]
    dsimp only
    refine ⟨_, rfl, ?_⟩
    have e1 := kopen_tool c (opens c r) (kclose y c (closes c r))
    have e2 := kclose_tool y c (closes c r)
    have et : (kopen c (opens c r) (kclose y c (closes c r))).tool = y.tool := e1.1.trans e2.1
    have ef : (kopen c (opens c r) (kclose y c (closes c r))).flight = y.flight := e1.2.1.trans e2.2.1
    constructor
    · show Refs (kopen c (opens c r) (kclose y c (closes c r))).tool _
      rw [et]; exact h.refs
    · show Uniq (kopen c (opens c r) (kclose y c (closes c r))).tool.ents
      rw [et]; exact h.uents
    · show Uniq (kopen c (opens c r) (kclose y c (closes c r))).tool.pairs
      rw [et]; exact h.upairs
    · show Uniq (kopen c (opens c r) (kclose y c (closes c r))).tool.pend
      rw [et]; exact h.upend
    · intro t' ht'
      dsimp only at ht' ⊢
      rw [et] at ht'
      obtain ⟨c', o', d', h1, h2⟩ := h.flight t' ht'
      rw [ef]
      unfold upd
      by_cases e : t' = t
      · rw [if_pos e]
        rw [e, hc] at h1
        cases h1
        exact ⟨c, some r, d', rfl, h2⟩
      · rw [if_neg e]
        exact ⟨c', o', d', h1, h2⟩
    · intro k s hk
      dsimp only at hk
      rw [et] at hk
      exact h.good k s hk
    · intro t' s c' o' d' h1 h2 h3
      dsimp only at h1 h2
      rw [et] at h1
      rw [ef] at h2
      unfold upd at h2
      by_cases e : t' = t
      · rw [if_pos e] at h2
        cases h2
        exact h.pgood t' s c none d' h1 (by rw [e]; exact hc) h3
      · rw [if_neg e] at h2
        exact h.pgood t' s c' o' d' h1 h2 h3
  | pre t c =>
    have hf : y.flight t = none := he
    have hp : get y.tool.pend t = none := by
      cases hg : get y.tool.pend t with
      | none => rfl
      | some i =>
        obtain ⟨c', o', d', h1, _⟩ := h.flight t (by rw [hg]; exact Option.some_ne_none _)
        rw [hf] at h1; cases h1
    obtain ⟨st, a1, a2, a3, a4, a5⟩ := preCall_ok t c y.tool h.refs hp
    unfold step
    dsimp only
    rw [a1]
    dsimp only
    refine ⟨_, rfl, ?_⟩
    constructor
    · exact a2
    · show Uniq st.ents
      rw [a4]
      cases c.dele with
      | none => exact h.uents
      | some d => exact uniq_entsPre d _ h.uents
    · show Uniq st.pairs
      rw [a3]; exact h.upairs
    · show Uniq st.pend
      rw [a5]
      cases c.dele with
      | none => exact h.upend
      | some d =>
        have := uniq_put y.tool.pend t (infoPre d y.tool.ents) h.upend
        rw [del_of_none _ _ hp] at this
        exact this
    · intro t' ht'
      show ∃ c o d, upd y.flight t (some (_, none)) t' = some (c, o) ∧ _
      change get st.pend t' ≠ none at ht'
      rw [a5] at ht'
      unfold upd
      by_cases e : t' = t
      · rw [if_pos e]
        cases hd : c.dele with
        | none => rw [hd] at ht'; rw [e] at ht'; exact absurd hp ht'
        | some d => exact ⟨c, none, d, rfl, hd⟩
      · rw [if_neg e]
        apply h.flight
        cases hd : c.dele with
        | none => rw [hd] at ht'; exact ht'
        | some d =>
          rw [hd] at ht'
          dsimp only at ht'
          unfold get at ht'
          rw [if_neg (fun e' => e e'.symm)] at ht'
          exact ht'
    · intro k s hk
      change get st.ents k = some s at hk
      rw [a4] at hk
      cases hd : c.dele with
      | none => rw [hd] at hk; exact h.good k s hk
      | some d =>
        rw [hd] at hk
        exact h.good k s (get_entsPre d _ k h.uents s hk)
    · intro t' s c' o' d' h1 h2 h3
      change get st.pend t' = _ at h1
      change upd y.flight t (some (_, none)) t' = _ at h2
      rw [a5] at h1
      unfold upd at h2
      by_cases e : t' = t
      · rw [if_pos e] at h2
        cases h2
        rw [h3] at h1
        dsimp only at h1
        unfold get at h1
        rw [if_pos e.symm] at h1
        have h1' := Option.some.inj h1
        unfold infoPre at h1'
        by_cases hi : d'.key.2 = invalid
        · rw [if_pos hi] at h1'; cases h1'
        · rw [if_neg hi] at h1'
          by_cases ho : d'.own = false
          · rw [if_pos ho] at h1'; cases h1'
          · rw [if_neg ho] at h1'
            cases hg : get y.tool.ents d'.key with
            | none => rw [hg] at h1'; cases h1'
            | some v => exact ⟨h.good _ _ hg, by simpa using ho⟩
      · rw [if_neg e] at h2
        apply h.pgood t' s c' o' d' _ h2 h3
        cases hd : c.dele with
        | none => rw [hd] at h1; exact h1
        | some d =>
          rw [hd] at h1
          dsimp only at h1
          unfold get at h1
          rw [if_neg (fun e' => e e'.symm)] at h1
          exact h1
  | post t =>
    obtain ⟨c, r, hf⟩ := he
    obtain ⟨st, a1, a2, a3, a4, a5, a6, a7⟩ := postCall_ok op t c r y.tool h.refs h.uents
    unfold step
    dsimp only
    rw [hf]
    dsimp only
    rw [a1]
    dsimp only
    refine ⟨_, rfl, ?_⟩
    have hnone : get st.pend t = none := by
      rw [a4]
      cases hd : c.dele with
      | none =>
        dsimp only
        cases hg : get y.tool.pend t with
        | none => rfl
        | some i =>
          obtain ⟨c', o', d', h1, h2⟩ := h.flight t (by rw [hg]; exact Option.some_ne_none _)
          rw [hf] at h1
          cases h1
          rw [hd] at h2; cases h2
      | some d => exact get_del_self _ _ h.upend
    have hother : ∀ t', t' ≠ t → get st.pend t' = get y.tool.pend t' := by
      intro t' ht'
      rw [a4]
      cases c.dele with
      | none => rfl
      | some d => exact get_del_ne _ _ _ ht'
    constructor
    · exact a2
    · exact a3
    · show Uniq st.pairs
      rw [a5]
      cases c.dele with
      | none => exact h.upairs
      | some d => exact uniq_pairsPost _ _ _ _ _ h.upairs
    · show Uniq st.pend
      rw [a4]
      cases c.dele with
      | none => exact h.upend
      | some d => exact uniq_del _ _ h.upend
    · intro t' ht'
      change get st.pend t' ≠ none at ht'
      show ∃ c o d, upd y.flight t none t' = some (c, o) ∧ _
      by_cases e : t' = t
      · rw [e] at ht'; exact absurd hnone ht'
      · unfold upd
        rw [if_neg e]
        exact h.flight t' (by rw [← hother t' e]; exact ht')
    · intro k s hk
      change get st.ents k = some s at hk
      by_cases ho : k ∈ opens c r
      · exact good_of_opens c r k ho
      · rw [a7 k ho] at hk
        cases hd : c.dele with
        | none => rw [hd] at hk; exact h.good k s hk
        | some d =>
          rw [hd] at hk
          dsimp only at hk
          unfold entsPost at hk
          cases hi : infoOf t y.tool with
          | null => rw [hi] at hk; exact h.good k s hk
          | other => rw [hi] at hk; exact h.good k s hk
          | hci s' =>
            rw [hi] at hk
            cases htk : took d r with
            | true => rw [htk] at hk; exact h.good k s hk
            | false =>
              rw [htk] at hk
              dsimp only at hk
              rw [get_put] at hk
              by_cases e : k = d.key
              · have hg : get y.tool.pend t = some (.hci s') := by
                  unfold infoOf at hi
                  cases hg : get y.tool.pend t with
                  | none => rw [hg] at hi; cases hi
                  | some i => rw [hg] at hi; exact congrArg some hi
                rw [e]
                exact (h.pgood t s' c (some r) d hg hf hd).1
              · rw [if_neg e] at hk
                exact h.good k s hk
    · intro t' s c' o' d' h1 h2 h3
      change get st.pend t' = _ at h1
      change upd y.flight t none t' = _ at h2
      by_cases e : t' = t
      · rw [e] at h1; rw [hnone] at h1; cases h1
      · unfold upd at h2
        rw [if_neg e] at h2
        rw [hother t' e] at h1
        exact h.pgood t' s c' o' d' h1 h2 h3

theorem run_inv (op : Opts) {y : Sys} {es : List Ev} {y2 : Sys} (h : Inv y) (hr : Run op y es y2) :
    Inv y2 := by
  induction hr with
  | nil y => exact h
  | cons he hs _ ih =>
    obtain ⟨y1, h1, h2⟩ := step_ok op _ _ h he
    rw [hs] at h1
    cases h1
    exact ih h2

theorem run_of_calm (op : Opts) {y : Sys} {es : List Ev} {y2 : Sys} (h : CalmRun op y es y2) :
    Run op y es y2 := by
  induction h with
  | nil y => exact .nil y
  | cons he _ hs _ ih => exact .cons he hs ih

end Verif.HandleCheck
