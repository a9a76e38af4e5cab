import Verif.HandleCheckSafe
/-
The tables over runs in which no two threads work on the same handle.
-/
namespace Verif.HandleCheck

/-- Thread `t` is in a call that is to close `k` and has not done so. -/
def closing (y : Sys) (t : Nat) (k : Key) : Prop :=
  ∃ c o d, y.flight t = some (c, o) ∧ c.dele = some d ∧ d.own = true ∧ d.key = k ∧
    ∀ r, o = some r → closes c r = none

/-- Thread `t` is in a call that has opened `k`. -/
def opening (y : Sys) (t : Nat) (k : Key) : Prop :=
  ∃ c r, y.flight t = some (c, some r) ∧ k ∈ opens c r

theorem busy_iff (y : Sys) (t : Nat) (k : Key) : busy y t k ↔ closing y t k ∨ opening y t k := by
  unfold busy closing opening
  cases hf : y.flight t with
  | none =>
    constructor
    · intro h; exact h.elim
    · rintro (⟨c, o, d, h, _⟩ | ⟨c, r, h, _⟩) <;> cases h
  | some p =>
    obtain ⟨c, o⟩ := p
    cases o with
    | none =>
      constructor
      · rintro ⟨d, h1, h2, h3⟩
        exact Or.inl ⟨c, none, d, rfl, h1, h2, h3, fun r h => by cases h⟩
      · rintro (⟨c', o', d, h, h1, h2, h3, _⟩ | ⟨c', r, h, _⟩)
        · cases h; exact ⟨d, h1, h2, h3⟩
        · cases h
    | some r =>
      constructor
      · rintro (⟨d, h1, h2, h3, h4⟩ | h)
        · exact Or.inl ⟨c, some r, d, rfl, h1, h2, h3, fun r' h => by cases h; exact h4⟩
        · exact Or.inr ⟨c, r, rfl, h⟩
      · rintro (⟨c', o', d, h, h1, h2, h3, h4⟩ | ⟨c', r', h, h'⟩)
        · cases h; exact Or.inl ⟨d, h1, h2, h3, h4 r rfl⟩
        · cases h; exact Or.inr h'

/-- What the tool holds of a handle is right, or another process has closed the handle. -/
def Right (y : Sys) (k : Key) (o : Option Nat) : Prop :=
  o = y.kern k ∨ (y.kern k = none ∧ y.ext k = true)

/-- What the tool remembers during a call that closes a handle of this process. -/
def stackOf : Info → Option Nat
  | .hci s => some s
  | _ => none

/-- A close that the kernel has carried out, of a call that has not come back. -/
def done (y : Sys) (t : Nat) (o c : Nat) : Prop :=
  ∃ cl r d, y.flight t = some (cl, some r) ∧ cl.dele = some d ∧ d.own = true ∧
    closes cl r = some d.key ∧ get y.tool.pend t = some (.hci o) ∧ cl.stack = c

/-- What holds over calm runs. -/
structure Exact (op : Opts) (y : Sys) : Prop where
  quiet : ∀ k, (∀ t, ¬ busy y t k) → Right y k (get y.tool.ents k)
  single : ∀ t t' k, busy y t k → busy y t' k → t = t'
  clos : ∀ t k, closing y t k → get y.tool.ents k = none ∧ Right y k (stackOf (infoOf t y.tool))
  open' : ∀ t k c r, y.flight t = some (c, some r) → k ∈ opens c r → Right y k (some c.stack)
  kgood : ∀ k s, y.kern k = some s → Good k
  pairs : ∀ o c, get y.tool.pairs o = some c → (o, c) ∈ y.hist
  hist : op.filter = true → ∀ o c, (o, c) ∈ y.hist → get y.tool.pairs o ≠ none ∨ ∃ t c', done y t o c'
  dones : ∀ t o c, done y t o c → (o, c) ∈ y.hist

theorem exact_init (op : Opts) : Exact op Sys.init where
  quiet := fun k _ => Or.inl rfl
  single := fun t t' k h => h.elim
  clos := fun t k h => by obtain ⟨c, o, d, h, _⟩ := h; cases h
  open' := fun t k c r h => by cases h
  kgood := fun k s h => by cases h
  pairs := fun o c h => by cases h
  hist := fun _ o c h => by cases h
  dones := fun t o c h => by obtain ⟨c, r, d, h, _⟩ := h; cases h

theorem kopen_kern (c : Call) (l : List Key) : ∀ (y : Sys) (k : Key),
    (k ∈ l → (kopen c l y).kern k = some c.stack ∧ (kopen c l y).ext k = false) ∧
    (k ∉ l → (kopen c l y).kern k = y.kern k ∧ (kopen c l y).ext k = y.ext k) := by
  induction l with
  | nil => intro y k; exact ⟨fun h => (by cases h), fun _ => ⟨rfl, rfl⟩⟩
  | cons a r ih =>
    intro y k
    unfold kopen
    have h := ih { y with
      kern := upd y.kern a (some c.stack)
      ext := upd y.ext a false } k
    by_cases hr : k ∈ r
    · exact ⟨fun _ => h.1 hr, fun hn => absurd (List.mem_cons_of_mem _ hr) hn⟩
    · have h2 := h.2 hr
      constructor
      · intro hm
        rcases List.mem_cons.mp hm with e | e
        · rw [h2.1, h2.2]
          dsimp only [upd]
          rw [if_pos e, if_pos e]
          exact ⟨rfl, rfl⟩
        · exact absurd e hr
      · intro hn
        have e : ¬ k = a := fun e => hn (by rw [e]; exact List.mem_cons_self)
        rw [h2.1, h2.2]
        dsimp only [upd]
        rw [if_neg e, if_neg e]
        exact ⟨rfl, rfl⟩

theorem kclose_kern (y : Sys) (c : Call) (o : Option Key) (k : Key) :
    (o = some k → (kclose y c o).kern k = none) ∧ (o ≠ some k → (kclose y c o).kern k = y.kern k) := by
  cases o with
  | none => exact ⟨fun h => (by cases h), fun _ => rfl⟩
  | some a =>
    constructor
    · intro h
      cases h
      show upd y.kern k none k = none
      unfold upd
      rw [if_pos rfl]
    · intro h
      show upd y.kern a none k = y.kern k
      unfold upd
      rw [if_neg (fun e => h (by rw [e]))]

theorem closes_some (c : Call) (r : Res) (k : Key) (h : closes c r = some k) :
    ∃ d, c.dele = some d ∧ d.own = true ∧ d.key = k ∧ took d r = true := by
  unfold closes at h
  cases hd : c.dele with
  | none => rw [hd] at h; cases h
  | some d =>
    rw [hd] at h
    dsimp only at h
    by_cases hc : (d.own && (d.forced || r.succ)) = true
    · rw [if_pos hc] at h
      cases h
      rw [Bool.and_eq_true] at hc
      exact ⟨d, rfl, hc.1, rfl, hc.2⟩
    · rw [if_neg hc] at h; cases h

theorem closes_of (c : Call) (r : Res) (d : Del) (hd : c.dele = some d) (ho : d.own = true) :
    (took d r = true → closes c r = some d.key) ∧ (took d r = false → closes c r = none) := by
  unfold closes took
  rw [hd]
  dsimp only
  rw [ho, Bool.true_and]
  constructor
  · intro h; rw [if_pos h]
  · intro h; rw [h]; rfl

theorem opens_of_fail (c : Call) (r : Res) (d : Del) (hd : c.dele = some d) (ho : d.own = true)
    (h : closes c r = none) : opens c r = [] := by
  have ht : took d r = false := by
    cases ht : took d r with
    | false => rfl
    | true => rw [(closes_of c r d hd ho).1 ht] at h; cases h
  unfold took at ht
  rw [Bool.or_eq_false_iff] at ht
  rw [opens_eq, ht.2]
  rfl

theorem exact_ext (op : Opts) (y : Sys) (k0 : Key) (h : Exact op y) :
    Exact op { y with
      kern := upd y.kern k0 none
      ext := upd y.ext k0 true } := by
  have hr : ∀ k o, Right y k o → Right { y with
      kern := upd y.kern k0 none
      ext := upd y.ext k0 true } k o := by
    intro k o hk
    unfold Right
    dsimp only [upd]
    by_cases e : k = k0
    · rw [if_pos e, if_pos e]; exact Or.inr ⟨rfl, rfl⟩
    · rw [if_neg e, if_neg e]; exact hk
  exact
  { quiet := fun k hk => hr k _ (h.quiet k hk)
    single := h.single
    clos := fun t k hk => ⟨(h.clos t k hk).1, hr k _ (h.clos t k hk).2⟩
    open' := fun t k c r h1 h2 => hr k _ (h.open' t k c r h1 h2)
    kgood := by
      intro k s hk
      dsimp only [upd] at hk
      by_cases e : k = k0
      · rw [if_pos e] at hk; cases hk
      · rw [if_neg e] at hk; exact h.kgood k s hk
    pairs := h.pairs
    hist := h.hist
    dones := h.dones }

theorem exact_nudge (op : Opts) (y : Sys) (l : Option (List Nat)) (h : Exact op y) :
    Exact op { y with tool := nudge op l y.tool } :=
  { quiet := h.quiet, single := h.single, clos := h.clos, open' := h.open', kgood := h.kgood,
    pairs := h.pairs, hist := h.hist, dones := h.dones }

theorem exact_exec (op : Opts) (y : Sys) (t : Nat) (r : Res) (c : Call) (h : Exact op y)
    (hf : y.flight t = some (c, none)) (hc : calm y (.exec t r)) :
    Exact op { kopen c (opens c r) (kclose y c (closes c r)) with
      flight := upd (kopen c (opens c r) (kclose y c (closes c r))).flight t (some (c, some r)) } := by
  have hc' := hc c hf
  have et := kopen_tool c (opens c r) (kclose y c (closes c r))
  have ec := kclose_tool y c (closes c r)
  have hk := kopen_kern c (opens c r) (kclose y c (closes c r))
  have hk2 := kclose_kern y c (closes c r)
  -- the new state
  generalize hy : kopen c (opens c r) (kclose y c (closes c r)) = z at *
  have htool : z.tool = y.tool := et.1.trans ec.1
  have hflt : z.flight = y.flight := et.2.1.trans ec.2.1
  have hhist : z.hist = (kclose y c (closes c r)).hist := et.2.2
  -- handles that the call does not touch
  have hsame : ∀ k, k ∉ opens c r → closes c r ≠ some k → z.kern k = y.kern k ∧ z.ext k = y.ext k := by
    intro k h1 h2
    have a := (hk k).2 h1
    exact ⟨a.1.trans ((hk2 k).2 h2), a.2.trans (by rw [ec.2.2])⟩
  have hcl : ∀ k, closes c r = some k → closing y t k := by
    intro k e
    obtain ⟨d, h1, h2, h3, _⟩ := closes_some c r k e
    exact ⟨c, none, d, hf, h1, h2, h3, fun r h => by cases h⟩
  have hfl : ∀ t', t' ≠ t → upd z.flight t (some (c, some r)) t' = y.flight t' := by
    intro t' e
    unfold upd
    rw [if_neg e, hflt]
  have hflt' : upd z.flight t (some (c, some r)) t = some (c, some r) := by
    unfold upd; rw [if_pos rfl]
  have hclo : ∀ t', t' ≠ t → ∀ k, (closing { z with flight := upd z.flight t (some (c, some r)) } t' k ↔
      closing y t' k) := by
    intro t' e k
    unfold closing
    dsimp only
    rw [hfl t' e]
  have hopo : ∀ t', t' ≠ t → ∀ k, (opening { z with flight := upd z.flight t (some (c, some r)) } t' k ↔
      opening y t' k) := by
    intro t' e k
    unfold opening
    dsimp only
    rw [hfl t' e]
  have hbo : ∀ t', t' ≠ t → ∀ k, (busy { z with flight := upd z.flight t (some (c, some r)) } t' k ↔
      busy y t' k) := by
    intro t' e k
    rw [busy_iff, busy_iff, hclo t' e k, hopo t' e k]
  have hct : ∀ k, closing { z with flight := upd z.flight t (some (c, some r)) } t k →
      closing y t k ∧ closes c r = none ∧ opens c r = [] := by
    rintro k ⟨c', o', d, h1, h2, h3, h4, h5⟩
    dsimp only at h1
    rw [hflt'] at h1
    cases h1
    have hn := h5 r rfl
    exact ⟨⟨c, none, d, hf, h2, h3, h4, fun r h => by cases h⟩, hn, opens_of_fail c r d h2 h3 hn⟩
  have hother : ∀ t' k, t' ≠ t → busy y t' k → k ∉ opens c r ∧ closes c r ≠ some k := by
    intro t' k e hb
    refine ⟨fun hm => hc'.1 k hm t' e hb, fun hcs => ?_⟩
    exact e (h.single t' t k hb ((busy_iff y t k).mpr (Or.inl (hcl k hcs))))
  have hright : ∀ t' k o, t' ≠ t → busy y t' k → Right y k o →
      Right { z with flight := upd z.flight t (some (c, some r)) } k o := by
    intro t' k o e hb hR
    have a := hother t' k e hb
    have b := hsame k a.1 a.2
    unfold Right
    dsimp only
    rw [b.1, b.2]
    exact hR
  have hmono : ∀ p, p ∈ y.hist → p ∈ z.hist := by
    intro p hpm
    rw [hhist]
    unfold kclose
    cases closes c r with
    | none => exact hpm
    | some k0 =>
      dsimp only
      cases y.kern k0 with
      | none => exact hpm
      | some o => exact List.mem_cons_of_mem _ hpm
  have hdone : ∀ t' o c', t' ≠ t → (done { z with flight := upd z.flight t (some (c, some r)) } t' o c' ↔
      done y t' o c') := by
    intro t' o c' e
    unfold done
    dsimp only
    rw [hfl t' e, htool]
  constructor
  · -- quiet
    intro k hq
    have hno : k ∉ opens c r := by
      intro hm
      exact hq t ((busy_iff _ _ _).mpr (Or.inr ⟨c, r, hflt', hm⟩))
    unfold Right
    dsimp only
    rw [htool]
    by_cases hcs : closes c r = some k
    · left
      rw [((hk k).2 hno).1, (hk2 k).1 hcs]
      exact (h.clos t k (hcl k hcs)).1
    · have b := hsame k hno hcs
      rw [b.1, b.2]
      apply h.quiet k
      intro t' hb
      by_cases e : t' = t
      · rw [e] at hb
        rcases (busy_iff y t k).mp hb with hb | hb
        · obtain ⟨c', o', d, h1, h2, h3, h4, _⟩ := hb
          rw [hf] at h1
          cases h1
          cases ht : took d r with
          | true => exact hcs (by rw [(closes_of c r d h2 h3).1 ht, h4])
          | false =>
            exact hq t ((busy_iff _ _ _).mpr (Or.inl ⟨c, some r, d, hflt', h2, h3, h4,
              fun r' h => by cases h; exact (closes_of c r d h2 h3).2 ht⟩))
        · obtain ⟨c', r', h1, _⟩ := hb
          rw [hf] at h1; cases h1
      · exact hq t' ((hbo t' e k).mpr hb)
  · -- single
    have hone : ∀ t' k, t' ≠ t → busy { z with flight := upd z.flight t (some (c, some r)) } t k →
        busy { z with flight := upd z.flight t (some (c, some r)) } t' k → False := by
      intro t' k e hb hb'
      have hb'' := (hbo t' e k).mp hb'
      rcases (busy_iff _ _ _).mp hb with hb | hb
      · exact e (h.single t' t k hb'' ((busy_iff y t k).mpr (Or.inl (hct k hb).1)))
      · obtain ⟨c', r', h1, h2⟩ := hb
        dsimp only at h1
        rw [hflt'] at h1
        cases h1
        exact (hother t' k e hb'').1 h2
    intro t1 t2 k h1 h2
    by_cases e1 : t1 = t
    · by_cases e2 : t2 = t
      · rw [e1, e2]
      · rw [e1] at h1
        exact (hone t2 k e2 h1 h2).elim
    · by_cases e2 : t2 = t
      · rw [e2] at h2
        exact (hone t1 k e1 h2 h1).elim
      · exact h.single t1 t2 k ((hbo t1 e1 k).mp h1) ((hbo t2 e2 k).mp h2)
  · -- clos
    intro t' k hcl'
    dsimp only
    rw [htool]
    by_cases e : t' = t
    · rw [e] at hcl' ⊢
      obtain ⟨a1, a2, a3⟩ := hct k hcl'
      refine ⟨(h.clos t k a1).1, ?_⟩
      have b := hsame k (by rw [a3]; exact List.not_mem_nil) (by rw [a2]; exact fun h => by cases h)
      unfold Right
      dsimp only
      rw [b.1, b.2]
      exact (h.clos t k a1).2
    · have a := (hclo t' e k).mp hcl'
      exact ⟨(h.clos t' k a).1, hright t' k _ e ((busy_iff _ _ _).mpr (Or.inl a)) (h.clos t' k a).2⟩
  · -- open'
    intro t' k c' r' h1 h2
    dsimp only at h1
    by_cases e : t' = t
    · rw [e, hflt'] at h1
      cases h1
      left
      exact (((hk k).1 h2).1).symm
    · rw [hfl t' e] at h1
      exact hright t' k _ e ((busy_iff _ _ _).mpr (Or.inr ⟨c', r', h1, h2⟩)) (h.open' t' k c' r' h1 h2)
  · -- kgood
    intro k s hs
    dsimp only at hs
    by_cases hm : k ∈ opens c r
    · exact good_of_opens c r k hm
    · rw [((hk k).2 hm).1] at hs
      by_cases hcs : closes c r = some k
      · rw [(hk2 k).1 hcs] at hs; cases hs
      · rw [(hk2 k).2 hcs] at hs
        exact h.kgood k s hs
  · -- pairs
    intro o c' hpa
    dsimp only at hpa
    rw [htool] at hpa
    exact hmono _ (h.pairs o c' hpa)
  · -- hist
    intro hfil o c' hm
    dsimp only at hm ⊢
    have hold : (o, c') ∈ y.hist → get z.tool.pairs o ≠ none ∨
        ∃ t' c', done { z with flight := upd z.flight t (some (c, some r)) } t' o c' := by
      intro hm
      rcases h.hist hfil o c' hm with hh | ⟨t', c'', hd⟩
      · exact Or.inl (by rw [htool]; exact hh)
      · right
        have e : t' ≠ t := by
          intro e
          obtain ⟨cl, r', d, h1, _⟩ := hd
          rw [e, hf] at h1; cases h1
        exact ⟨t', c'', (hdone t' o c'' e).mpr hd⟩
    rw [hhist] at hm
    cases hcs : closes c r with
    | none => rw [hcs] at hm; exact hold hm
    | some k0 =>
      rw [hcs] at hm
      unfold kclose at hm
      dsimp only at hm
      cases hk0 : y.kern k0 with
      | none => rw [hk0] at hm; exact hold hm
      | some o0 =>
        rw [hk0] at hm
        rcases List.mem_cons.mp hm with e | e
        · cases e
          right
          have hci := (h.clos t k0 (hcl _ hcs)).2
          obtain ⟨d, d1, d2, d3, d4⟩ := closes_some c r k0 hcs
          refine ⟨t, c.stack, c, r, d, hflt', d1, d2, by rw [hcs, d3], ?_, rfl⟩
          show get z.tool.pend t = _
          rw [htool]
          unfold infoOf at hci
          cases hg : get y.tool.pend t with
          | none =>
            rw [hg] at hci
            rcases hci with hh | ⟨hh, _⟩
            · rw [hk0] at hh; cases hh
            · rw [hk0] at hh; cases hh
          | some i =>
            rw [hg] at hci
            cases i with
            | hci s =>
              rcases hci with hh | ⟨hh, _⟩
              · rw [hk0] at hh; cases hh; rfl
              · rw [hk0] at hh; cases hh
            | null =>
              rcases hci with hh | ⟨hh, _⟩
              · rw [hk0] at hh; cases hh
              · rw [hk0] at hh; cases hh
            | other =>
              rcases hci with hh | ⟨hh, _⟩
              · rw [hk0] at hh; cases hh
              · rw [hk0] at hh; cases hh
        · exact hold e
  · -- dones
    intro t' o c' hd
    show (o, c') ∈ z.hist
    by_cases e : t' = t
    · rw [e] at hd
      obtain ⟨cl, r', d, h1, h2, h3, h4, h5, h6⟩ := hd
      dsimp only at h1 h5
      rw [hflt'] at h1
      cases h1
      rw [htool] at h5
      have hci := (h.clos t d.key (hcl _ h4)).2
      unfold infoOf at hci
      rw [h5] at hci
      have hks : y.kern d.key = some o := by
        rcases hci with hh | ⟨hh, hh'⟩
        · exact hh.symm
        · rw [hc'.2 d.key h4 hh] at hh'; cases hh'
      rw [hhist, h4]
      unfold kclose
      dsimp only
      rw [hks, ← h6]
      exact List.mem_cons_self
    · exact hmono _ (h.dones t' o c' ((hdone t' o c' e).mp hd))

theorem get_cons_ne {κ α : Type} [DecidableEq κ] (l : List (κ × α)) (k x : κ) (v : α) (h : x ≠ k) :
    get ((k, v) :: l) x = get l x := by
  conv => lhs; unfold get
  rw [if_neg (fun e => h e.symm)]

theorem get_cons_eq {κ α : Type} [DecidableEq κ] (l : List (κ × α)) (k : κ) (v : α) :
    get ((k, v) :: l) k = some v := by
  unfold get
  rw [if_pos rfl]

theorem exact_pre (op : Opts) (y : Sys) (t : Nat) (c : Call) (st : St) (hi : Inv y) (h : Exact op y)
    (hf : y.flight t = none) (hc : calm y (.pre t c)) (hs : preCall t c y.tool = some st) :
    Exact op { y with
      tool := st
      flight := upd y.flight t (some (c, none)) } := by
  have hp : get y.tool.pend t = none := by
    cases hg : get y.tool.pend t with
    | none => rfl
    | some i =>
      obtain ⟨c', o', d', h1, _⟩ := hi.flight t (by rw [hg]; exact Option.some_ne_none _)
      rw [hf] at h1; cases h1
  obtain ⟨st', a1, _, a3, a4, a5⟩ := preCall_ok t c y.tool hi.refs hp
  rw [hs] at a1
  cases a1
  have hfl : ∀ t', t' ≠ t → upd y.flight t (some (c, none)) t' = y.flight t' := by
    intro t' e
    unfold upd
    rw [if_neg e]
  have hflt' : upd y.flight t (some (c, none)) t = some (c, none) := by
    unfold upd; rw [if_pos rfl]
  have hclo : ∀ t', t' ≠ t → ∀ k, (closing { y with
      tool := st
      flight := upd y.flight t (some (c, none)) } t' k ↔ closing y t' k) := by
    intro t' e k
    unfold closing
    dsimp only
    rw [hfl t' e]
  have hopo : ∀ t', t' ≠ t → ∀ k, (opening { y with
      tool := st
      flight := upd y.flight t (some (c, none)) } t' k ↔ opening y t' k) := by
    intro t' e k
    unfold opening
    dsimp only
    rw [hfl t' e]
  have hbo : ∀ t', t' ≠ t → ∀ k, (busy { y with
      tool := st
      flight := upd y.flight t (some (c, none)) } t' k ↔ busy y t' k) := by
    intro t' e k
    rw [busy_iff, busy_iff, hclo t' e k, hopo t' e k]
  have hnb : ∀ k, ¬ busy y t k := by
    intro k hb
    rcases (busy_iff _ _ _).mp hb with ⟨c', o', d, h1, _⟩ | ⟨c', r', h1, _⟩
    · rw [hf] at h1; cases h1
    · rw [hf] at h1; cases h1
  have hbt : ∀ k, busy { y with
      tool := st
      flight := upd y.flight t (some (c, none)) } t k →
      ∃ d, c.dele = some d ∧ d.own = true ∧ d.key = k := by
    intro k hb
    rcases (busy_iff _ _ _).mp hb with ⟨c', o', d, h1, h2, h3, h4, _⟩ | ⟨c', r', h1, _⟩
    · dsimp only at h1
      rw [hflt'] at h1; cases h1; exact ⟨d, h2, h3, h4⟩
    · dsimp only at h1
      rw [hflt'] at h1; cases h1
  -- entries other than the one to be closed
  have hents : ∀ k, (∀ d, c.dele = some d → d.own = true → d.key ≠ k) → get st.ents k = get y.tool.ents k := by
    intro k hk
    rw [a4]
    cases hd : c.dele with
    | none => rfl
    | some d =>
      dsimp only
      unfold entsPre
      split
      · rfl
      · by_cases ho : d.own = false
        · rw [if_pos ho]
        · rw [if_neg ho]
          exact get_del_ne _ _ _ (fun e => hk d hd (by simpa using ho) e.symm)
  have hpend : ∀ t', t' ≠ t → get st.pend t' = get y.tool.pend t' := by
    intro t' e
    rw [a5]
    cases c.dele with
    | none => rfl
    | some d => exact get_cons_ne _ _ _ _ e
  have hothk : ∀ t' k, t' ≠ t → busy y t' k → ∀ d, c.dele = some d → d.own = true → d.key ≠ k := by
    intro t' k _ hb d h1 h2 h3
    rw [← h3] at hb
    exact hc d h1 h2 t' hb
  have hdone : ∀ t' o c', (done { y with
      tool := st
      flight := upd y.flight t (some (c, none)) } t' o c' ↔ done y t' o c') := by
    intro t' o c'
    by_cases e : t' = t
    · constructor
      · rintro ⟨cl, r, d, h1, _⟩
        dsimp only at h1
        rw [e, hflt'] at h1; cases h1
      · rintro ⟨cl, r, d, h1, _⟩
        rw [e, hf] at h1; cases h1
    · unfold done
      dsimp only
      rw [hfl t' e, hpend t' e]
  constructor
  · intro k hq
    unfold Right
    dsimp only
    rw [hents k (by
      intro d h1 h2 h3
      exact hq t ((busy_iff _ _ _).mpr (Or.inl ⟨c, none, d, hflt', h1, h2, h3, fun r h => by cases h⟩)))]
    apply h.quiet k
    intro t' hb
    by_cases e : t' = t
    · rw [e] at hb; exact hnb k hb
    · exact hq t' ((hbo t' e k).mpr hb)
  · intro t1 t2 k h1 h2
    by_cases e1 : t1 = t
    · by_cases e2 : t2 = t
      · rw [e1, e2]
      · rw [e1] at h1
        obtain ⟨d, d1, d2, d3⟩ := hbt k h1
        have := (hbo t2 e2 k).mp h2
        rw [← d3] at this
        exact (hc d d1 d2 t2 this).elim
    · by_cases e2 : t2 = t
      · rw [e2] at h2
        obtain ⟨d, d1, d2, d3⟩ := hbt k h2
        have := (hbo t1 e1 k).mp h1
        rw [← d3] at this
        exact (hc d d1 d2 t1 this).elim
      · exact h.single t1 t2 k ((hbo t1 e1 k).mp h1) ((hbo t2 e2 k).mp h2)
  · intro t' k hcl
    dsimp only
    by_cases e : t' = t
    · rw [e] at hcl ⊢
      obtain ⟨c', o', d, h1, h2, h3, h4, _⟩ := hcl
      dsimp only at h1
      rw [hflt'] at h1
      cases h1
      have hnq := h.quiet k (by rw [← h4]; exact hc d h2 h3)
      have hinfo : infoOf t st = infoPre d y.tool.ents := by
        unfold infoOf
        rw [a5, h2]
        dsimp only
        rw [get_cons_eq]
        rfl
      rw [a4, h2, hinfo]
      dsimp only
      unfold entsPre infoPre
      by_cases hv : d.key.2 = invalid
      · rw [if_pos hv, if_pos hv]
        have hkn : y.kern k = none := by
          cases hk : y.kern k with
          | none => rfl
          | some s => exact absurd hv (by rw [h4]; exact (h.kgood k s hk).1)
        constructor
        · cases hg : get y.tool.ents k with
          | none => rfl
          | some s => exact absurd hv (by rw [h4]; exact (hi.good k s hg).1)
        · left; exact hkn.symm
      · rw [if_neg hv, if_neg hv, if_neg (by rw [h3]; decide), if_neg (by rw [h3]; decide), h4]
        refine ⟨get_del_self _ _ hi.uents, ?_⟩
        cases hg : get y.tool.ents k with
        | none => rw [hg] at hnq; exact hnq
        | some s => rw [hg] at hnq; exact hnq
    · have a := (hclo t' e k).mp hcl
      have b := h.clos t' k a
      rw [hents k (hothk t' k e ((busy_iff _ _ _).mpr (Or.inl a)))]
      refine ⟨b.1, ?_⟩
      have : infoOf t' st = infoOf t' y.tool := by
        unfold infoOf
        rw [hpend t' e]
      rw [this]
      exact b.2
  · intro t' k c' r' h1 h2
    dsimp only at h1
    by_cases e : t' = t
    · rw [e, hflt'] at h1; cases h1
    · rw [hfl t' e] at h1
      exact h.open' t' k c' r' h1 h2
  · exact h.kgood
  · intro o c' hpa
    dsimp only at hpa
    rw [a3] at hpa
    exact h.pairs o c' hpa
  · intro hfil o c' hm
    dsimp only
    rw [a3]
    rcases h.hist hfil o c' hm with hh | ⟨t', c'', hd⟩
    · exact Or.inl hh
    · exact Or.inr ⟨t', c'', (hdone t' o c'').mpr hd⟩
  · intro t' o c' hd
    exact h.dones t' o c' ((hdone t' o c').mp hd)

theorem get_pairsAfter (op : Opts) (o c : Nat) (l : List (Nat × Nat)) (x : Nat) :
    (∀ v, get (pairsAfter op o c l) x = some v → get l x = some v ∨ (x = o ∧ v = c)) ∧
    (get l x ≠ none → get (pairsAfter op o c l) x ≠ none) ∧
    (op.filter = true → get (pairsAfter op o c l) o ≠ none) := by
  unfold pairsAfter
  cases hf : op.filter with
  | false =>
    rw [if_pos rfl]
    exact ⟨fun v h => Or.inl h, fun h => h, fun h => (by cases h)⟩
  | true =>
    rw [if_neg (by decide)]
    cases hg : get l o with
    | some w =>
      exact ⟨fun v h => Or.inl h, fun h => h, fun _ => (by dsimp only; rw [hg]; exact Option.some_ne_none _)⟩
    | none =>
      dsimp only
      refine ⟨fun v h => ?_, fun h => ?_, fun _ => ?_⟩
      · by_cases e : x = o
        · rw [e, get_cons_eq] at h
          cases h
          exact Or.inr ⟨e, rfl⟩
        · rw [get_cons_ne _ _ _ _ e] at h
          exact Or.inl h
      · by_cases e : x = o
        · rw [e] at h; exact absurd hg h
        · rw [get_cons_ne _ _ _ _ e]; exact h
      · rw [get_cons_eq]; exact Option.some_ne_none _

theorem exact_post (op : Opts) (y : Sys) (t : Nat) (c : Call) (r : Res) (st : St) (hi : Inv y)
    (h : Exact op y) (hf : y.flight t = some (c, some r)) (hs : postCall op t c r y.tool = some st) :
    Exact op { y with
      tool := st
      flight := upd y.flight t none } := by
  obtain ⟨st', a1, _, _, a4, a5, a6, a7⟩ := postCall_ok op t c r y.tool hi.refs hi.uents
  rw [hs] at a1
  cases a1
  have hfl : ∀ t', t' ≠ t → upd y.flight t none t' = y.flight t' := by
    intro t' e
    unfold upd
    rw [if_neg e]
  have hflt' : upd y.flight t none t = none := by
    unfold upd; rw [if_pos rfl]
  have hclo : ∀ t', t' ≠ t → ∀ k, (closing { y with
      tool := st
      flight := upd y.flight t none } t' k ↔ closing y t' k) := by
    intro t' e k
    unfold closing
    dsimp only
    rw [hfl t' e]
  have hopo : ∀ t', t' ≠ t → ∀ k, (opening { y with
      tool := st
      flight := upd y.flight t none } t' k ↔ opening y t' k) := by
    intro t' e k
    unfold opening
    dsimp only
    rw [hfl t' e]
  have hbo : ∀ t', t' ≠ t → ∀ k, (busy { y with
      tool := st
      flight := upd y.flight t none } t' k ↔ busy y t' k) := by
    intro t' e k
    rw [busy_iff, busy_iff, hclo t' e k, hopo t' e k]
  have hbt : ∀ k, ¬ busy { y with
      tool := st
      flight := upd y.flight t none } t k := by
    intro k hb
    rcases (busy_iff _ _ _).mp hb with ⟨c', o', d, h1, _⟩ | ⟨c', r', h1, _⟩
    · dsimp only at h1
      rw [hflt'] at h1; cases h1
    · dsimp only at h1
      rw [hflt'] at h1; cases h1
  have hpend : ∀ t', t' ≠ t → get st.pend t' = get y.tool.pend t' := by
    intro t' e
    rw [a4]
    cases c.dele with
    | none => rfl
    | some d => exact get_del_ne _ _ _ e
  have hhci : ∀ s, infoOf t y.tool = .hci s → get y.tool.pend t = some (.hci s) := by
    intro s hs
    unfold infoOf at hs
    cases hg : get y.tool.pend t with
    | none => rw [hg] at hs; cases hs
    | some i => rw [hg] at hs; exact congrArg some hs
  -- the close failed: what it was to close
  have hfail : ∀ d s, c.dele = some d → infoOf t y.tool = .hci s → took d r = false →
      closing y t d.key := by
    intro d s hd hs ht
    have ho := (hi.pgood t s c (some r) d (hhci s hs) hf hd).2
    exact ⟨c, some r, d, hf, hd, ho, rfl, fun r' e => by cases e; exact (closes_of c r d hd ho).2 ht⟩
  have hents : ∀ k, ¬ busy y t k → get st.ents k = get y.tool.ents k := by
    intro k hb
    have hno : k ∉ opens c r := fun hm => hb ((busy_iff _ _ _).mpr (Or.inr ⟨c, r, hf, hm⟩))
    rw [a7 k hno]
    cases hd : c.dele with
    | none => rfl
    | some d =>
      dsimp only
      unfold entsPost
      cases hin : infoOf t y.tool with
      | null => rfl
      | other => rfl
      | hci s =>
        cases ht : took d r with
        | true => rfl
        | false =>
          dsimp only
          rw [get_put, if_neg]
          intro e
          rw [e] at hb
          exact hb ((busy_iff _ _ _).mpr (Or.inl (hfail d s hd hin ht)))
  have hdone : ∀ t', t' ≠ t → ∀ o c', (done { y with
      tool := st
      flight := upd y.flight t none } t' o c' ↔ done y t' o c') := by
    intro t' e o c'
    unfold done
    dsimp only
    rw [hfl t' e, hpend t' e]
  have hndone : ∀ o c', ¬ done { y with
      tool := st
      flight := upd y.flight t none } t o c' := by
    rintro o c' ⟨cl, r', d, h1, _⟩
    dsimp only at h1
    rw [hflt'] at h1; cases h1
  -- the close took effect: the pair is right
  have htook : ∀ d s, c.dele = some d → infoOf t y.tool = .hci s → took d r = true →
      done y t s c.stack := by
    intro d s hd hs ht
    have ho := (hi.pgood t s c (some r) d (hhci s hs) hf hd).2
    exact ⟨c, r, d, hf, hd, ho, (closes_of c r d hd ho).1 ht, hhci s hs, rfl⟩
  constructor
  · intro k hq
    show Right y k (get st.ents k)
    have hrest : ∀ t', t' ≠ t → ¬ busy y t' k := fun t' e hb => hq t' ((hbo t' e k).mpr hb)
    by_cases hm : k ∈ opens c r
    · rw [a6 k hm]
      exact h.open' t k c r hf hm
    · by_cases hb : busy y t k
      · rcases (busy_iff _ _ _).mp hb with hcl | hop
        · have b := h.clos t k hcl
          obtain ⟨c', o', d, h1, h2, h3, h4, h5⟩ := hcl
          rw [hf] at h1
          cases h1
          have ht : took d r = false := by
            cases ht : took d r with
            | false => rfl
            | true =>
              have := h5 r rfl
              rw [(closes_of c r d h2 h3).1 ht] at this; cases this
          rw [a7 k hm, h2]
          dsimp only
          unfold entsPost
          rw [ht]
          cases hin : infoOf t y.tool with
          | null => rw [hin] at b; dsimp only; rw [b.1]; exact b.2
          | other => rw [hin] at b; dsimp only; rw [b.1]; exact b.2
          | hci s =>
            rw [hin] at b
            dsimp only
            rw [get_put, if_pos h4.symm]
            exact b.2
        · obtain ⟨c', r', h1, h2⟩ := hop
          rw [hf] at h1
          cases h1
          exact absurd h2 hm
      · rw [hents k hb]
        apply h.quiet k
        intro t' hb'
        by_cases e : t' = t
        · rw [e] at hb'; exact hb hb'
        · exact hrest t' e hb'
  · intro t1 t2 k h1 h2
    have e1 : t1 ≠ t := fun e => hbt k (by rw [e] at h1; exact h1)
    have e2 : t2 ≠ t := fun e => hbt k (by rw [e] at h2; exact h2)
    exact h.single t1 t2 k ((hbo t1 e1 k).mp h1) ((hbo t2 e2 k).mp h2)
  · intro t' k hcl
    dsimp only
    have e : t' ≠ t := fun e => hbt k ((busy_iff _ _ _).mpr (Or.inl (by rw [e] at hcl; exact hcl)))
    have a := (hclo t' e k).mp hcl
    have b := h.clos t' k a
    have hnb : ¬ busy y t k := fun hb => e (h.single t' t k ((busy_iff _ _ _).mpr (Or.inl a)) hb)
    rw [hents k hnb]
    refine ⟨b.1, ?_⟩
    have : infoOf t' st = infoOf t' y.tool := by
      unfold infoOf
      rw [hpend t' e]
    rw [this]
    exact b.2
  · intro t' k c' r' h1 h2
    dsimp only at h1
    by_cases e : t' = t
    · rw [e, hflt'] at h1; cases h1
    · rw [hfl t' e] at h1
      exact h.open' t' k c' r' h1 h2
  · exact h.kgood
  · intro o c' hpa
    dsimp only at hpa ⊢
    rw [a5] at hpa
    cases hd : c.dele with
    | none => rw [hd] at hpa; exact h.pairs o c' hpa
    | some d =>
      rw [hd] at hpa
      dsimp only at hpa
      unfold pairsPost at hpa
      cases hin : infoOf t y.tool with
      | null => rw [hin] at hpa; exact h.pairs o c' hpa
      | other => rw [hin] at hpa; exact h.pairs o c' hpa
      | hci s =>
        rw [hin] at hpa
        cases ht : took d r with
        | false => rw [ht] at hpa; exact h.pairs o c' hpa
        | true =>
          rw [ht] at hpa
          rcases (get_pairsAfter op s c.stack y.tool.pairs o).1 c' hpa with hh | ⟨hh, hh'⟩
          · exact h.pairs o c' hh
          · rw [hh, hh']
            exact h.dones t s c.stack (htook d s hd hin ht)
  · intro hfil o c' hm
    dsimp only
    have hkeep : get y.tool.pairs o ≠ none → get st.pairs o ≠ none := by
      intro hn
      rw [a5]
      cases hd : c.dele with
      | none => exact hn
      | some d =>
        dsimp only
        unfold pairsPost
        split
        · exact (get_pairsAfter op _ c.stack y.tool.pairs o).2.1 hn
        · exact hn
    rcases h.hist hfil o c' hm with hh | ⟨t', c'', hdn⟩
    · exact Or.inl (hkeep hh)
    · by_cases e : t' = t
      · left
        rw [e] at hdn
        obtain ⟨cl, r', d, h1, h2, h3, h4, h5, h6⟩ := hdn
        rw [hf] at h1
        cases h1
        have ht : took d r = true := by
          cases ht : took d r with
          | true => rfl
          | false => rw [(closes_of c r d h2 h3).2 ht] at h4; cases h4
        have hin : infoOf t y.tool = .hci o := by
          unfold infoOf
          rw [h5]
          rfl
        rw [a5, h2, hin]
        dsimp only
        unfold pairsPost
        rw [ht]
        exact (get_pairsAfter op o c.stack y.tool.pairs o).2.2 hfil
      · exact Or.inr ⟨t', c'', (hdone t' e o c'').mpr hdn⟩
  · intro t' o c' hd
    by_cases e : t' = t
    · rw [e] at hd; exact (hndone o c' hd).elim
    · exact h.dones t' o c' ((hdone t' e o c').mp hd)

/-- Over a calm run the tables stay right. -/
theorem exact_step (op : Opts) (y : Sys) (e : Ev) (y1 : Sys) (hi : Inv y) (h : Exact op y)
    (he : enabled y e) (hc : calm y e) (hs : step op y e = some y1) : Exact op y1 := by
  cases e with
  | ext k => cases hs; exact exact_ext op y k h
  | nudge l => cases hs; exact exact_nudge op y l h
  | exec t r =>
    obtain ⟨c, hf, _⟩ := he
    unfold step at hs
    dsimp only at hs
    rw [hf] at hs
    cases hs
    exact exact_exec op y t r c h hf hc
  | pre t c =>
    unfold step at hs
    dsimp only at hs
    cases hp : preCall t c y.tool with
    | none => rw [hp] at hs; cases hs
    | some st => rw [hp] at hs; cases hs; exact exact_pre op y t c st hi h he hc hp
  | post t =>
    obtain ⟨c, r, hf⟩ := he
    unfold step at hs
    dsimp only at hs
    rw [hf] at hs
    dsimp only at hs
    cases hp : postCall op t c r y.tool with
    | none => rw [hp] at hs; cases hs
    | some st => rw [hp] at hs; cases hs; exact exact_post op y t c r st hi h hf hp

theorem calm_exact (op : Opts) {y : Sys} {es : List Ev} {y2 : Sys} (hi : Inv y) (h : Exact op y)
    (hr : CalmRun op y es y2) : Inv y2 ∧ Exact op y2 := by
  induction hr with
  | nil y => exact ⟨hi, h⟩
  | cons he hc hs _ ih =>
    obtain ⟨y1, h1, h2⟩ := step_ok op _ _ hi he
    rw [hs] at h1
    cases h1
    exact ih h2 (exact_step op _ _ _ hi h he hc hs)

end Verif.HandleCheck
