import Verif.GdiCheckThms
/-
C73: the reports of the GDI usage checks.
-/
namespace Verif.GdiCheck

/-- 1 for an object that is no stock object. -/
def one (h : Nat) : Nat := if stock h then 0 else 1

/-- How many objects in the DC are no stock objects. -/
def cnt (d : Real) : Nat := one (d.slots .bitmap) + one (d.slots .brush) + one (d.slots .pen) + one (d.slots .font)

/-- The agreement of both tables with GDI. -/
structure Exact (w : World) (st : St) : Prop extends Agree w st where
  count : ∀ h d c, w.dc h = some d → st.dcs h = some c → c.count = cnt d
  sel : ∀ o h, st.sel o = some h ↔ stock o = false ∧ Holds w h o
  typed : ∀ h d s, w.dc h = some d → slotOf (d.slots s) = some s

theorem one_le (h : Nat) : one h ≤ 1 := by unfold one; split <;> omega

theorem cnt_le (d : Real) : cnt d ≤ 4 := by
  have := one_le (d.slots .bitmap)
  have := one_le (d.slots .brush)
  have := one_le (d.slots .pen)
  have := one_le (d.slots .font)
  unfold cnt; omega

theorem one_pos (h : Nat) : 0 < one h ↔ stock h = false := by
  unfold one
  cases stock h <;> simp

theorem one_le_cnt (d : Real) (s : Slot) : one (d.slots s) ≤ cnt d := by
  unfold cnt; cases s <;> omega

theorem cnt_pos (d : Real) : 0 < cnt d ↔ ∃ s, stock (d.slots s) = false := by
  constructor
  · intro h
    by_cases h1 : 0 < one (d.slots .bitmap)
    · exact ⟨_, (one_pos _).mp h1⟩
    · by_cases h2 : 0 < one (d.slots .brush)
      · exact ⟨_, (one_pos _).mp h2⟩
      · by_cases h3 : 0 < one (d.slots .pen)
        · exact ⟨_, (one_pos _).mp h3⟩
        · refine ⟨.font, (one_pos _).mp ?_⟩
          unfold cnt at h; omega
  · rintro ⟨s, hs⟩
    have := one_le_cnt d s
    have := (one_pos _).mpr hs
    omega

theorem cnt_put (d : Real) (s : Slot) (new : Nat) : cnt (put d s new) + one (d.slots s) = cnt d + one new := by
  cases s <;> simp [cnt, put] <;> omega

theorem cnt_new (t : Nat) (g u p : Bool) : cnt (newDc t g u p) = 0 := by
  simp [cnt, newDc, one, stock_default]

theorem dec_small (n : Nat) (h0 : 0 < n) (h : n ≤ 4) : dec n = n - 1 := by unfold dec; omega

theorem inc_small (n : Nat) (h : n ≤ 4) : inc n = n + 1 := by unfold inc; omega

theorem Exact.unique {w st} (x : Exact w st) {o h h'} (ho : stock o = false) (h1 : Holds w h o)
    (h2 : Holds w h' o) : h = h' := by
  have e1 := (x.sel o h).mpr ⟨ho, h1⟩
  have e2 := (x.sel o h').mpr ⟨ho, h2⟩
  rw [e1] at e2
  exact Option.some.inj e2

theorem exact_init : Exact World.init St.init :=
  { toAgree := agree_init
    count := fun _ _ _ h _ => by cases h
    sel := fun o h => ⟨fun h' => (by cases h'), fun ⟨_, d, s, h1, _⟩ => (by cases h1)⟩
    typed := fun _ _ _ h => by cases h }

/-- A DC is added to both. -/
theorem exact_add {w : World} {st : St} (x : Exact w st) (t : Nat) (get dup priv : Bool) (hdc : Nat)
    (hz : hdc ≠ 0) (hn : w.dc hdc = none) (w' : World)
    (hw : w'.dc = upd w.dc hdc (some (newDc t get dup priv))) (st' : St) (hs : st'.sel = st.sel)
    (hd : st'.dcs = (dcAlloc t get (!get) dup hdc st).dcs) (a : Agree w' st') : Exact w' st' := by
  have hd' : st'.dcs = upd st.dcs hdc (some (Dc.mk t get (!get) dup false 0)) := by
    rw [hd]; unfold dcAlloc; rw [if_neg hz, (x.toAgree.none_iff hdc).mpr hn]
  refine { toAgree := a, count := ?_, sel := ?_, typed := ?_ }
  · intro h d c h1 h2
    rw [hw] at h1
    rw [hd'] at h2
    by_cases e : h = hdc
    · subst e; rw [upd_self] at h1 h2; cases h1; cases h2; exact (cnt_new _ _ _ _).symm
    · rw [upd_other _ _ _ _ e] at h1 h2; exact x.count h d c h1 h2
  · intro o h
    rw [hs, x.sel]
    constructor
    · rintro ⟨h1, d, s, h2, h3⟩
      have e : h ≠ hdc := fun e => by rw [e, hn] at h2; cases h2
      exact ⟨h1, d, s, by rw [hw, upd_other _ _ _ _ e]; exact h2, h3⟩
    · rintro ⟨h1, d, s, h2, h3⟩
      rw [hw] at h2
      by_cases e : h = hdc
      · subst e
        rw [upd_self] at h2; cases h2
        have h3 : defaults s = o := h3
        rw [← h3, stock_default] at h1; cases h1
      · rw [upd_other _ _ _ _ e] at h2; exact ⟨h1, d, s, h2, h3⟩
  · intro h d s h1
    rw [hw] at h1
    by_cases e : h = hdc
    · subst e; rw [upd_self] at h1; cases h1; exact slot_default s
    · rw [upd_other _ _ _ _ e] at h1; exact x.typed h d s h1

/-- A DC with stock objects only is removed from both. -/
theorem exact_del {w : World} {st : St} (x : Exact w st) (hdc : Nat) (hb : Bare w hdc) (w' : World)
    (hw : w'.dc = upd w.dc hdc none) (st' : St) (hs : st'.sel = st.sel) (hd : st'.dcs = upd st.dcs hdc none)
    (a : Agree w' st') : Exact w' st' := by
  refine { toAgree := a, count := ?_, sel := ?_, typed := ?_ }
  · intro h d c h1 h2
    rw [hw] at h1
    rw [hd] at h2
    by_cases e : h = hdc
    · subst e; rw [upd_self] at h1; cases h1
    · rw [upd_other _ _ _ _ e] at h1 h2; exact x.count h d c h1 h2
  · intro o h
    rw [hs, x.sel]
    constructor
    · rintro ⟨h1, d, s, h2, h3⟩
      have e : h ≠ hdc := by
        intro e
        subst e
        have := hb d h2 s
        rw [h3, h1] at this; cases this
      exact ⟨h1, d, s, by rw [hw, upd_other _ _ _ _ e]; exact h2, h3⟩
    · rintro ⟨h1, d, s, h2, h3⟩
      rw [hw] at h2
      by_cases e : h = hdc
      · subst e; rw [upd_self] at h2; cases h2
      · rw [upd_other _ _ _ _ e] at h2; exact ⟨h1, d, s, h2, h3⟩
  · intro h d s h1
    rw [hw] at h1
    by_cases e : h = hdc
    · subst e; rw [upd_self] at h1; cases h1
    · rw [upd_other _ _ _ _ e] at h1; exact x.typed h d s h1

theorem dcFree_parts (t : Nat) (c : Bool) (hdc : Nat) (st : St) :
    (dcFree t c hdc st).1.sel = st.sel ∧ (dcFree t c hdc st).1.dcs = upd st.dcs hdc none := by
  unfold dcFree
  cases hs : st.dcs hdc with
  | none =>
    refine ⟨rfl, ?_⟩
    funext h
    by_cases hx : h = hdc
    · subst hx; rw [upd_self, hs]
    · rw [upd_other _ _ _ _ hx]
  | some d => exact ⟨rfl, rfl⟩

/-- Nothing changes but the threads and paint DCs. -/
theorem exact_keep {w : World} {st : St} (x : Exact w st) (w' : World) (hw : w'.dc = w.dc) (st' : St)
    (hs : st'.sel = st.sel) (hd : ∀ h c, st'.dcs h = some c → ∃ c0, st.dcs h = some c0 ∧ c.count = c0.count)
    (a : Agree w' st') : Exact w' st' := by
  refine { toAgree := a, count := ?_, sel := ?_, typed := ?_ }
  · intro h d c h1 h2
    obtain ⟨c0, h3, h4⟩ := hd h c h2
    rw [hw] at h1
    rw [h4]; exact x.count h d c0 h1 h3
  · intro o h
    rw [hs, x.sel]
    unfold Holds; rw [hw]
  · intro h d s h1
    rw [hw] at h1; exact x.typed h d s h1

/-- A successful selection of an object of a slot. -/
theorem exact_select (multi : Bool) {w : World} {st : St} (x : Exact w st) (t hdc new : Nat) (d : Real) (s : Slot)
    (hd : w.dc hdc = some d) (hs : slotOf new = some s)
    (ht : stock new = true ∨ ∀ c, c ≠ hdc → ¬ Holds w c new) (w' : World)
    (hw : w'.dc = upd w.dc hdc (some (put d s new)))
    (a : Agree w' (selectObj multi t hdc (d.slots s) new st).1) :
    Exact w' (selectObj multi t hdc (d.slots s) new st).1 := by
  obtain ⟨c, hc, hv⟩ := x.toAgree.some hd
  have hcnt := x.count hdc d c hd hc
  have hty := x.typed hdc d s hd
  have hp : ¬ (d.slots s = 0 ∨ d.slots s = hgdiError) := by
    rintro (h | h)
    · rw [h, slot_zero] at hty; cases hty
    · rw [h, slot_error] at hty; cases hty
  have hle := cnt_le d
  have hle' := cnt_le (put d s new)
  have hput := cnt_put d s new
  have hge := one_le_cnt d s
  -- what is in the tables afterwards
  have key : ∃ c', (selectObj multi t hdc (d.slots s) new st).1.dcs = upd st.dcs hdc (some c') ∧
      c'.count = cnt (put d s new) ∧
      ∀ o, stock o = false → (selectObj multi t hdc (d.slots s) new st).1.sel o =
        if o = new then some hdc else if o = d.slots s then none else st.sel o := by
    unfold selectObj
    rw [hc]
    dsimp only
    rw [if_neg hp]
    have hdrop : (dropPrior (d.slots s) c st.sel).1.count = cnt d - one (d.slots s) ∧
        ∀ o, stock o = false → (dropPrior (d.slots s) c st.sel).2 o = if o = d.slots s then none else st.sel o := by
      unfold dropPrior
      cases hsp : stock (d.slots s) with
      | true =>
        rw [if_pos rfl]
        refine ⟨?_, ?_⟩
        · have : one (d.slots s) = 0 := by unfold one; rw [hsp]; rfl
          dsimp only; omega
        · intro o ho
          rw [if_neg]
          intro e
          rw [e, hsp] at ho; cases ho
      | false =>
        rw [if_neg (by decide)]
        have h1 : one (d.slots s) = 1 := by unfold one; rw [hsp]; rfl
        refine ⟨?_, fun o _ => rfl⟩
        dsimp only
        rw [if_pos (by omega)]
        dsimp only
        rw [hcnt, dec_small _ (by omega) hle, h1]
    cases hsn : stock new with
    | true =>
      rw [if_pos rfl]
      have h0 : one new = 0 := by unfold one; rw [hsn]; rfl
      refine ⟨_, rfl, by rw [hdrop.1]; omega, ?_⟩
      intro o ho
      have hne : o ≠ new := by
        intro e
        rw [e, hsn] at ho; cases ho
      rw [if_neg hne]
      exact hdrop.2 o ho
    | false =>
      rw [if_neg (by decide)]
      have h1 : one new = 1 := by unfold one; rw [hsn]; rfl
      refine ⟨_, rfl, ?_, ?_⟩
      · dsimp only
        rw [hdrop.1, inc_small _ (by omega)]; omega
      · intro o ho
        dsimp only
        unfold upd
        rw [hdrop.2 o ho]
  obtain ⟨c', k1, k2, k3⟩ := key
  -- objects that are stock are never in the table
  have hstock : ∀ o, stock o = true → (selectObj multi t hdc (d.slots s) new st).1.sel o = none := by
    intro o ho
    have h0 : st.sel o = none := by
      cases hq : st.sel o with
      | none => rfl
      | some h => have := ((x.sel o h).mp hq).1; rw [ho] at this; cases this
    unfold selectObj
    rw [hc]
    dsimp only
    rw [if_neg hp]
    have hdr : (dropPrior (d.slots s) c st.sel).2 o = none := by
      unfold dropPrior
      split
      · exact h0
      · dsimp only; unfold upd; split
        · rfl
        · exact h0
    split
    · exact hdr
    · rename_i hsn
      dsimp only
      rw [upd_other]
      · exact hdr
      · intro e; rw [e] at ho; exact hsn ho
  refine { toAgree := a, count := ?_, sel := ?_, typed := ?_ }
  · intro h d1 c1 h1 h2
    rw [hw] at h1
    rw [k1] at h2
    by_cases e : h = hdc
    · subst e; rw [upd_self] at h1 h2; cases h1; cases h2; exact k2
    · rw [upd_other _ _ _ _ e] at h1 h2; exact x.count h d1 c1 h1 h2
  · intro o h
    cases hso : stock o with
    | true =>
      rw [hstock o hso]
      exact ⟨fun h => (by cases h), fun h => (by cases h.1)⟩
    | false =>
      rw [k3 o hso]
      have hH : Holds w' h o ↔ (h = hdc ∧ o = new) ∨ (h = hdc ∧ ∃ s', s' ≠ s ∧ d.slots s' = o) ∨
          (h ≠ hdc ∧ Holds w h o) := by
        unfold Holds
        rw [hw]
        by_cases e : h = hdc
        · subst e
          rw [upd_self]
          constructor
          · rintro ⟨d1, s', h1, h2⟩
            cases h1
            by_cases es : s' = s
            · subst es
              exact Or.inl ⟨rfl, by rw [← h2]; simp [put]⟩
            · exact Or.inr (Or.inl ⟨rfl, s', es, by rw [← h2]; simp [put, es]⟩)
          · rintro (⟨_, h2⟩ | ⟨_, s', es, h2⟩ | ⟨h1, _⟩)
            · exact ⟨_, s, rfl, by rw [h2]; simp [put]⟩
            · exact ⟨_, s', rfl, by rw [← h2]; simp [put, es]⟩
            · exact absurd rfl h1
        · rw [upd_other _ _ _ _ e]
          constructor
          · intro h1; exact Or.inr (Or.inr ⟨e, h1⟩)
          · rintro (⟨h1, _⟩ | ⟨h1, _⟩ | ⟨_, h1⟩)
            · exact absurd h1 e
            · exact absurd h1 e
            · exact h1
      rw [hH]
      by_cases on : o = new
      · subst on
        rw [if_pos rfl]
        constructor
        · intro h1; exact ⟨rfl, Or.inl ⟨(Option.some.inj h1).symm, rfl⟩⟩
        · rintro ⟨_, ⟨h1, _⟩ | ⟨h1, _⟩ | ⟨h1, h2⟩⟩
          · rw [h1]
          · rw [h1]
          · rcases ht with ht | ht
            · rw [hso] at ht; cases ht
            · exact absurd h2 (ht h h1)
      · rw [if_neg on]
        by_cases op : o = d.slots s
        · rw [if_pos op]
          constructor
          · intro h1; cases h1
          · rintro ⟨_, ⟨_, h1⟩ | ⟨_, s', h1, h2⟩ | ⟨h1, h2⟩⟩
            · exact absurd h1 on
            · have e1 := x.typed hdc d s' hd
              rw [h2, op, hty] at e1
              exact absurd (Option.some.inj e1).symm h1
            · exact absurd (x.unique hso h2 ⟨d, s, hd, op.symm⟩) h1
        · rw [if_neg op, x.sel]
          constructor
          · rintro ⟨_, d1, s', h1, h2⟩
            refine ⟨rfl, Or.inr ?_⟩
            by_cases e : h = hdc
            · subst e
              rw [hd] at h1; cases h1
              exact Or.inl ⟨rfl, s', fun es => op (by rw [← h2, es]), h2⟩
            · exact Or.inr ⟨e, d1, s', h1, h2⟩
          · rintro ⟨_, ⟨_, h1⟩ | ⟨h0, s', h1, h2⟩ | ⟨h1, h2⟩⟩
            · exact absurd h1 on
            · exact ⟨hso, d, s', by rw [h0]; exact hd, h2⟩
            · exact ⟨hso, h2⟩
  · intro h d1 s' h1
    rw [hw] at h1
    by_cases e : h = hdc
    · subst e
      rw [upd_self] at h1; cases h1
      unfold put
      dsimp only
      by_cases es : s' = s
      · rw [if_pos es, es]; exact hs
      · rw [if_neg es]; exact x.typed h d s' hd
    · rw [upd_other _ _ _ _ e] at h1; exact x.typed h d1 s' h1

/-- Every plain and tidy call keeps both tables right. -/
theorem exact_step (multi : Bool) {w st} (x : Exact w st) (e : Ev) (he : enabled w e) (hp : Plain w e)
    (ht : Tidy w e) : Exact (gdi w e) (tool multi st e).1 := by
  have a := agree_step multi x.toAgree e he hp
  cases e with
  | alloc t get dup priv hdc =>
    by_cases hz : hdc = 0
    · have h1 : gdi w (.alloc t get dup priv hdc) = w := if_pos hz
      have h2 : (tool multi st (.alloc t get dup priv hdc)).1 = st := by
        show dcAlloc t get (!get) dup hdc st = st
        unfold dcAlloc; rw [if_pos hz]
      rw [h1, h2]; exact x
    · refine exact_add x t get dup priv hdc hz he.2 _ ?_ _ ?_ rfl a
      · show (if hdc = 0 then w else _).dc = _
        rw [if_neg hz]
      · show (dcAlloc t get (!get) dup hdc st).sel = st.sel
        unfold dcAlloc; rw [if_neg hz]; split <;> rfl
  | again t get hdc =>
    have h2 : (tool multi st (.again t get hdc)).1 = st := by
      show dcAlloc t get false false hdc st = st
      unfold dcAlloc
      split
      · rfl
      · cases hs : st.dcs hdc with
        | none => exact absurd ((x.toAgree.none_iff hdc).mp hs) he
        | some d => rfl
    rw [h2]; exact x
  | beginPaint t hdc priv =>
    obtain ⟨h1, h2, h3⟩ := hp
    refine exact_add x t true false priv hdc he.1 h3 _ ?_ _ ?_ rfl a
    · show (match w.dc hdc with
        | some _ => w.dc
        | none => upd w.dc hdc (some (newDc t true false priv))) = _
      rw [h3]
    · show (dcAlloc t true false false hdc st).sel = st.sel
      unfold dcAlloc; rw [if_neg he.1]; split <;> rfl
  | endPaint t hdc =>
    obtain ⟨h1, h2, h3, h4, h5, h6⟩ := agree_paint_end x.toAgree t hdc he
    have hq := dcFree_parts t false (st.paint t) { st with paint := upd st.paint t 0 }
    refine exact_del x hdc ht _ ?_ _ hq.1 ?_ a
    · show (match w.dc hdc with
        | some d => if d.priv then w.dc else upd w.dc hdc none
        | none => w.dc) = _
      cases hd : w.dc hdc with
      | none => exact absurd hd h2
      | some d =>
        have : d.priv = false := by
          cases hq : d.priv with
          | false => rfl
          | true => exact absurd ⟨d, hd, hq⟩ h3
        dsimp only
        rw [this, if_neg (by decide)]
    · rw [h1] at hq; rw [← hq.2]; show (dcFree t false (st.paint t) _).1.dcs = _; rw [h1]
  | release t hdc ok =>
    obtain ⟨h1, h2, h3⟩ := hp
    subst h1
    have hq := dcFree_parts t false hdc st
    refine exact_del x hdc ht _ ?_ _ hq.1 hq.2 a
    show (match w.dc hdc with
      | some d => if true && !d.priv then { w with dc := upd w.dc hdc none } else w
      | none => w).dc = _
    cases hd : w.dc hdc with
    | none => exact (congrArg World.dc (del_absent w hdc hd)).symm
    | some d =>
      have : d.priv = false := by
        cases hq : d.priv with
        | false => rfl
        | true => exact absurd ⟨d, hd, hq⟩ h2
      dsimp only
      rw [this, if_pos (by decide)]
  | delete t h ok =>
    have htd : if isDC h then Bare w h else stock h = true ∨ ∀ hdc, ¬ Holds w hdc h := ht
    cases hdc : isDC h with
    | true =>
      rw [hdc, if_pos rfl] at htd
      obtain ⟨h1, h2⟩ := hp hdc
      subst h1
      have hz : h ≠ 0 := by
        intro e
        rw [e] at hdc
        revert hdc
        decide +kernel
      have hf : (tool multi st (.delete t h true)).1 = (dcFree t true h st).1 := by
        show (objFree t h st).1 = _
        unfold objFree
        rw [if_neg hz, if_pos hdc]
      have hq := dcFree_parts t true h st
      refine exact_del x h htd _ ?_ _ (by rw [hf]; exact hq.1) (by rw [hf]; exact hq.2) a
      show (if isDC h && true then { w with dc := upd w.dc h none } else w).dc = _
      rw [hdc]; rfl
    | false =>
      rw [hdc, if_neg (by decide)] at htd
      have hf : (tool multi st (.delete t h ok)).1 = st := by
        show (objFree t h st).1 = _
        unfold objFree
        rw [hdc]
        rw [if_neg (by decide : ¬ (false = true))]
        split
        · rfl
        · split
          · rfl
          · rename_i hs
            cases hq : st.sel h with
            | none => rfl
            | some y =>
              rcases htd with ht | ht
              · exact absurd ht hs
              · exact absurd ((x.sel h y).mp hq).2 (ht y)
      have hg : gdi w (.delete t h ok) = w := by
        show (if isDC h && ok then _ else w) = w
        rw [hdc]; rfl
      rw [hf, hg]; exact x
  | select t hdc new res =>
    cases res with
    | none =>
      have hg : gdi w (.select t hdc new none) = w := by
        unfold gdi
        dsimp only
        split
        · rename_i h; cases h
        · rfl
      have hf : (tool multi st (.select t hdc new none)).1 = st := by
        show (selectObj multi t hdc 0 new st).1 = st
        unfold selectObj
        cases hs : st.dcs hdc with
        | none => rfl
        | some d => dsimp only; rw [if_pos (Or.inl rfl)]
      rw [hf, hg]; exact x
    | some p =>
      obtain ⟨hr, hx⟩ := ht
      obtain ⟨d, hd, ⟨s, hs, hps⟩ | ⟨hreg, _⟩⟩ := he
      · subst hps
        refine exact_select multi x t hdc new d s hd hs hx _ ?_ a
        unfold gdi
        dsimp only
        rw [hd, hs]
      · rw [hr] at hreg; cases hreg
  | exit t =>
    refine exact_keep x (gdi w (.exit t)) rfl (threadExit t st) rfl ?_ a
    intro h c hc
    have hc : (st.dcs h).map (fun d => if d.thread = t then { d with exited := true } else d) = some c := hc
    cases hs : st.dcs h with
    | none => rw [hs] at hc; cases hc
    | some c0 =>
      rw [hs] at hc
      refine ⟨c0, rfl, ?_⟩
      have := Option.some.inj hc
      rw [← this]
      dsimp only
      split <;> rfl

theorem run_exact {multi es w st rs} (h : TidyRun multi es w st rs) : Exact w st := by
  induction h with
  | nil => exact exact_init
  | snoc e _ he hp ht ih => exact exact_step multi ih e he hp ht

/-! ## The reports -/

/-- The reports about the pairing of calls and about threads. -/
def Report.pairing : Report → Bool
  | .mismatch _ | .otherThread _ _ _ _ | .exitedOwner _ _ | .twoThreads _ _ => true
  | _ => false

theorem mem_if {α : Type} (c : Prop) [Decidable c] (r a : α) : r ∈ (if c then [a] else []) ↔ c ∧ r = a := by
  by_cases h : c <;> simp [h]

theorem view_fields {c : Dc} {dead : Nat → Bool} {d : Real} (h : erase c = view dead d) :
    c.thread = d.owner ∧ c.get = d.get ∧ c.create = (!d.get) ∧ c.dup = d.dup ∧ c.exited = dead d.owner :=
  ⟨congrArg Dc.thread h, congrArg Dc.get h, congrArg Dc.create h, congrArg Dc.dup h, congrArg Dc.exited h⟩

theorem freeReps_mem (t : Nat) (b : Bool) (hdc : Nat) (c : Dc) (dead : Nat → Bool) (d : Real)
    (h : erase c = view dead d) (r : Report) : r ∈ freeReps t b hdc c ↔
      ((r = .mismatch hdc ∧ d.get = b) ∨
       (r = .otherThread hdc t d.owner (dead d.owner) ∧ d.get = true ∧ d.owner ≠ t) ∨
       (r = .inside hdc ∧ 0 < c.count)) := by
  obtain ⟨h1, h2, h3, h4, h5⟩ := view_fields h
  unfold freeReps
  rw [List.mem_append, List.mem_append, mem_if, mem_if, mem_if, h1, h2, h3, h5]
  constructor
  · rintro ((⟨g1, g2⟩ | ⟨g1, g2⟩) | ⟨g1, g2⟩)
    · refine Or.inl ⟨g2, ?_⟩
      revert g1
      cases d.get <;> cases b <;> simp
    · refine Or.inr (Or.inl ⟨g2, ?_⟩)
      simpa using g1
    · exact Or.inr (Or.inr ⟨g2, g1⟩)
  · rintro (⟨g1, g2⟩ | ⟨g1, g2, g3⟩ | ⟨g1, g2⟩)
    · refine Or.inl (Or.inl ⟨?_, g1⟩)
      rw [g2]
      cases b <;> simp
    · refine Or.inl (Or.inr ⟨?_, g1⟩)
      rw [g2]; simpa using g3
    · exact Or.inr ⟨g2, g1⟩

theorem useReps_mem (multi : Bool) (t hdc : Nat) (c : Dc) (dead : Nat → Bool) (d : Real)
    (h : erase c = view dead d) (r : Report) : r ∈ useReps multi t hdc c ↔
      ((r = .exitedOwner hdc d.owner ∧ d.dup = true ∧ dead d.owner = true) ∨
       (r = .twoThreads d.owner t ∧ multi = true ∧ dead d.owner = false ∧ d.owner ≠ t)) := by
  obtain ⟨h1, h2, h3, h4, h5⟩ := view_fields h
  unfold useReps
  rw [h1, h4, h5]
  by_cases g : d.dup = true ∧ dead d.owner = true
  · rw [if_pos (by rw [g.1, g.2]; rfl), List.mem_singleton]
    constructor
    · intro hr; exact Or.inl ⟨hr, g⟩
    · rintro (⟨hr, _⟩ | ⟨_, _, hd, _⟩)
      · exact hr
      · rw [g.2] at hd; cases hd
  · rw [if_neg (by
      intro e
      rw [Bool.and_eq_true] at e
      exact g e), mem_if]
    constructor
    · rintro ⟨g1, g2⟩
      refine Or.inr ⟨g2, ?_⟩
      simpa [and_assoc] using g1
    · rintro (⟨_, hr⟩ | ⟨hr, g1, g2, g3⟩)
      · exact absurd hr g
      · exact ⟨by rw [g1, g2]; simpa using g3, hr⟩

/-- What is said when a DC is given up. -/
theorem free_iff {w st} (a : Agree w st) (t : Nat) (b : Bool) (hdc : Nat) (r : Report)
    (hc : r = .inside hdc → (b = true ∨ ¬ Private w hdc) ∧
      ∀ d c, w.dc hdc = some d → st.dcs hdc = some c → c.count = cnt d) :
    r ∈ (dcFree t b hdc st).2 ↔ FreeRule w t b hdc r := by
  unfold dcFree FreeRule
  cases hd : w.dc hdc with
  | none =>
    rw [(a.none_iff hdc).mpr hd]
    constructor
    · intro h; cases h
    · rintro ⟨d, h, _⟩; cases h
  | some d =>
    obtain ⟨c, h1, h2⟩ := a.some hd
    rw [h1]
    dsimp only
    rw [freeReps_mem t b hdc c _ d h2]
    constructor
    · rintro (g | g | ⟨g1, g2⟩)
      · exact ⟨d, rfl, Or.inl g⟩
      · exact ⟨d, rfl, Or.inr (Or.inl g)⟩
      · refine ⟨d, rfl, Or.inr (Or.inr ⟨g1, ?_, ?_⟩)⟩
        · rcases (hc g1).1 with hb | hb
          · exact Or.inl hb
          · right
            cases hq : d.priv with
            | false => rfl
            | true => exact absurd ⟨d, hd, hq⟩ hb
        · rw [(hc g1).2 d c hd h1] at g2
          exact (cnt_pos d).mp g2
    · rintro ⟨d', hd', g | g | ⟨g1, _, g2⟩⟩
      · cases hd'; exact Or.inl g
      · cases hd'; exact Or.inr (Or.inl g)
      · cases hd'
        refine Or.inr (Or.inr ⟨g1, ?_⟩)
        rw [(hc g1).2 d c hd h1]
        exact (cnt_pos d).mpr g2

theorem bitmap_mem (hdc new : Nat) (q : Option Nat) (r : Report) :
    r ∈ bitmapReps hdc new q ↔ ∃ cur, q = some cur ∧ slotOf new = some .bitmap ∧ cur ≠ hdc ∧
      r = .sameBitmap new hdc cur := by
  cases q with
  | none =>
    unfold bitmapReps
    constructor
    · intro h; cases h
    · rintro ⟨_, h, _⟩; cases h
  | some cur =>
    unfold bitmapReps
    dsimp only
    rw [mem_if]
    constructor
    · rintro ⟨h1, h2⟩
      rw [Bool.and_eq_true] at h1
      exact ⟨cur, rfl, (bitmap_iff new).mp h1.1, by simpa using h1.2, h2⟩
    · rintro ⟨_, h1, h2, h3, h4⟩
      cases h1
      refine ⟨?_, h4⟩
      rw [Bool.and_eq_true]
      exact ⟨(bitmap_iff new).mpr h2, by simpa using h3⟩

/-- What is said when an object is selected: the checks of the thread, and those of the bitmap. -/
theorem select_reps (multi : Bool) (t hdc prior new : Nat) (st : St) (c : Dc) (hc : st.dcs hdc = some c) :
    ∃ q, (selectObj multi t hdc prior new st).2 = useReps multi t hdc c ++ bitmapReps hdc new q ∧
      (q = none ∨ q = st.sel new) ∧
      ((prior = 0 ∨ prior = hgdiError) → q = st.sel new) ∧
      (stock new = false → (stock prior = true ∨ new ≠ prior) → q = st.sel new) := by
  unfold selectObj
  rw [hc]
  dsimp only
  by_cases hp : prior = 0 ∨ prior = hgdiError
  · rw [if_pos hp]
    exact ⟨_, rfl, Or.inr rfl, fun _ => rfl, fun _ _ => rfl⟩
  · rw [if_neg hp]
    by_cases hn : stock new = true
    · rw [if_pos hn]
      exact ⟨none, by simp [bitmapReps], Or.inl rfl, fun h => absurd h hp, fun h => by rw [hn] at h; cases h⟩
    · rw [if_neg hn]
      refine ⟨_, rfl, ?_, fun h => absurd h hp, ?_⟩
      · unfold dropPrior
        split
        · exact Or.inr rfl
        · dsimp only; unfold upd; split
          · exact Or.inl rfl
          · exact Or.inr rfl
      · intro _ h
        unfold dropPrior
        split
        · rfl
        · rename_i hs
          dsimp only
          rcases h with h | h
          · exact absurd h hs
          · rw [upd_other _ _ _ _ h]

/-- C73, pairing and threads: over a run of plain calls, whatever was selected, a call that gives up or
uses a DC is reported for the wrong pairing or for the thread exactly if it breaks the rule. -/
theorem C73_pairing (multi : Bool) (es : List Ev) (w : World) (st : St) (rs : List Report)
    (hr : PlainRun multi es w st rs) (e : Ev) (he : enabled w e) (r : Report) (hk : r.pairing = true) :
    r ∈ (tool multi st e).2 ↔ Violates multi w e r := by
  have a := run_agree hr
  have hin : ∀ hdc, r ≠ .inside hdc := by intro hdc h; rw [h] at hk; cases hk
  have hsb : ∀ a b c, r ≠ .sameBitmap a b c := by intro _ _ _ h; rw [h] at hk; cases hk
  have hdl : ∀ o, r ≠ .deleting o := by intro _ h; rw [h] at hk; cases hk
  cases e with
  | alloc t get dup priv hdc => exact ⟨fun h => (List.not_mem_nil h).elim, fun h => h.elim⟩
  | again t get hdc => exact ⟨fun h => (List.not_mem_nil h).elim, fun h => h.elim⟩
  | beginPaint t hdc priv => exact ⟨fun h => (List.not_mem_nil h).elim, fun h => h.elim⟩
  | exit t => exact ⟨fun h => (List.not_mem_nil h).elim, fun h => h.elim⟩
  | endPaint t hdc =>
    obtain ⟨h1, h2, h3, h4, h5, h6⟩ := agree_paint_end a t hdc he
    show r ∈ (dcFree t false (st.paint t) { st with paint := upd st.paint t 0 }).2 ↔ FreeRule w t false hdc r
    rw [h1]
    exact free_iff h5 t false hdc r (fun h => absurd h (hin hdc))
  | release t hdc ok => exact free_iff a t false hdc r (fun h => absurd h (hin hdc))
  | delete t h ok =>
    show r ∈ (objFree t h st).2 ↔ (if isDC h then FreeRule w t true h r else _)
    unfold objFree
    cases hdc : isDC h with
    | true =>
      have hz : h ≠ 0 := by
        intro e
        rw [e] at hdc
        revert hdc
        decide +kernel
      rw [if_neg hz, if_pos rfl, if_pos rfl]
      exact free_iff a t true h r (fun h' => absurd h' (hin h))
    | false =>
      rw [if_neg (by decide : ¬ (false = true)), if_neg (by decide : ¬ (false = true))]
      constructor
      · intro hm
        split at hm
        · cases hm
        · split at hm
          · cases hm
          · split at hm
            · cases hm
            · dsimp only at hm
              rw [mem_if] at hm
              exact absurd hm.2 (hdl h)
      · rintro ⟨h1, _⟩; exact absurd h1 (hdl h)
  | select t hdc new res =>
    show r ∈ (selectObj multi t hdc (res.getD 0) new st).2 ↔ (UseRule multi w t hdc r ∨ _)
    cases hd : w.dc hdc with
    | none =>
      unfold selectObj
      rw [(a.none_iff hdc).mpr hd]
      constructor
      · intro h; cases h
      · rintro (⟨d, h, _⟩ | ⟨cur, h, _⟩)
        · rw [hd] at h; cases h
        · exact absurd h (hsb _ _ _)
    | some d =>
      obtain ⟨c, h1, h2⟩ := a.some hd
      obtain ⟨q, hq, _⟩ := select_reps multi t hdc (res.getD 0) new st c h1
      rw [hq, List.mem_append, useReps_mem multi t hdc c _ d h2, bitmap_mem]
      constructor
      · rintro (h | ⟨cur, _, _, _, h⟩)
        · exact Or.inl ⟨d, hd, h⟩
        · exact absurd h (hsb _ _ _)
      · rintro (⟨d', h, g⟩ | ⟨cur, h, _⟩)
        · rw [hd] at h; cases h; exact Or.inl g
        · exact absurd h (hsb _ _ _)

/-- C73: over a run of plain and tidy calls, the next call, whatever it is but the release of the DC of
a window or a class, is reported for exactly the rules that it breaks.  So the first error of each kind is found, and nothing else is reported. -/
theorem C73_exact (multi : Bool) (es : List Ev) (w : World) (st : St) (rs : List Report)
    (hr : TidyRun multi es w st rs) (e : Ev) (he : enabled w e)
    (hv : ∀ t hdc ok, e = .release t hdc ok → ¬ Private w hdc) (r : Report) :
    r ∈ (tool multi st e).2 ↔ Violates multi w e r := by
  have x := run_exact hr
  have a := x.toAgree
  cases e with
  | alloc t get dup priv hdc => exact ⟨fun h => (List.not_mem_nil h).elim, fun h => h.elim⟩
  | again t get hdc => exact ⟨fun h => (List.not_mem_nil h).elim, fun h => h.elim⟩
  | beginPaint t hdc priv => exact ⟨fun h => (List.not_mem_nil h).elim, fun h => h.elim⟩
  | exit t => exact ⟨fun h => (List.not_mem_nil h).elim, fun h => h.elim⟩
  | endPaint t hdc =>
    obtain ⟨h1, h2, h3, h4, h5, h6⟩ := agree_paint_end a t hdc he
    show r ∈ (dcFree t false (st.paint t) { st with paint := upd st.paint t 0 }).2 ↔ FreeRule w t false hdc r
    rw [h1]
    exact free_iff h5 t false hdc r (fun _ => ⟨Or.inr h3, fun d c hd hc => x.count hdc d c hd hc⟩)
  | release t hdc ok => exact free_iff a t false hdc r (fun _ => ⟨Or.inr (hv t hdc ok rfl), fun d c hd hc => x.count hdc d c hd hc⟩)
  | delete t h ok =>
    show r ∈ (objFree t h st).2 ↔ (if isDC h then FreeRule w t true h r else
      r = .deleting h ∧ stock h = false ∧ (slotOf h = some .pen ∨ slotOf h = some .brush) ∧
      ∃ hdc, Holds w hdc h)
    unfold objFree
    cases hdc : isDC h with
    | true =>
      have hz : h ≠ 0 := by
        intro e
        rw [e] at hdc
        revert hdc
        decide +kernel
      rw [if_neg hz, if_pos rfl, if_pos rfl]
      exact free_iff a t true h r (fun _ => ⟨Or.inl rfl, fun d c hd hc => x.count h d c hd hc⟩)
    | false =>
      rw [if_neg (by decide : ¬ (false = true)), if_neg (by decide : ¬ (false = true))]
      by_cases hz : h = 0
      · rw [if_pos hz]
        constructor
        · intro hm; cases hm
        · rintro ⟨_, _, h1, _⟩
          rw [hz, slot_zero] at h1
          rcases h1 with h1 | h1 <;> cases h1
      · rw [if_neg hz]
        cases hs : stock h with
        | true =>
          rw [if_pos rfl]
          constructor
          · intro hm; cases hm
          · rintro ⟨_, h1, _⟩; cases h1
        | false =>
          rw [if_neg (by decide : ¬ (false = true))]
          cases hq : st.sel h with
          | none =>
            constructor
            · intro hm; cases hm
            · rintro ⟨_, _, _, y, hy⟩
              have := (x.sel h y).mpr ⟨hs, hy⟩
              rw [hq] at this; cases this
          | some y =>
            dsimp only
            have hy := ((x.sel h y).mp hq).2
            have hsl : slotOf h ≠ none := by
              obtain ⟨d, s, h1, h2⟩ := hy
              have := x.typed y d s h1
              rw [h2] at this; rw [this]; simp
            rw [mem_if, drawing_of_slot h hsl]
            constructor
            · rintro ⟨h1, h2⟩; exact ⟨h2, rfl, h1, y, hy⟩
            · rintro ⟨h1, _, h2, _⟩; exact ⟨h2, h1⟩
  | select t hdc new res =>
    show r ∈ (selectObj multi t hdc (res.getD 0) new st).2 ↔ (UseRule multi w t hdc r ∨ ∃ cur,
      r = .sameBitmap new hdc cur ∧ w.dc hdc ≠ none ∧ cur ≠ hdc ∧ slotOf new = some .bitmap ∧
      stock new = false ∧ Holds w cur new)
    cases hd : w.dc hdc with
    | none =>
      unfold selectObj
      rw [(a.none_iff hdc).mpr hd]
      constructor
      · intro h; cases h
      · rintro (⟨d, h, _⟩ | ⟨cur, _, h, _⟩)
        · rw [hd] at h; cases h
        · exact absurd rfl h
    | some d =>
      obtain ⟨c, h1, h2⟩ := a.some hd
      obtain ⟨q, hq, q1, q2, q3⟩ := select_reps multi t hdc (res.getD 0) new st c h1
      rw [hq, List.mem_append, useReps_mem multi t hdc c _ d h2, bitmap_mem]
      constructor
      · rintro (h | ⟨cur, h3, h4, h5, h6⟩)
        · exact Or.inl ⟨d, hd, h⟩
        · refine Or.inr ⟨cur, h6, by simp, h5, h4, ?_⟩
          rcases q1 with q1 | q1
          · rw [q1] at h3; cases h3
          · rw [q1] at h3
            exact (x.sel new cur).mp h3
      · rintro (⟨d', h, g⟩ | ⟨cur, h3, _, h4, h5, h6, h7⟩)
        · rw [hd] at h; cases h; exact Or.inl g
        · refine Or.inr ⟨cur, ?_, h5, h4, h3⟩
          have hsel := (x.sel new cur).mpr ⟨h6, h7⟩
          rw [← hsel]
          cases res with
          | none => exact q2 (Or.inl rfl)
          | some p =>
            apply q3 h6
            obtain ⟨d', hd', ⟨s, hs, hp⟩ | ⟨hreg, _⟩⟩ := he
            · right
              intro hnp
              have hnp : new = p := hnp
              rw [hd] at hd'; cases hd'
              exact h4 (x.unique h6 h7 ⟨d, s, hd, by rw [hnp, hp]⟩)
            · rw [region_not_slot new hreg] at h5; cases h5

/-- No rule is reported twice for one call. -/
theorem C73_once (multi : Bool) (st : St) (e : Ev) : (tool multi st e).2.Nodup := by
  have hf : ∀ t b hdc st, (dcFree t b hdc st).2.Nodup := by
    intro t b hdc st
    unfold dcFree
    cases st.dcs hdc with
    | none => exact List.nodup_nil
    | some d =>
      dsimp only
      unfold freeReps
      split <;> split <;> split <;> simp
  cases e with
  | alloc => exact List.nodup_nil
  | again => exact List.nodup_nil
  | beginPaint => exact List.nodup_nil
  | exit => exact List.nodup_nil
  | endPaint t hdc => exact hf _ _ _ _
  | release t hdc ok => exact hf _ _ _ _
  | delete t h ok =>
    show (objFree t h st).2.Nodup
    unfold objFree
    split
    · exact List.nodup_nil
    · split
      · exact hf _ _ _ _
      · split
        · exact List.nodup_nil
        · split
          · exact List.nodup_nil
          · dsimp only; split <;> simp
  | select t hdc new res =>
    show (selectObj multi t hdc (res.getD 0) new st).2.Nodup
    cases hs : st.dcs hdc with
    | none => unfold selectObj; rw [hs]; exact List.nodup_nil
    | some c =>
      obtain ⟨q, hq, _⟩ := select_reps multi t hdc (res.getD 0) new st c hs
      rw [hq]
      unfold useReps
      cases q with
      | none =>
        unfold bitmapReps
        split
        · simp
        · split <;> simp
      | some y =>
        unfold bitmapReps
        dsimp only
        split <;> split <;> (try split) <;> simp

/-- C73: the reports of a run of plain and tidy calls are the rules broken by its calls. -/
theorem C73_run (multi : Bool) (es : List Ev) (w : World) (st : St) (rs : List Report)
    (hr : TidyRun multi es w st rs) (r : Report) :
    r ∈ rs ↔ ∃ es1 e es2 w1 st1 rs1, es = es1 ++ e :: es2 ∧ TidyRun multi es1 w1 st1 rs1 ∧ enabled w1 e ∧
      Violates multi w1 e r := by
  induction hr with
  | nil =>
    constructor
    · intro h; cases h
    · rintro ⟨es1, e, es2, _, _, _, h, _⟩
      cases es1 <;> cases h
  | @snoc es w st rs e hr he hp ht ih =>
    rw [List.mem_append, ih, C73_exact multi es w st rs hr e he (by
      intro t hdc ok h; rw [h] at hp; exact hp.2.1) r]
    constructor
    · rintro (⟨es1, e1, es2, w1, st1, rs1, h1, h2, h3, h4⟩ | h)
      · exact ⟨es1, e1, es2 ++ [e], w1, st1, rs1, by rw [h1]; simp, h2, h3, h4⟩
      · exact ⟨es, e, [], w, st, rs, rfl, hr, he, h⟩
    · rintro ⟨es1, e1, es2, w1, st1, rs1, h1, h2, h3, h4⟩
      rcases List.eq_nil_or_concat es2 with hn | ⟨l, z, hl⟩
      · subst hn
        have := List.append_inj' h1 rfl
        have h5 : es = es1 := this.1
        have h6 : e = e1 := by simpa using this.2
        subst h5; subst h6
        right
        have huniq : ∀ {es w st rs}, TidyRun multi es w st rs → ∀ {w' st' rs'}, TidyRun multi es w' st' rs' →
            w = w' := by
          intro es w st rs h
          induction h with
          | nil =>
            intro w' st' rs' h'
            generalize hz : ([] : List Ev) = z at h'
            cases h' with
            | nil => rfl
            | snoc e => simp at hz
          | @snoc es w st rs e _ _ _ _ ih =>
            intro w' st' rs' h'
            generalize hz : es ++ [e] = z at h'
            cases h' with
            | nil => simp at hz
            | @snoc es' w'' st'' rs'' e' h'' _ _ _ =>
              have h1 := List.append_inj' hz rfl
              have h5 : es = es' := h1.1
              have h6 : e = e' := by simpa using h1.2
              subst h5; subst h6
              rw [ih h'']
        rw [huniq hr h2]; exact h4
      · left
        subst hl
        have h1' : es ++ [e] = (es1 ++ e1 :: l) ++ [z] := by rw [h1]; simp
        have := List.append_inj' h1' rfl
        exact ⟨es1, e1, l, w1, st1, rs1, this.1, h2, h3, h4⟩

/-- An object that was reported as deleted is not reported again: a second deletion, of whatever next has
the handle and is not selected, says nothing. -/
theorem C73_deleted_forgotten (multi : Bool) (st : St) (t t' h : Nat) (ok ok' : Bool) (hd : isDC h = false) :
    (tool multi (tool multi st (.delete t h ok)).1 (.delete t' h ok')).2 = [] := by
  show (objFree t' h (objFree t h st).1).2 = []
  by_cases h0 : h = 0
  · unfold objFree; rw [if_pos h0]
  by_cases hs : stock h = true
  · unfold objFree; rw [if_neg h0, if_neg (by simp [hd]), if_pos hs]
  have key : (objFree t h st).1.sel h = none := by
    unfold objFree
    rw [if_neg h0, if_neg (by simp [hd]), if_neg hs]
    split
    · assumption
    · show upd st.sel h none h = none
      unfold upd; rw [if_pos rfl]
  generalize (objFree t h st).1 = s' at key
  unfold objFree
  rw [if_neg h0, if_neg (by simp [hd]), if_neg hs, key]

end Verif.GdiCheck
