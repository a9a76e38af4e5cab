import Verif.GdiCheck
/-
C73: the GDI usage checks.  The specification, and the two agreements of the tables with GDI.
-/
namespace Verif.GdiCheck

/-! ## The specification: the rules of GDI -/

/-- The object is selected into the DC. -/
def Holds (w : World) (hdc obj : Nat) : Prop := ∃ d s, w.dc hdc = some d ∧ d.slots s = obj

/-- What is wrong with giving up a DC: by the wrong call; a DC of GetDC by another thread; with an
object selected that is no stock object, unless the DC is the one of a window or a class and lives on. -/
def FreeRule (w : World) (t : Nat) (byDelete : Bool) (hdc : Nat) (r : Report) : Prop :=
  ∃ d, w.dc hdc = some d ∧
    ((r = .mismatch hdc ∧ d.get = byDelete) ∨
     (r = .otherThread hdc t d.owner (w.dead d.owner) ∧ d.get = true ∧ d.owner ≠ t) ∨
     (r = .inside hdc ∧ (byDelete = true ∨ d.priv = false) ∧ ∃ s, stock (d.slots s) = false))

/-- What is wrong with using a DC: it is a copy of NULL and its thread has exited; or, if that is
checked, its thread has not exited and is another one. -/
def UseRule (multi : Bool) (w : World) (t hdc : Nat) (r : Report) : Prop :=
  ∃ d, w.dc hdc = some d ∧
    ((r = .exitedOwner hdc d.owner ∧ d.dup = true ∧ w.dead d.owner = true) ∨
     (r = .twoThreads d.owner t ∧ multi = true ∧ w.dead d.owner = false ∧ d.owner ≠ t))

/-- The rules that a call breaks. -/
def Violates (multi : Bool) (w : World) : Ev → Report → Prop
  | .release t hdc _, r => FreeRule w t false hdc r
  | .endPaint t hdc, r => FreeRule w t false hdc r
  | .delete t h _, r =>
    if isDC h then FreeRule w t true h r
    else r = .deleting h ∧ stock h = false ∧ (slotOf h = some .pen ∨ slotOf h = some .brush) ∧
      ∃ hdc, Holds w hdc h
  | .select t hdc new _, r =>
    UseRule multi w t hdc r ∨
    ∃ cur, r = .sameBitmap new hdc cur ∧ w.dc hdc ≠ none ∧ cur ≠ hdc ∧ slotOf new = some .bitmap ∧
      stock new = false ∧ Holds w cur new
  | _, _ => False

/-- The DC belongs to a window or a class. -/
def Private (w : World) (hdc : Nat) : Prop := ∃ d, w.dc hdc = some d ∧ d.priv = true

/-- The DC holds stock objects only. -/
def Bare (w : World) (hdc : Nat) : Prop := ∀ d, w.dc hdc = some d → ∀ s, stock (d.slots s) = true

/-- The DC is the one of a BeginPaint. -/
def Painted (w : World) (hdc : Nat) : Prop := ∃ t, hdc ∈ w.painting t

/-- The calls that give up DCs are plain: DCs of windows and classes are not released, a DC is given
up by the call that is to do so, BeginPaint is not nested within a thread and its DC is given up by
EndPaint. -/
def Plain (w : World) : Ev → Prop
  | .beginPaint t hdc priv => w.painting t = [] ∧ priv = false ∧ w.dc hdc = none
  | .release _ hdc ok => ok = true ∧ ¬ Private w hdc ∧ ¬ Painted w hdc
  | .delete _ h ok => isDC h = true → ok = true ∧ ¬ Painted w h
  | _ => True

/-- The calls that select objects are tidy: no regions are selected, no object is selected into two DCs,
no DC is given up with an object in it, and no object is deleted that is selected. -/
def Tidy (w : World) : Ev → Prop
  | .endPaint _ hdc => Bare w hdc
  | .release _ hdc _ => Bare w hdc
  | .delete _ h _ => if isDC h then Bare w h else stock h = true ∨ ∀ hdc, ¬ Holds w hdc h
  | .select _ hdc new (some _) => isRegion new = false ∧ (stock new = true ∨ ∀ c, c ≠ hdc → ¬ Holds w c new)
  | _ => True

/-- A run of plain calls. -/
inductive PlainRun (multi : Bool) : List Ev → World → St → List Report → Prop
  | nil : PlainRun multi [] World.init St.init []
  | snoc {es w st rs} (e : Ev) : PlainRun multi es w st rs → enabled w e → Plain w e →
      PlainRun multi (es ++ [e]) (gdi w e) (tool multi st e).1 (rs ++ (tool multi st e).2)

/-- A run of plain and tidy calls. -/
inductive TidyRun (multi : Bool) : List Ev → World → St → List Report → Prop
  | nil : TidyRun multi [] World.init St.init []
  | snoc {es w st rs} (e : Ev) : TidyRun multi es w st rs → enabled w e → Plain w e → Tidy w e →
      TidyRun multi (es ++ [e]) (gdi w e) (tool multi st e).1 (rs ++ (tool multi st e).2)

theorem plain_of_tidy {multi es w st rs} (h : TidyRun multi es w st rs) : PlainRun multi es w st rs := by
  induction h with
  | nil => exact .nil
  | snoc e _ he hp _ ih => exact .snoc e ih he hp

/-! ## Handles -/

theorem upd_self {α : Type} (f : Nat → α) (k : Nat) (v : α) : upd f k v k = v := if_pos rfl

theorem upd_other {α : Type} (f : Nat → α) (k : Nat) (v : α) (x : Nat) (h : x ≠ k) : upd f k v x = f x :=
  if_neg h

theorem slot_default (s : Slot) : slotOf (defaults s) = some s := by cases s <;> decide +kernel

theorem stock_default (s : Slot) : stock (defaults s) = true := by cases s <;> decide +kernel

theorem bitmap_iff (h : Nat) : isBitmap h = true ↔ slotOf h = some .bitmap := by
  unfold isBitmap slotOf
  constructor
  · intro hb; rw [if_pos (by simpa using hb)]
  · intro hb
    split at hb
    · rename_i h1; simpa using h1
    · split at hb
      · cases hb
      · split at hb
        · cases hb
        · split at hb <;> cases hb

theorem drawing_of_slot (h : Nat) (hs : slotOf h ≠ none) :
    isDrawing h = true ↔ (slotOf h = some .pen ∨ slotOf h = some .brush) := by
  unfold isDrawing
  unfold slotOf at hs ⊢
  by_cases h1 : typ h = 0x00050000
  · rw [if_pos h1, h1]; decide
  · rw [if_neg h1] at hs ⊢
    by_cases h2 : typ h = 0x00100000
    · rw [if_pos h2, h2]; decide
    · rw [if_neg h2] at hs ⊢
      by_cases h3 : typ h = 0x00300000 ∨ typ h = 0x00500000
      · rw [if_pos h3]
        rcases h3 with h3 | h3 <;> rw [h3] <;> decide
      · rw [if_neg h3] at hs ⊢
        by_cases h4 : typ h = 0x000a0000
        · rw [if_pos h4, h4]; decide
        · rw [if_neg h4] at hs; exact absurd rfl hs

theorem slot_zero : slotOf 0 = none := by decide +kernel

theorem slot_error : slotOf hgdiError = none := by decide +kernel

theorem dc_not_slot (h : Nat) (hd : isDC h = true) : slotOf h = none := by
  have : typ h = 0x00010000 := by simpa [isDC] using hd
  unfold slotOf; rw [this]; decide

theorem region_not_slot (h : Nat) (hd : isRegion h = true) : slotOf h = none := by
  have : typ h = 0x00040000 := by simpa [isRegion] using hd
  unfold slotOf; rw [this]; decide

/-! ## The table of DCs, but for the counts -/

/-- The entry without the count. -/
def erase (d : Dc) : Dc := { d with count := 0 }

/-- The entry that a live DC ought to have, without the count. -/
def view (dead : Nat → Bool) (d : Real) : Dc :=
  { thread := d.owner, get := d.get, create := !d.get, dup := d.dup, exited := dead d.owner, count := 0 }

/-- The agreement of the table of DCs with GDI. -/
structure Agree (w : World) (st : St) : Prop where
  dcs : ∀ h, (st.dcs h).map erase = (w.dc h).map (view w.dead)
  null : w.dc 0 = none
  paint : ∀ t, (w.painting t = [] ∧ st.paint t = 0) ∨
    (∃ h, w.painting t = [h] ∧ st.paint t = h ∧ w.dc h ≠ none ∧ ¬ Private w h)
  apart : ∀ t t' h, h ∈ w.painting t → h ∈ w.painting t' → t = t'

theorem Agree.none_iff {w st} (a : Agree w st) (h : Nat) : st.dcs h = none ↔ w.dc h = none := by
  have := a.dcs h
  cases h1 : st.dcs h <;> cases h2 : w.dc h <;> rw [h1, h2] at this <;> simp_all

theorem Agree.some {w st} (a : Agree w st) {h d} (hd : w.dc h = some d) :
    ∃ c, st.dcs h = some c ∧ erase c = view w.dead d := by
  have := a.dcs h
  rw [hd] at this
  cases h1 : st.dcs h with
  | none => rw [h1] at this; cases this
  | some c => rw [h1] at this; exact ⟨c, rfl, Option.some.inj this⟩

theorem erase_count (c : Dc) (n : Nat) : erase { c with count := n } = erase c := rfl

/-- Only the counts differ. -/
def Same (f g : Nat → Option Dc) : Prop := ∀ h, (f h).map erase = (g h).map erase

theorem same_upd (f : Nat → Option Dc) (h : Nat) (c c' : Dc) (hf : f h = some c) (he : erase c' = erase c) :
    Same (upd f h (some c')) f := by
  intro x
  by_cases hx : x = h
  · subst hx; rw [upd_self, hf]; exact congrArg some he
  · rw [upd_other _ _ _ _ hx]

theorem same_decAt (f : Nat → Option Dc) (h : Nat) : Same (decAt f h) f := by
  unfold decAt
  cases hf : f h with
  | none => exact fun _ => rfl
  | some c => exact same_upd f h c _ hf (erase_count c _)

theorem select_same (multi : Bool) (t hdc prior new : Nat) (st : St) :
    Same (selectObj multi t hdc prior new st).1.dcs st.dcs ∧
    (selectObj multi t hdc prior new st).1.paint = st.paint := by
  unfold selectObj
  cases hd : st.dcs hdc with
  | none => exact ⟨fun _ => rfl, rfl⟩
  | some d =>
    dsimp only
    have he : erase (dropPrior prior d st.sel).1 = erase d := by
      unfold dropPrior
      split
      · rfl
      · dsimp only
        split
        · exact erase_count d _
        · rfl
    split
    · exact ⟨fun _ => rfl, rfl⟩
    · split
      · exact ⟨same_upd _ _ _ _ hd he, rfl⟩
      · refine ⟨same_upd _ _ _ _ hd ?_, rfl⟩
        rw [← he]; rfl

theorem agree_same {w st st'} (a : Agree w st) (hs : Same st'.dcs st.dcs) (hp : st'.paint = st.paint) :
    Agree w st' :=
  ⟨fun h => (hs h).trans (a.dcs h), a.null, fun t => by rw [hp]; exact a.paint t, a.apart⟩

/-- A DC is added to both. -/
theorem agree_add {w st} (a : Agree w st) (t : Nat) (get dup priv : Bool) (hdc : Nat)
    (hz : hdc ≠ 0) (ht : w.dead t = false) (hn : w.dc hdc = none) :
    Agree { w with dc := upd w.dc hdc (some (newDc t get dup priv)) } (dcAlloc t get (!get) dup hdc st) := by
  unfold dcAlloc
  rw [if_neg hz, (a.none_iff hdc).mpr hn]
  dsimp only
  refine ⟨?_, ?_, ?_, a.apart⟩
  · intro h
    dsimp only
    by_cases hx : h = hdc
    · subst hx; rw [upd_self, upd_self]
      simp only [Option.map_some, erase, view, newDc, ht]
    · rw [upd_other _ _ _ _ hx, upd_other _ _ _ _ hx]; exact a.dcs h
  · dsimp only
    rw [upd_other _ _ _ _ (fun h => hz h.symm)]; exact a.null
  · intro t'
    rcases a.paint t' with h | ⟨h, h1, h2, h3, h4⟩
    · exact Or.inl h
    · have hne : h ≠ hdc := fun e => h3 (e ▸ hn)
      refine Or.inr ⟨h, h1, h2, ?_, ?_⟩
      · dsimp only; rw [upd_other _ _ _ _ hne]; exact h3
      · rintro ⟨d, hd, hp⟩
        dsimp only at hd
        rw [upd_other _ _ _ _ hne] at hd
        exact h4 ⟨d, hd, hp⟩

/-- A DC that nobody paints on is removed from both. -/
theorem agree_del {w st} (a : Agree w st) (t : Nat) (c : Bool) (hdc : Nat) (hp : ¬ Painted w hdc) :
    Agree { w with dc := upd w.dc hdc none } (dcFree t c hdc st).1 := by
  have hd : ∀ h, (dcFree t c hdc st).1.dcs h = upd st.dcs hdc none h := by
    intro h
    unfold dcFree
    cases hs : st.dcs hdc with
    | none =>
      dsimp only
      by_cases hx : h = hdc
      · subst hx; rw [upd_self, hs]
      · rw [upd_other _ _ _ _ hx]
    | some d => rfl
  have hq : (dcFree t c hdc st).1.paint = st.paint := by
    unfold dcFree
    cases hs : st.dcs hdc <;> rfl
  refine ⟨?_, ?_, ?_, a.apart⟩
  · intro h
    rw [hd]
    dsimp only
    by_cases hx : h = hdc
    · subst hx; rw [upd_self, upd_self]; rfl
    · rw [upd_other _ _ _ _ hx, upd_other _ _ _ _ hx]; exact a.dcs h
  · dsimp only
    unfold upd
    split
    · rfl
    · exact a.null
  · intro t'
    rw [hq]
    rcases a.paint t' with h | ⟨h, h1, h2, h3, h4⟩
    · exact Or.inl h
    · have hne : h ≠ hdc := by
        intro e
        exact hp ⟨t', by rw [h1, e]; exact List.mem_singleton.mpr rfl⟩
      refine Or.inr ⟨h, h1, h2, ?_, ?_⟩
      · dsimp only; rw [upd_other _ _ _ _ hne]; exact h3
      · rintro ⟨d, hd, hpr⟩
        dsimp only at hd
        rw [upd_other _ _ _ _ hne] at hd
        exact h4 ⟨d, hd, hpr⟩

/-- A removal of something that is not there. -/
theorem del_absent (w : World) (hdc : Nat) (h : w.dc hdc = none) : { w with dc := upd w.dc hdc none } = w := by
  have : upd w.dc hdc none = w.dc := by
    funext x
    unfold upd
    split
    · rename_i hx; subst hx; exact h.symm
    · rfl
  rw [this]

/-- The painting thread gives up its DC. -/
theorem agree_paint_end {w st} (a : Agree w st) (t hdc : Nat) (h : (w.painting t).head? = some hdc) :
    st.paint t = hdc ∧ w.dc hdc ≠ none ∧ ¬ Private w hdc ∧ (w.painting t).tail = [] ∧
    Agree { w with painting := upd w.painting t [] } { st with paint := upd st.paint t 0 } ∧
    ¬ Painted { w with painting := upd w.painting t [] } hdc := by
  rcases a.paint t with ⟨h1, _⟩ | ⟨x, h1, h2, h3, h4⟩
  · rw [h1] at h; cases h
  · rw [h1] at h
    have hx : x = hdc := Option.some.inj h
    subst hx
    refine ⟨h2, h3, h4, by rw [h1]; rfl, ⟨a.dcs, a.null, ?_, ?_⟩, ?_⟩
    · intro t'
      dsimp only
      by_cases ht : t' = t
      · subst ht; rw [upd_self, upd_self]; exact Or.inl ⟨rfl, rfl⟩
      · rw [upd_other _ _ _ _ ht, upd_other _ _ _ _ ht]; exact a.paint t'
    · intro t1 t2 y m1 m2
      dsimp only at m1 m2
      by_cases e1 : t1 = t
      · rw [e1, upd_self] at m1; cases m1
      · by_cases e2 : t2 = t
        · rw [e2, upd_self] at m2; cases m2
        · rw [upd_other _ _ _ _ e1] at m1
          rw [upd_other _ _ _ _ e2] at m2
          exact a.apart t1 t2 y m1 m2
    · rintro ⟨t', m⟩
      dsimp only at m
      by_cases ht : t' = t
      · rw [ht, upd_self] at m; cases m
      · rw [upd_other _ _ _ _ ht] at m
        exact ht (a.apart t' t x m (by rw [h1]; exact List.mem_singleton.mpr rfl))

theorem agree_init : Agree World.init St.init :=
  ⟨fun _ => rfl, rfl, fun _ => Or.inl ⟨rfl, rfl⟩, fun _ _ _ h _ => by cases h⟩

/-- Every plain call keeps the agreement. -/
theorem agree_step (multi : Bool) {w st} (a : Agree w st) (e : Ev) (he : enabled w e) (hp : Plain w e) :
    Agree (gdi w e) (tool multi st e).1 := by
  cases e with
  | alloc t get dup priv hdc =>
    obtain ⟨h1, h2⟩ := he
    show Agree (if hdc = 0 then w else _) (dcAlloc t get (!get) dup hdc st)
    by_cases hz : hdc = 0
    · rw [if_pos hz]; unfold dcAlloc; rw [if_pos hz]; exact a
    · rw [if_neg hz]; exact agree_add a t get dup priv hdc hz h1 h2
  | again t get hdc =>
    show Agree w (dcAlloc t get false false hdc st)
    unfold dcAlloc
    split
    · exact a
    · cases hs : st.dcs hdc with
      | none => exact absurd ((a.none_iff hdc).mp hs) he
      | some d => exact a
  | beginPaint t hdc priv =>
    obtain ⟨h1, h2, h3⟩ := hp
    obtain ⟨hz, ht, _⟩ := he
    subst h2
    have b := agree_add a t true false false hdc hz ht h3
    show Agree { w with
      dc := match w.dc hdc with
        | some _ => w.dc
        | none => upd w.dc hdc (some (newDc t true false false))
      painting := upd w.painting t (hdc :: w.painting t) }
      { dcAlloc t true false false hdc st with
        paint := upd (dcAlloc t true false false hdc st).paint t hdc }
    rw [h3, h1]
    dsimp only
    refine ⟨b.dcs, b.null, ?_, ?_⟩
    · intro t'
      dsimp only
      by_cases e : t' = t
      · subst e
        rw [upd_self, upd_self]
        refine Or.inr ⟨hdc, rfl, rfl, by rw [upd_self]; simp, ?_⟩
        rintro ⟨d, hd, hpr⟩
        dsimp only at hd
        rw [upd_self] at hd
        cases hd
        cases hpr
      · rw [upd_other _ _ _ _ e, upd_other _ _ _ _ e]
        rcases b.paint t' with q | ⟨x, q1, q2, q3, q4⟩
        · exact Or.inl q
        · exact Or.inr ⟨x, q1, q2, q3, fun ⟨d, m1, m2⟩ => q4 ⟨d, m1, m2⟩⟩
    · have fresh : ∀ t', hdc ∉ w.painting t' := by
        intro t' m
        rcases a.paint t' with ⟨q, _⟩ | ⟨x, q1, _, q3, _⟩
        · rw [q] at m; cases m
        · rw [q1, List.mem_singleton] at m
          exact q3 (m ▸ h3)
      intro t1 t2 y m1 m2
      dsimp only at m1 m2
      by_cases e1 : t1 = t
      · by_cases e2 : t2 = t
        · rw [e1, e2]
        · rw [e1, upd_self, List.mem_singleton] at m1
          rw [upd_other _ _ _ _ e2] at m2
          exact absurd (m1 ▸ m2) (fresh t2)
      · rw [upd_other _ _ _ _ e1] at m1
        by_cases e2 : t2 = t
        · rw [e2, upd_self, List.mem_singleton] at m2
          exact absurd (m2 ▸ m1) (fresh t1)
        · rw [upd_other _ _ _ _ e2] at m2
          exact a.apart t1 t2 y m1 m2
  | endPaint t hdc =>
    obtain ⟨h1, h2, h3, h4, h5, h6⟩ := agree_paint_end a t hdc he
    show Agree { w with
      dc := match w.dc hdc with
        | some d => if d.priv then w.dc else upd w.dc hdc none
        | none => w.dc
      painting := upd w.painting t ((w.painting t).tail) }
      (dcFree t false (st.paint t) { st with paint := upd st.paint t 0 }).1
    rw [h1, h4]
    cases hd : w.dc hdc with
    | none => exact absurd hd h2
    | some d =>
      dsimp only
      have : d.priv = false := by
        cases hq : d.priv with
        | false => rfl
        | true => exact absurd ⟨d, hd, hq⟩ h3
      rw [this, if_neg (by decide)]
      exact agree_del h5 t false hdc h6
  | release t hdc ok =>
    obtain ⟨h1, h2, h3⟩ := hp
    subst h1
    show Agree (match w.dc hdc with
      | some d => if true && !d.priv then { w with dc := upd w.dc hdc none } else w
      | none => w) (dcFree t false hdc st).1
    have b := agree_del a t false hdc h3
    cases hd : w.dc hdc with
    | none => rw [del_absent w hdc hd] at b; exact b
    | some d =>
      dsimp only
      have : d.priv = false := by
        cases hq : d.priv with
        | false => rfl
        | true => exact absurd ⟨d, hd, hq⟩ h2
      rw [this, if_pos (by decide)]
      exact b
  | delete t h ok =>
    show Agree (if isDC h && ok then { w with dc := upd w.dc h none } else w) (objFree t h st).1
    unfold objFree
    by_cases hz : h = 0
    · subst hz
      rw [if_pos rfl, if_neg (by have : isDC 0 = false := by decide +kernel
                                 rw [this]; simp)]
      exact a
    · rw [if_neg hz]
      cases hdc : isDC h with
      | true =>
        obtain ⟨h1, h2⟩ := hp hdc
        subst h1
        rw [if_pos (by decide), if_pos rfl]
        exact agree_del a t true h h2
      | false =>
        rw [if_neg (by simp), if_neg (by decide)]
        split
        · exact a
        · cases hs : st.sel h with
          | none => exact a
          | some x => exact agree_same a (same_decAt _ _) rfl
  | select t hdc new res =>
    have b := agree_same a (select_same multi t hdc (res.getD 0) new st).1 (select_same multi t hdc (res.getD 0) new st).2
    show Agree (gdi w (.select t hdc new res)) (selectObj multi t hdc (res.getD 0) new st).1
    unfold gdi
    dsimp only
    generalize (selectObj multi t hdc (res.getD 0) new st).1 = st' at b
    split
    · rename_i d s p hd hs
      refine ⟨?_, ?_, ?_, b.apart⟩
      · intro h
        rw [b.dcs h]
        dsimp only
        by_cases hx : h = hdc
        · subst hx; rw [upd_self, hd]; rfl
        · rw [upd_other _ _ _ _ hx]
      · dsimp only
        rw [upd_other]
        · exact a.null
        · intro e; rw [← e, a.null] at hd; cases hd
      · intro t'
        rcases b.paint t' with q | ⟨x, q1, q2, q3, q4⟩
        · exact Or.inl q
        · refine Or.inr ⟨x, q1, q2, ?_, ?_⟩
          · dsimp only
            unfold upd
            split
            · simp
            · exact q3
          · rintro ⟨d', m1, m2⟩
            dsimp only at m1
            by_cases hx : x = hdc
            · subst hx
              rw [upd_self] at m1
              cases m1
              exact q4 ⟨d, hd, m2⟩
            · rw [upd_other _ _ _ _ hx] at m1
              exact q4 ⟨d', m1, m2⟩
    · exact b
  | exit t =>
    show Agree { w with dead := upd w.dead t true } (threadExit t st)
    refine ⟨?_, a.null, a.paint, a.apart⟩
    intro h
    have := a.dcs h
    unfold threadExit
    dsimp only
    cases hd : w.dc h with
    | none => rw [(a.none_iff h).mpr hd]; rfl
    | some d =>
      obtain ⟨c, hc, hv⟩ := a.some hd
      rw [hc]
      simp only [Option.map_some]
      congr 1
      have hct : c.thread = d.owner := congrArg Dc.thread hv
      by_cases ht : d.owner = t
      · rw [if_pos (hct.trans ht)]
        have : erase { c with exited := true } = { erase c with exited := true } := rfl
        rw [this, hv]
        unfold view
        rw [ht, upd_self]
      · rw [if_neg (fun e => ht (hct.symm.trans e)), hv]
        unfold view
        rw [upd_other _ _ _ _ ht]

theorem run_agree {multi es w st rs} (h : PlainRun multi es w st rs) : Agree w st := by
  induction h with
  | nil => exact agree_init
  | snoc e _ he hp ih => exact agree_step multi ih e he hp

end Verif.GdiCheck
