import Verif.GdiCheckProps
/-
C73: cases, and where the checks fall short.
-/
namespace Verif.GdiCheck

/-! ## Runs that are computed -/

/-- `enabled`, computed. -/
def enabledB (w : World) : Ev → Bool
  | .alloc t _ _ _ hdc => !w.dead t && (w.dc hdc).isNone
  | .again _ _ hdc => (w.dc hdc).isSome
  | .beginPaint t hdc _ => hdc != 0 && !w.dead t && (match w.dc hdc with
      | none => true
      | some d => d.priv)
  | .endPaint t hdc => (w.painting t).head? == some hdc
  | .select _ hdc new (some p) => match w.dc hdc with
      | none => false
      | some d => (match slotOf new with
          | some s => p == d.slots s
          | none => false) || (isRegion new && decide (1 ≤ p) && decide (p ≤ 3))
  | _ => true

theorem enabled_of (w : World) (e : Ev) (h : enabledB w e = true) : enabled w e := by
  cases e with
  | alloc t get dup priv hdc =>
    simp only [enabledB, Bool.and_eq_true, Bool.not_eq_true', Option.isNone_iff_eq_none] at h
    exact h
  | again t get hdc =>
    intro hn
    simp only [enabledB, hn] at h
    cases h
  | beginPaint t hdc priv =>
    simp only [enabledB, Bool.and_eq_true, bne_iff_ne, Bool.not_eq_true'] at h
    refine ⟨h.1.1, h.1.2, ?_⟩
    have h2 := h.2
    cases hd : w.dc hdc with
    | none => exact Or.inl rfl
    | some d => rw [hd] at h2; exact Or.inr ⟨d, rfl, h2⟩
  | endPaint t hdc =>
    have h' : (w.painting t).head? = some hdc := by simpa [enabledB] using h
    exact h'
  | release => trivial
  | delete => trivial
  | select t hdc new res =>
    cases res with
    | none => trivial
    | some p =>
      unfold enabledB at h
      dsimp only at h
      cases hd : w.dc hdc with
      | none => rw [hd] at h; cases h
      | some d =>
        rw [hd] at h
        dsimp only at h
        rw [Bool.or_eq_true] at h
        refine ⟨d, hd, ?_⟩
        rcases h with h | h
        · left
          cases hs : slotOf new with
          | none => rw [hs] at h; cases h
          | some s => rw [hs] at h; exact ⟨s, rfl, by simpa using h⟩
        · right
          simp only [Bool.and_eq_true, decide_eq_true_eq] at h
          exact ⟨h.1.1, h.1.2, h.2⟩
  | exit => trivial

/-- The calls one after the other, as long as each is possible. -/
def play (multi : Bool) : List Ev → World × St × List Report → Option (World × St × List Report)
  | [], x => some x
  | e :: es, x =>
    if enabledB x.1 e then
      play multi es (gdi x.1 e, (tool multi x.2.1 e).1, x.2.2 ++ (tool multi x.2.1 e).2)
    else none

theorem play_run (multi : Bool) (es : List Ev) : ∀ (es0 : List Ev) (x y : World × St × List Report),
    Run multi es0 x.1 x.2.1 x.2.2 → play multi es x = some y → Run multi (es0 ++ es) y.1 y.2.1 y.2.2 := by
  induction es with
  | nil => intro es0 x y h1 h2; cases h2; rw [List.append_nil]; exact h1
  | cons e es ih =>
    intro es0 x y h1 h2
    unfold play at h2
    split at h2
    · rename_i he
      have := ih (es0 ++ [e]) _ y (.snoc e h1 (enabled_of _ _ he)) h2
      rw [List.append_assoc] at this
      exact this
    · cases h2

/-- The beginning. -/
def start : World × St × List Report := (World.init, St.init, [])

/-- The object is in the DC, computed. -/
def holdsB (w : World) (hdc obj : Nat) : Bool :=
  match w.dc hdc with
  | none => false
  | some d => [Slot.bitmap, .brush, .pen, .font].any (fun s => d.slots s == obj)

theorem holdsB_iff (w : World) (hdc obj : Nat) : holdsB w hdc obj = true ↔ Holds w hdc obj := by
  unfold holdsB Holds
  cases w.dc hdc with
  | none => simp
  | some d =>
    simp only [List.any_cons, List.any_nil, Bool.or_false, Bool.or_eq_true, beq_iff_eq]
    constructor
    · rintro (h | h | h | h)
      · exact ⟨d, _, rfl, h⟩
      · exact ⟨d, _, rfl, h⟩
      · exact ⟨d, _, rfl, h⟩
      · exact ⟨d, _, rfl, h⟩
    · rintro ⟨d', s, h1, h2⟩
      cases h1
      cases s
      · exact Or.inl h2
      · exact Or.inr (Or.inl h2)
      · exact Or.inr (Or.inr (Or.inl h2))
      · exact Or.inr (Or.inr (Or.inr h2))

/-- The DC holds an object that is no stock object and is given up, computed. -/
def insideB (w : World) (byDelete : Bool) (hdc : Nat) : Bool :=
  match w.dc hdc with
  | none => false
  | some d => (byDelete || !d.priv) && decide (0 < cnt d)

theorem insideB_iff (w : World) (t : Nat) (b : Bool) (hdc : Nat) :
    insideB w b hdc = true ↔ FreeRule w t b hdc (.inside hdc) := by
  unfold insideB FreeRule
  cases w.dc hdc with
  | none =>
    constructor
    · intro h; cases h
    · rintro ⟨d, h, _⟩; cases h
  | some d =>
    simp only [Bool.and_eq_true, Bool.or_eq_true, Bool.not_eq_true', decide_eq_true_eq, cnt_pos]
    constructor
    · rintro ⟨h1, h2⟩
      exact ⟨d, rfl, Or.inr (Or.inr ⟨by trivial, h1, h2⟩)⟩
    · rintro ⟨d', h, ⟨h1, _⟩ | ⟨h1, _⟩ | ⟨_, h1, h2⟩⟩
      · cases h1
      · cases h1
      · cases h; exact ⟨h1, h2⟩

/-- A run after which a DC is given up that holds stock objects only, or that lives on, and is
reported. -/
def FalseInside (es : List Ev) (e : Ev) (hdc : Nat) : Prop :=
  ∃ w st rs, Run false es w st rs ∧ enabled w e ∧ .inside hdc ∈ (tool false st e).2 ∧
    ¬ Violates false w e (.inside hdc)

/-- A run after which a DC is given up that holds an object that is no stock object, and is not
reported. -/
def MissedInside (es : List Ev) (e : Ev) (hdc : Nat) : Prop :=
  ∃ w st rs, Run false es w st rs ∧ enabled w e ∧ .inside hdc ∉ (tool false st e).2 ∧
    Violates false w e (.inside hdc)

/-- How the call gives up the DC. -/
def byDelete : Ev → Bool
  | .delete _ _ _ => true
  | _ => false

/-- The call that gives up this DC. -/
def givesUp (e : Ev) (hdc : Nat) : Bool :=
  match e with
  | .delete _ h _ => isDC h && h == hdc
  | .release _ h _ => h == hdc
  | .endPaint _ h => h == hdc
  | _ => false

theorem violates_inside (w : World) (e : Ev) (hdc : Nat) (h : givesUp e hdc = true) :
    Violates false w e (.inside hdc) ↔ insideB w (byDelete e) hdc = true := by
  cases e with
  | delete t x ok =>
    simp only [givesUp, Bool.and_eq_true, beq_iff_eq] at h
    obtain ⟨h1, rfl⟩ := h
    unfold Violates
    dsimp only
    rw [if_pos h1]
    exact (insideB_iff w t true x).symm
  | release t x ok =>
    have : x = hdc := by simpa [givesUp] using h
    subst this
    exact (insideB_iff w t false x).symm
  | endPaint t x =>
    have : x = hdc := by simpa [givesUp] using h
    subst this
    exact (insideB_iff w t false x).symm
  | alloc => cases h
  | again => cases h
  | beginPaint => cases h
  | select => cases h
  | exit => cases h

theorem falseInside_of (es : List Ev) (e : Ev) (hdc : Nat) (hg : givesUp e hdc = true)
    (h : (play false es start).map (fun x => (enabledB x.1 e, (tool false x.2.1 e).2.contains (.inside hdc),
      insideB x.1 (byDelete e) hdc)) = some (true, true, false)) : FalseInside es e hdc := by
  cases hp : play false es start with
  | none => rw [hp] at h; cases h
  | some x =>
    rw [hp] at h
    have h' := Option.some.inj h
    have h1 := congrArg Prod.fst h'
    have h2 := congrArg (fun x => x.2.1) h'
    have h3 := congrArg (fun x => x.2.2) h'
    refine ⟨x.1, x.2.1, x.2.2, ?_, enabled_of _ _ h1, by simpa using h2, ?_⟩
    · have := play_run false es [] start x .nil hp
      exact this
    · rw [violates_inside _ _ _ hg]
      intro h4
      exact absurd (h4.symm.trans h3) (by decide)

theorem missedInside_of (es : List Ev) (e : Ev) (hdc : Nat) (hg : givesUp e hdc = true)
    (h : (play false es start).map (fun x => (enabledB x.1 e, (tool false x.2.1 e).2.contains (.inside hdc),
      insideB x.1 (byDelete e) hdc)) = some (true, false, true)) : MissedInside es e hdc := by
  cases hp : play false es start with
  | none => rw [hp] at h; cases h
  | some x =>
    rw [hp] at h
    have h' := Option.some.inj h
    have h1 := congrArg Prod.fst h'
    have h2 := congrArg (fun x => x.2.1) h'
    have h3 := congrArg (fun x => x.2.2) h'
    refine ⟨x.1, x.2.1, x.2.2, ?_, enabled_of _ _ h1, by simpa using h2, ?_⟩
    · have := play_run false es [] start x .nil hp
      exact this
    · rw [violates_inside _ _ _ hg]
      exact h3

/-! ## Cases -/

/-- Two DCs, a pen, an extended pen, a brush, a bitmap, and a region. -/
def dc1 : Nat := 0x02010001
/-- See `dc1`. -/
def dc2 : Nat := 0x02010002
/-- See `dc1`. -/
def pen1 : Nat := 0x02300003
/-- See `dc1`. -/
def pen2 : Nat := 0x02500004
/-- See `dc1`. -/
def bmp : Nat := 0x02050006
/-- See `dc1`. -/
def rgn : Nat := 0x02040007

/-- CreateCompatibleDC in thread 1. -/
def mk (hdc : Nat) : Ev := .alloc 1 false false false hdc

/-- What a run reports. -/
def reports (multi : Bool) (es : List Ev) : Option (List Report) := (play multi es start).map (fun x => x.2.2)

/-- A program that keeps the rules: a pen and a bitmap in and out. -/
example : reports true [mk dc1, .select 1 dc1 pen1 (some 0x01b00017), .select 1 dc1 bmp (some 0x0185000f),
    .select 1 dc1 0x01b00017 (some pen1), .select 1 dc1 0x0185000f (some bmp), .delete 1 pen1 true, .delete 1 bmp true,
    .delete 1 dc1 true] = some [] := by decide +kernel

/-- A case of C73_exact: the pen is deleted while selected; the DC goes with the bitmap inside. -/
example : reports true [mk dc1, .select 1 dc1 pen1 (some 0x01b00017), .select 1 dc1 bmp (some 0x0185000f),
    .delete 1 pen1 true, .delete 1 dc1 true] = some [.deleting pen1, .inside dc1] := by decide +kernel

/-- The pairing and the threads. -/
example : reports true [.alloc 1 true false false dc1, .alloc 1 false true false dc2, .exit 1,
    .select 2 dc2 pen1 (some 0x01b00017), .delete 2 dc1 true] =
    some [.exitedOwner dc2 1, .mismatch dc1, .otherThread dc1 2 1 true] := by decide +kernel

/-- One DC used by two threads, and one bitmap in two DCs. -/
example : reports true [mk dc1, mk dc2, .select 1 dc1 bmp (some 0x0185000f), .select 2 dc2 bmp none] =
    some [.twoThreads 1 2, .sameBitmap bmp dc2 dc1] := by decide +kernel

/-- A tidy run, for the hypotheses of C73_exact. -/
example : ∃ w st rs, TidyRun true [mk dc1, .select 1 dc1 pen1 (some 0x01b00017)] w st rs ∧
    Violates true w (.delete 1 dc1 true) (.inside dc1) := by
  refine ⟨_, _, _, .snoc (es := [mk dc1]) _ (.snoc (es := []) (mk dc1) .nil ?_ trivial trivial) ?_ trivial ?_, ?_⟩
  · exact enabled_of _ _ (by decide +kernel)
  · exact enabled_of _ _ (by decide +kernel)
  · refine ⟨by decide +kernel, Or.inr ?_⟩
    rintro c hc ⟨d, s, h, _⟩
    have h0 : (gdi World.init (mk dc1)).dc c = none := by
      show upd _ dc1 _ c = none
      unfold upd
      rw [if_neg hc]
      rfl
    exact absurd (h0.symm.trans h) (by intro h; cases h)
  · have : givesUp (.delete 1 dc1 true) dc1 = true := by decide +kernel
    exact (violates_inside _ _ _ this).mpr (by decide +kernel)

/-! ## Where the checks fall short -/

/-- SelectObject returns a number for a region, and does not keep the region: the count goes up, and the
DC is reported when it is deleted (gdicheck.c:353-367). -/
theorem C73_region : FalseInside [mk dc1, .select 1 dc1 rgn (some 2)] (.delete 1 dc1 true) dc1 :=
  falseInside_of _ _ _ (by decide +kernel) (by decide +kernel)

/-- With a pen selected, the number that SelectObject returns for a region makes the count go down and
up.  When the pen has been taken out and the region is deleted, the count goes below zero, and the DC is
reported though it holds stock objects only. -/
theorem C73_region_wraps : FalseInside [mk dc1, .select 1 dc1 pen1 (some 0x01b00017),
      .select 1 dc1 rgn (some 2), .select 1 dc1 0x01b00017 (some pen1), .delete 1 rgn true]
    (.delete 1 dc1 true) dc1 ∧
    ((play false [mk dc1, .select 1 dc1 pen1 (some 0x01b00017),
      .select 1 dc1 rgn (some 2), .select 1 dc1 0x01b00017 (some pen1), .delete 1 rgn true] start).bind
      (fun x => (x.2.1.dcs dc1).map Dc.count)) = some 0xffffffff :=
  ⟨falseInside_of _ _ _ (by decide +kernel) (by decide +kernel), by decide +kernel⟩

/-- ReleaseDC does not delete the DC of a window with CS_OWNDC, in which objects may stay selected; it is
reported all the same (gdicheck.c:249-253). -/
theorem C73_own_dc : FalseInside [.alloc 1 true false true dc1, .select 1 dc1 pen1 (some 0x01b00017)]
    (.release 1 dc1 true) dc1 :=
  falseInside_of _ _ _ (by decide +kernel) (by decide +kernel)

/-- And the DC lives on but is forgotten: nothing about it is checked until GetDC hands it out again. -/
theorem C73_own_dc_forgotten : ∃ w st rs, Run true [.alloc 1 true false true dc1, .release 1 dc1 true] w st rs ∧
    enabled w (.select 2 dc1 pen1 (some 0x01b00017)) ∧
    (tool true st (.select 2 dc1 pen1 (some 0x01b00017))).2 = [] ∧
    Violates true w (.select 2 dc1 pen1 (some 0x01b00017)) (.twoThreads 1 2) := by
  refine ⟨_, _, _, .snoc (es := [.alloc 1 true false true dc1]) _ (.snoc (es := []) _ .nil ?_) ?_, ?_, ?_, ?_⟩
  · exact enabled_of _ _ (by decide +kernel)
  · exact enabled_of _ _ (by decide +kernel)
  · exact enabled_of _ _ (by decide +kernel)
  · decide +kernel
  · refine Or.inl ⟨_, rfl, Or.inr ⟨rfl, rfl, rfl, by decide⟩⟩

/-- A deleted pen is taken out of the count when it is deleted and, if SelectObject still returns it,
once more when it is replaced; the bitmap that is left in the DC is then not reported
(gdicheck.c:296-297, 354-356). -/
theorem C73_deleted_twice : MissedInside [mk dc1, .select 1 dc1 bmp (some 0x0185000f),
      .select 1 dc1 pen1 (some 0x01b00017), .delete 1 pen1 true, .select 1 dc1 0x01b00017 (some pen1)]
    (.delete 1 dc1 true) dc1 :=
  missedInside_of _ _ _ (by decide +kernel) (by decide +kernel)

/-- DeleteObject fails for a bitmap that is selected; the count goes down before the call
(syscall_wingdi.c:236-238), and the DC with the bitmap inside is not reported. -/
theorem C73_failed_delete : MissedInside [mk dc1, .select 1 dc1 bmp (some 0x0185000f), .delete 1 bmp false]
    (.delete 1 dc1 true) dc1 :=
  missedInside_of _ _ _ (by decide +kernel) (by decide +kernel)

/-- A DC that goes leaves its objects in the table of selected objects (gdicheck.c:254-256).  When its
handle is used again, the deletion of the pen is charged to the new DC, which is reported though it holds
stock objects only. -/
theorem C73_handle_again : FalseInside [mk dc1, .select 1 dc1 pen1 (some 0x01b00017), .delete 1 dc1 true, mk dc1,
      .delete 1 pen1 true] (.delete 1 dc1 true) dc1 :=
  falseInside_of _ _ _ (by decide +kernel) (by decide +kernel)

/-- Nor is that all: the bitmap that was in a deleted DC can be in no other one without a report. -/
theorem C73_stale_bitmap : ∃ w st rs, Run false [mk dc1, .select 1 dc1 bmp (some 0x0185000f), .delete 1 dc1 true,
      mk dc2] w st rs ∧ enabled w (.select 1 dc2 bmp (some 0x0185000f)) ∧
    .sameBitmap bmp dc2 dc1 ∈ (tool false st (.select 1 dc2 bmp (some 0x0185000f))).2 ∧
    ¬ Violates false w (.select 1 dc2 bmp (some 0x0185000f)) (.sameBitmap bmp dc2 dc1) := by
  have h : (play false [mk dc1, .select 1 dc1 bmp (some 0x0185000f), .delete 1 dc1 true, mk dc2] start).map
      (fun x => (enabledB x.1 (.select 1 dc2 bmp (some 0x0185000f)),
        (tool false x.2.1 (.select 1 dc2 bmp (some 0x0185000f))).2.contains (.sameBitmap bmp dc2 dc1),
        holdsB x.1 dc1 bmp)) = some (true, true, false) := by decide +kernel
  cases hp : play false [mk dc1, .select 1 dc1 bmp (some 0x0185000f), .delete 1 dc1 true, mk dc2] start with
  | none => rw [hp] at h; cases h
  | some x =>
    rw [hp] at h
    have h' := Option.some.inj h
    have h1 := congrArg Prod.fst h'
    have h2 := congrArg (fun x => x.2.1) h'
    have h3 := congrArg (fun x => x.2.2) h'
    have hr := play_run false _ [] start x .nil hp
    refine ⟨x.1, x.2.1, x.2.2, hr, enabled_of _ _ h1, by simpa using h2, ?_⟩
    rintro (⟨d, _, ⟨h4, _⟩ | ⟨h4, _⟩⟩ | ⟨cur, h4, _, _, _, _, h5⟩)
    · cases h4
    · cases h4
    · cases h4
      have := (holdsB_iff x.1 dc1 bmp).mpr h5
      exact absurd (this.symm.trans h3) (by decide)

/-- A pen may be in two DCs.  Taking it out of one of them removes it from the table, so that its deletion
while it is in the other one is not reported (gdicheck.c:360, 364). -/
theorem C73_shared_pen : ∃ w st rs, Run false [mk dc1, mk dc2, .select 1 dc1 pen1 (some 0x01b00017),
      .select 1 dc2 pen1 (some 0x01b00017), .select 1 dc1 0x01b00017 (some pen1)] w st rs ∧
    (tool false st (.delete 1 pen1 true)).2 = [] ∧
    Violates false w (.delete 1 pen1 true) (.deleting pen1) := by
  have h : (play false [mk dc1, mk dc2, .select 1 dc1 pen1 (some 0x01b00017),
      .select 1 dc2 pen1 (some 0x01b00017), .select 1 dc1 0x01b00017 (some pen1)] start).map
      (fun x => ((tool false x.2.1 (.delete 1 pen1 true)).2, holdsB x.1 dc2 pen1)) = some ([], true) := by
    decide +kernel
  cases hp : play false [mk dc1, mk dc2, .select 1 dc1 pen1 (some 0x01b00017),
      .select 1 dc2 pen1 (some 0x01b00017), .select 1 dc1 0x01b00017 (some pen1)] start with
  | none => rw [hp] at h; cases h
  | some x =>
    rw [hp] at h
    have h' := Option.some.inj h
    have hr := play_run false _ [] start x .nil hp
    refine ⟨x.1, x.2.1, x.2.2, hr, congrArg Prod.fst h', ?_⟩
    have h2 := congrArg (fun x => x.2) h'
    unfold Violates
    dsimp only
    rw [if_neg (by decide +kernel)]
    exact ⟨rfl, by decide +kernel, Or.inl (by decide +kernel), dc2, (holdsB_iff _ _ _).mp h2⟩

/-- One paint DC per thread is kept (syscall_wingdi.c:207-210, 229-232): when a window is painted while
another one is, the outer EndPaint frees nothing, and the object left in its DC is not reported. -/
theorem C73_nested_paint : MissedInside [.beginPaint 1 dc1 false, .select 1 dc1 pen1 (some 0x01b00017),
      .beginPaint 1 dc2 false, .endPaint 1 dc2] (.endPaint 1 dc1) dc1 :=
  missedInside_of _ _ _ (by decide +kernel) (by decide +kernel)

end Verif.GdiCheck
