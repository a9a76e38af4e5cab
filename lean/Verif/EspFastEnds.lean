import Verif.EspFastOuter
/-!
# Entry and exits
-/
set_option linter.unusedSimpArgs false
namespace Verif.EspFast
open Umbra32 (Map W W_eq getBlock view Shared Inv S)

/-- The value of the register, read as a signed number. -/
def sgn (x : Nat) : Int := if x < H then x else (x : Int) - (W : Nat)

/-- The change of the stack pointer, modulo 2^32. -/
def diff (g : Gen) (esp val : Nat) : Nat := (target g esp val + (W - base g esp)) % W

/-- A new stack pointer so far away that it may be another stack.  Only asked for if the new stack pointer
is given as a value. -/
def Swap (g : Gen) (esp val : Nat) : Prop :=
  isAbs g.ty = true ∧ ((g.thresh : Int) < sgn (diff g esp val) ∨ sgn (diff g esp val) < -(g.thresh : Int))

/-- The flags and `eax` are where the exits look for them. -/
def Saved (g : Gen) (eax ah : Nat) (o : Bool) (s2 s3 : Nat) : Prop :=
  if g.live then s3 = eax ∧ s2 / 256 % 256 = ah ∧ s2 % 256 = (if o then 1 else 0) else s2 = eax

theorem slt_iff {a b : Nat} (ha : a < W) (hb : b < W) : slt a b = true ↔ sgn a < sgn b := by
  unfold slt sgn
  rw [decide_eq_true_eq]
  have := H_eq
  rw [W_eq] at ha hb ⊢
  split <;> split <;> omega

theorem base_lt (g : Gen) {esp : Nat} (h : esp < W) : base g esp < W := by
  unfold base; split
  · exact Nat.mod_lt _ (by rw [W_eq]; omega)
  · exact h

theorem target_lt (g : Gen) {esp val : Nat} (h : val < W) : target g esp val < W := by
  unfold target; split
  · exact h
  · exact Nat.mod_lt _ (by rw [W_eq]; omega)

theorem diff_lt (g : Gen) (esp val : Nat) : diff g esp val < W := Nat.mod_lt _ (by rw [W_eq]; omega)

theorem diff_rel (g : Gen) {esp val : Nat} (h : esp < W) (hv : val < W) (ha : isAbs g.ty = false) :
    diff g esp val = val := by
  have hb := base_lt g h
  unfold diff target
  rw [ha, if_neg (by decide)]
  rw [W_eq] at hb hv ⊢; omega

theorem diff_abs (g : Gen) {esp val : Nat} (ha : isAbs g.ty = true) :
    diff g esp val = (val + (W - esp)) % W := by
  have hb : base g esp = esp := by
    unfold base
    rw [if_neg]
    intro h; rw [h] at ha; exact absurd ha (by decide)
  unfold diff target
  rw [ha, if_pos rfl, hb]

theorem body_eq (g : Gen) : body g = .lbl .loopShadowLookup :: find .loopShadowLookup (prog g) := by
  rw [find_entry]
  simp only [body, lookup, List.cons_append, List.nil_append, find, if_true]

section
variable (g : Gen) {eax val ra ebx esp s0 s1 s2 s3 : Nat} {ah : Nat} {o : Bool} {m : Map}

/-- The entry up to the computation of the amount. -/
theorem entrySave (hah : ah < 256) : ∃ eax' s2' s3' fl', Saved g eax ah o s2' s3' ∧ Reaches (prog g)
    (.at (prog g) ⟨eax, val, ra, ebx, esp, s0, s1, s2, s3, .app ah o, m⟩)
    (.at (((if isAbs g.ty then
        [.sub .ecx .edx, .cmpi .ecx g.thresh, .jcc .g .slowpath,
          .cmpi .ecx ((W - g.thresh) % W), .jcc .l .slowpath] else []) ++
      [.testi .ecx 3, .jcc .nz .slowpath, .sar .ecx 2]) ++ body g)
      ⟨eax', val, base g esp, ebx, esp, ra, val, s2', s3', fl', m⟩) := by
  have hp : prog g = entry g ++ body g := by simp only [prog, body, List.append_assoc]
  have key : ∀ (s : St) (z : Cfg), Reaches (prog g) (.at (entry g ++ body g) s) z →
      Reaches (prog g) (.at (prog g) s) z := by
    intro s z h; rw [← hp] at h; exact h
  by_cases hr : g.ty = .retImmed
  · by_cases hl : g.live = true
    · refine ⟨(eax / 65536 * 65536 + ah * 256 + eax % 256) / 256 * 256 + (if o then 1 else 0),
        (eax / 65536 * 65536 + ah * 256 + eax % 256) / 256 * 256 + (if o then 1 else 0), eax, .unk, ?_,
        key _ _ ?_⟩
      rotate_left 1
      · unfold entry base
        rw [if_pos hr, if_pos hr, if_pos hl]
        simp only [saveFlags, List.cons_append, List.nil_append]
        stp; stp; stp; stp; stp; stp; stp; stp
        exact Reaches.refl _ _
      · unfold Saved
        rw [if_pos hl]
        refine ⟨rfl, ?_, ?_⟩ <;> cases o <;> simp only [if_true, if_false, Bool.false_eq_true] <;> omega
    · refine ⟨eax, eax, s3, .unk, ?_, key _ _ ?_⟩
      · unfold Saved; rw [if_neg hl]
      · unfold entry base
        rw [if_pos hr, if_pos hr, if_neg hl]
        simp only [List.cons_append, List.nil_append]
        stp; stp; stp; stp; stp
        exact Reaches.refl _ _
  · by_cases hl : g.live = true
    · refine ⟨(eax / 65536 * 65536 + ah * 256 + eax % 256) / 256 * 256 + (if o then 1 else 0),
        (eax / 65536 * 65536 + ah * 256 + eax % 256) / 256 * 256 + (if o then 1 else 0), eax, .app ah o, ?_,
        key _ _ ?_⟩
      rotate_left 1
      · unfold entry base
        rw [if_neg hr, if_neg hr, if_pos hl]
        simp only [saveFlags, List.cons_append, List.nil_append]
        stp; stp; stp; stp; stp; stp; stp
        exact Reaches.refl _ _
      · unfold Saved
        rw [if_pos hl]
        refine ⟨rfl, ?_, ?_⟩ <;> cases o <;> simp only [if_true, if_false, Bool.false_eq_true] <;> omega
    · refine ⟨eax, eax, s3, .app ah o, ?_, key _ _ ?_⟩
      · unfold Saved; rw [if_neg hl]
      · unfold entry base
        rw [if_neg hr, if_neg hr, if_neg hl]
        simp only [List.cons_append, List.nil_append]
        stp; stp; stp; stp
        exact Reaches.refl _ _

/-- After the saving: amounts the routine does not handle. -/
theorem entryTail (hesp : esp < W) (hval : val < W) (hth : g.thresh < H) {eax' : Nat} {fl : Fl} :
    let code := (((if isAbs g.ty then
        [.sub .ecx .edx, .cmpi .ecx g.thresh, .jcc .g .slowpath,
          .cmpi .ecx ((W - g.thresh) % W), .jcc .l .slowpath] else []) ++
      [.testi .ecx 3, .jcc .nz .slowpath, .sar .ecx 2]) ++ body g)
    let s : St := ⟨eax', val, base g esp, ebx, esp, s0, s1, s2, s3, fl, m⟩
    ((Swap g esp val ∨ diff g esp val % 4 ≠ 0) → ∃ ecx fl', Reaches (prog g) (.at code s)
        (.at (find .slowpath (prog g)) ⟨eax', ecx, base g esp, ebx, esp, s0, s1, s2, s3, fl', m⟩)) ∧
    (¬ Swap g esp val → diff g esp val % 4 = 0 → ∃ fl', Reaches (prog g) (.at code s)
        (.at (find .loopShadowLookup (prog g))
          ⟨eax', sarv (diff g esp val) 2, base g esp, ebx, esp, s0, s1, s2, s3, fl', m⟩)) := by
  intro code s
  have hd := diff_lt g esp val
  have hHe := H_eq
  have htW : g.thresh < W := by rw [W_eq]; omega
  have hnW : (W - g.thresh) % W < W := Nat.mod_lt _ (by rw [W_eq]; omega)
  have hs1 : sgn g.thresh = g.thresh := by unfold sgn; rw [if_pos hth]
  have hs2 : sgn ((W - g.thresh) % W) = -(g.thresh : Int) := by
    unfold sgn; rw [W_eq]; split <;> omega
  have last : ∀ (q : Nat) (fl : Fl), q = diff g esp val →
      (diff g esp val % 4 ≠ 0 → ∃ ecx fl', Reaches (prog g)
        (.at (.testi .ecx 3 :: .jcc .nz .slowpath :: .sar .ecx 2 :: body g)
          ⟨eax', q, base g esp, ebx, esp, s0, s1, s2, s3, fl, m⟩)
        (.at (find .slowpath (prog g)) ⟨eax', ecx, base g esp, ebx, esp, s0, s1, s2, s3, fl', m⟩)) ∧
      (diff g esp val % 4 = 0 → ∃ fl', Reaches (prog g)
        (.at (.testi .ecx 3 :: .jcc .nz .slowpath :: .sar .ecx 2 :: body g)
          ⟨eax', q, base g esp, ebx, esp, s0, s1, s2, s3, fl, m⟩)
        (.at (find .loopShadowLookup (prog g))
          ⟨eax', sarv (diff g esp val) 2, base g esp, ebx, esp, s0, s1, s2, s3, fl', m⟩)) := by
    intro q fl hq
    refine ⟨fun h => ⟨q, .cmp (q &&& 3) 0, ?_⟩, fun h => ⟨.unk, ?_⟩⟩
    · stp
      refine jnz_t rfl (by rw [and3, hq]; exact h) ?_
      exact Reaches.refl _ _
    · stp
      refine jnz_f rfl (by rw [and3, hq]; exact h) ?_
      stp
      rw [body_eq, hq]
      stp
      exact Reaches.refl _ _
  by_cases ha : isAbs g.ty = true
  · have hb : base g esp = esp := by
      unfold base; rw [if_neg]; intro h; rw [h] at ha; exact absurd ha (by decide)
    have hq : (val + (W - base g esp)) % W = diff g esp val := by rw [diff_abs g ha, hb]
    have hcode : code = .sub .ecx .edx :: .cmpi .ecx g.thresh :: .jcc .g .slowpath ::
        .cmpi .ecx ((W - g.thresh) % W) :: .jcc .l .slowpath ::
        .testi .ecx 3 :: .jcc .nz .slowpath :: .sar .ecx 2 :: body g := by
      simp only [code]
      rw [if_pos ha]; rfl
    rw [hcode]
    have first : ∀ z, Reaches (prog g) (.at (.cmpi .ecx g.thresh :: .jcc .g .slowpath ::
        .cmpi .ecx ((W - g.thresh) % W) :: .jcc .l .slowpath ::
        .testi .ecx 3 :: .jcc .nz .slowpath :: .sar .ecx 2 :: body g)
          ⟨eax', diff g esp val, base g esp, ebx, esp, s0, s1, s2, s3, .unk, m⟩) z →
        Reaches (prog g) (.at (.sub .ecx .edx :: .cmpi .ecx g.thresh :: .jcc .g .slowpath ::
        .cmpi .ecx ((W - g.thresh) % W) :: .jcc .l .slowpath ::
        .testi .ecx 3 :: .jcc .nz .slowpath :: .sar .ecx 2 :: body g) s) z := by
      intro z h
      simp only [s]
      stp
      rw [hq]; exact h
    have hg' : (slt g.thresh (diff g esp val) = true) ↔ (g.thresh : Int) < sgn (diff g esp val) := by
      rw [slt_iff htW hd, hs1]
    have hl' : (slt (diff g esp val) ((W - g.thresh) % W) = true) ↔ sgn (diff g esp val) < -(g.thresh : Int) := by
      rw [slt_iff hd hnW, hs2]
    generalize (W - g.thresh) % W = nt at *
    by_cases h1 : slt g.thresh (diff g esp val) = true
    · refine ⟨fun _ => ⟨diff g esp val, .cmp (diff g esp val) g.thresh, first _ ?_⟩, fun h => ?_⟩
      · stp
        exact jg_t rfl h1 (Reaches.refl _ _)
      · exact absurd ⟨ha, Or.inl (hg'.1 h1)⟩ h
    have h1' : slt g.thresh (diff g esp val) = false := by
      cases h : slt g.thresh (diff g esp val) with
      | true => exact absurd h h1
      | false => rfl
    by_cases h2 : slt (diff g esp val) nt = true
    · refine ⟨fun _ => ⟨diff g esp val, .cmp (diff g esp val) nt, first _ ?_⟩, fun h => ?_⟩
      · stp
        refine jg_f rfl h1' ?_
        stp
        exact jl_t rfl h2 (Reaches.refl _ _)
      · exact absurd ⟨ha, Or.inr (hl'.1 h2)⟩ h
    have h2' : slt (diff g esp val) nt = false := by
      cases h : slt (diff g esp val) nt with
      | true => exact absurd h h2
      | false => rfl
    have mid : ∀ z, (Reaches (prog g) (.at (.testi .ecx 3 :: .jcc .nz .slowpath :: .sar .ecx 2 :: body g)
        ⟨eax', diff g esp val, base g esp, ebx, esp, s0, s1, s2, s3, .cmp (diff g esp val) nt, m⟩) z) →
        Reaches (prog g) (.at (.sub .ecx .edx :: .cmpi .ecx g.thresh :: .jcc .g .slowpath ::
        .cmpi .ecx nt :: .jcc .l .slowpath ::
        .testi .ecx 3 :: .jcc .nz .slowpath :: .sar .ecx 2 :: body g) s) z := by
      intro z h
      refine first _ ?_
      stp
      refine jg_f rfl h1' ?_
      stp
      exact jl_f rfl h2' h
    have hns : ¬ Swap g esp val := by
      rintro ⟨-, h | h⟩
      · exact h1 (hg'.2 h)
      · exact h2 (hl'.2 h)
    refine ⟨fun h => ?_, fun _ h => ?_⟩
    · obtain ⟨e, f, r⟩ := (last _ (.cmp (diff g esp val) nt) rfl).1 (h.resolve_left hns)
      exact ⟨e, f, mid _ r⟩
    · obtain ⟨f, r⟩ := (last _ (.cmp (diff g esp val) nt) rfl).2 h
      exact ⟨f, mid _ r⟩
  · have hns : ¬ Swap g esp val := fun h => ha h.1
    have hq : val = diff g esp val := (diff_rel g hesp hval (by simpa using ha)).symm
    have hcode : code = .testi .ecx 3 :: .jcc .nz .slowpath :: .sar .ecx 2 :: body g := by
      simp only [code]
      rw [if_neg ha]; rfl
    rw [hcode]
    exact ⟨fun h => (last _ fl hq).1 (h.resolve_left hns), fun _ h => (last _ fl hq).2 h⟩

theorem restored {s2 s3 e ecx edx : Nat} {r : List I} {z : Cfg} {fl : Fl} (hsv : Saved g e ah o s2 s3)
    (h : ∀ fl', (g.live = true → fl' = .app ah o) →
      Reaches (prog g) (.at r ⟨e, ecx, edx, ebx, esp, s0, s1, s2, s3, fl', m⟩) z) :
    Reaches (prog g) (.at (.ld .eax 2 :: ((if g.live then restoreFlags else []) ++ r))
      ⟨eax, ecx, edx, ebx, esp, s0, s1, s2, s3, fl, m⟩) z := by
  by_cases hl : g.live = true
  · unfold Saved at hsv
    rw [if_pos hl] at hsv
    obtain ⟨h1, h2, h3⟩ := hsv
    rw [if_pos hl]
    simp only [restoreFlags, List.cons_append, List.nil_append]
    stp; stp; stp; stp
    have h4 : ((s2 / 256 * 256 + (s2 % 256 + 127) % 256) / 256 % 256) = ah := by rw [← h2]; omega
    have h5 : decide (1 ≤ s2 % 256 ∧ s2 % 256 < 128) = o := by
      rw [h3]; cases o <;> rfl
    rw [h4, h5]
    subst h1
    exact h _ (fun _ => rfl)
  · unfold Saved at hsv
    rw [if_neg hl] at hsv
    rw [if_neg hl]
    simp only [List.nil_append]
    stp
    subst hsv
    exact h _ (fun h' => absurd h' hl)

/-- The return. -/
theorem doneRun {eax0 ecx edx : Nat} {fl : Fl} (hsv : Saved g eax ah o s2 s3) :
    ∃ fl', (g.live = true → fl' = .app ah o) ∧ Reaches (prog g)
      (.at (find .loopDone (prog g)) ⟨eax0, ecx, edx, ebx, esp, s0, s1, s2, s3, fl, m⟩)
      (.ret s0 ⟨eax, ecx, edx, ebx, esp, s0, s1, s2, s3, fl', m⟩) := by
  by_cases hl : g.live = true
  · refine ⟨.app ah o, fun _ => rfl, ?_⟩
    rw [F_done]
    stp
    rw [F_restore]
    refine restored g hsv (fun fl' hf => ?_)
    rw [hf hl]
    stp
    exact Reaches.refl _ _
  · refine ⟨fl, fun h => absurd h hl, ?_⟩
    have hsv' := hsv
    unfold Saved at hsv'
    rw [if_neg hl] at hsv'
    rw [F_done]
    stp
    rw [F_restore, if_neg hl]
    simp only [List.nil_append]
    stp; stp
    rw [hsv']
    exact Reaches.refl _ _

/-- The exit to the slow path. -/
theorem slowRun {eax0 ecx edx : Nat} {fl : Fl} (hsv : Saved g eax ah o s2 s3) :
    ∃ fl', (g.live = true → fl' = .app ah o) ∧ Reaches (prog g)
      (.at (find .slowpath (prog g)) ⟨eax0, ecx, edx, ebx, esp, s0, s1, s2, s3, fl, m⟩)
      (.slow false ⟨eax, if g.ty = .negative then (W - s1) % W else s1, s0, ebx, esp, s0, s1, s2, s3, fl', m⟩) := by
  obtain ⟨r, hr⟩ := F_slow g
  rw [hr]
  by_cases hn : g.ty = .negative
  · by_cases hl : g.live = true
    · refine ⟨.app ah o, fun _ => rfl, ?_⟩
      rw [if_pos hn, if_pos hn]
      stp; stp; stp
      simp only [List.cons_append, List.nil_append]
      stp
      refine restored g hsv (fun fl' hf => ?_)
      rw [hf hl]
      stp
      exact Reaches.refl _ _
    · have hsv' := hsv
      unfold Saved at hsv'
      rw [if_neg hl] at hsv'
      refine ⟨.unk, fun h => absurd h hl, ?_⟩
      rw [if_pos hn, if_pos hn, if_neg hl]
      stp; stp; stp
      simp only [List.cons_append, List.nil_append]
      stp; stp; stp
      rw [hsv']
      exact Reaches.refl _ _
  · by_cases hl : g.live = true
    · refine ⟨.app ah o, fun _ => rfl, ?_⟩
      rw [if_neg hn, if_neg hn]
      stp; stp; stp
      simp only [List.nil_append]
      refine restored g hsv (fun fl' hf => ?_)
      rw [hf hl]
      stp
      exact Reaches.refl _ _
    · have hsv' := hsv
      unfold Saved at hsv'
      rw [if_neg hl] at hsv'
      refine ⟨fl, fun h => absurd h hl, ?_⟩
      rw [if_neg hn, if_neg hn, if_neg hl]
      stp; stp; stp
      simp only [List.nil_append]
      stp; stp
      rw [hsv']
      exact Reaches.refl _ _

end

end Verif.EspFast
