import Verif.Umbra64

/-! # C13: 64-bit address translation -/
namespace Verif.Umbra64

set_option linter.unusedSimpArgs false

/-! ## Specification -/

/-- The application regions of the documented Linux layout (spec; the layout is described in
umbra/umbra_64.c:78-82 and 358-402): executable and heap, PIE, libraries/stack, vsyscall.  With
the 2X scale only one of the two PIE segments may be in use (umbra_64.c:758-763), with a vsyscall
page the range `0x7FFFFF400000-0x7FFFFF800000` must stay unused. -/
def Supported (alt vs : Bool) (sc : Scale) (a : Nat) : Prop :=
  a < 2 ^ 40 ∨
  (if sc = .up2 then
    if alt then 0x56 * 2 ^ 40 ≤ a ∧ a < 0x57 * 2 ^ 40 else 0x55 * 2 ^ 40 ≤ a ∧ a < 0x56 * 2 ^ 40
   else 0x55 * 2 ^ 40 ≤ a ∧ a < 0x57 * 2 ^ 40) ∨
  (if vs then
    (0x7F0000000000 ≤ a ∧ a < 0x7FFFFF400000) ∨ (0x7FFFFF800000 ≤ a ∧ a < 0x800000000000) ∨
    (0xFFFFFFFFFF400000 ≤ a ∧ a < 0xFFFFFFFFFF800000)
   else 0x7F0000000000 ≤ a ∧ a < 0x800000000000)

/-- The shadow unit (the smallest group of application bytes sharing a shadow byte) of `a`. -/
def unitOf : Scale → Nat → Nat
  | .down8, a => a / 8
  | .down4, a => a / 4
  | .down2, a => a / 2
  | .same, a => a
  | .up2, a => a

/-- Application bytes per shadow byte, or shadow bytes per application byte: `shift` of the sum
(spec arithmetic without wrap). -/
def shOf : Scale → Nat → Nat
  | .down8, v => v / 8
  | .down4, v => v / 4
  | .down2, v => v / 2
  | .same, v => v
  | .up2, v => v * 2

/-! ## Helper lemmas -/

/-- The offset of a supported address within its 16 TB unit. -/
def Off (alt : Bool) (sc : Scale) (x : Nat) : Prop :=
  x < 2 ^ 40 ∨ (if sc = .up2 then
    if alt then 6 * 2 ^ 40 ≤ x ∧ x < 7 * 2 ^ 40 else 5 * 2 ^ 40 ≤ x ∧ x < 6 * 2 ^ 40
   else 5 * 2 ^ 40 ≤ x ∧ x < 7 * 2 ^ 40) ∨ (15 * 2 ^ 40 ≤ x ∧ x < 2 ^ 44)

theorem off_of_supported {alt vs : Bool} {sc : Scale} {a : Nat} (h : Supported alt vs sc a) :
    Off alt sc (a % unit) ∧ (a % unit = 0 → a = 0) := by
  unfold Supported at h
  unfold Off unit
  constructor
  · rcases h with h | h | h
    · left; omega
    · right; left
      split at h <;> rename_i hs
      · rw [if_pos hs]; split at h <;> rename_i ha <;> simp only [ha, if_true] <;>
          first | omega | (simp; omega)
      · rw [if_neg hs]; omega
    · right; right; split at h <;> omega
  · intro h0
    rcases h with h | h | h
    · omega
    · exfalso; split at h
      · split at h <;> omega
      · omega
    · exfalso; split at h <;> omega

theorem disp_le (alt : Bool) (sc : Scale) {idx : Nat} (hi : idx < 2) :
    disp alt sc idx < 2 ^ 50 := by
  have : idx = 0 ∨ idx = 1 := by omega
  rcases this with rfl | rfl <;> cases sc <;> cases alt <;> decide

/-- On supported addresses the translation is plain arithmetic on the offset. -/
theorem toShadow_eq {alt vs : Bool} {sc : Scale} {idx a : Nat} (hi : idx < 2)
    (h : Supported alt vs sc a) :
    toShadow (mkMap alt sc idx) a = shOf sc (a % unit + disp alt sc idx) := by
  have hd := disp_le alt sc hi
  have h0 := (off_of_supported h).2
  have hx : a % unit < 2 ^ 44 := Nat.mod_lt _ (by decide)
  have hw : (a % unit + disp alt sc idx) % W = a % unit + disp alt sc idx :=
    Nat.mod_eq_of_lt (by unfold W; omega)
  have hc : ¬ (a ≠ 0 ∧ a % unit + disp alt sc idx = disp alt sc idx) := by
    rintro ⟨h1, h2⟩; exact h1 (h0 (by omega))
  unfold toShadow
  simp only [mkMap, hw, if_neg hc]
  cases sc <;> simp only [shOf]
  exact Nat.mod_eq_of_lt (by unfold W; omega)

theorem toShadow_ne {alt : Bool} {sc : Scale} {idx a : Nat} (hi : idx < 2) (h0 : a % unit ≠ 0) :
    toShadow (mkMap alt sc idx) a = shOf sc (a % unit + disp alt sc idx) := by
  have hd := disp_le alt sc hi
  have hx : a % unit < 2 ^ 44 := Nat.mod_lt _ (by decide)
  have hw : (a % unit + disp alt sc idx) % W = a % unit + disp alt sc idx :=
    Nat.mod_eq_of_lt (by unfold W; omega)
  have hc : ¬ (a ≠ 0 ∧ a % unit + disp alt sc idx = disp alt sc idx) := by
    rintro ⟨h1, h2⟩; omega
  unfold toShadow
  simp only [mkMap, hw, if_neg hc]
  cases sc <;> simp only [shOf]
  exact Nat.mod_eq_of_lt (by unfold W; omega)

theorem unit_of_off {alt vs : Bool} {sc : Scale} {a b : Nat}
    (ha : Supported alt vs sc a) (hb : Supported alt vs sc b)
    (h : unitOf sc (a % unit) = unitOf sc (b % unit)) : unitOf sc a = unitOf sc b := by
  unfold Supported at ha hb
  rcases ha with ha | ha | ha <;> rcases hb with hb | hb | hb <;>
    cases sc <;> cases alt <;> cases vs <;>
    simp only [unitOf, unit, reduceCtorEq, if_false, if_true, Bool.false_eq_true] at * <;> omega

/-! ## Property theorems -/

/-- C13: two supported application addresses have the same shadow address only if they lie in the
same shadow unit — for each scale, each layout and both maps. -/
theorem C13_injective (alt vs : Bool) (sc : Scale) (idx a b : Nat) (hi : idx < 2)
    (ha : Supported alt vs sc a) (hb : Supported alt vs sc b)
    (h : toShadow (mkMap alt sc idx) a = toShadow (mkMap alt sc idx) b) :
    unitOf sc a = unitOf sc b := by
  rw [toShadow_eq hi ha, toShadow_eq hi hb] at h
  apply unit_of_off ha hb
  have : idx = 0 ∨ idx = 1 := by omega
  rcases this with rfl | rfl <;> cases sc <;> cases alt <;>
    simp only [shOf, unitOf, disp, baseDisp, unscale, W,
        reduceCtorEq, if_false, if_true, Bool.false_eq_true, gt_iff_lt, Nat.lt_irrefl, Nat.zero_lt_one, ne_eq] at h ⊢ <;> omega

/-- C13: the shadow of a supported application address lies in no application region, not even in
a region supported under another scale or vsyscall setting. -/
theorem C13_not_application (alt vs vs' : Bool) (sc sc' : Scale) (idx a : Nat) (hi : idx < 2)
    (ha : Supported alt vs sc a) : ¬ Supported alt vs' sc' (toShadow (mkMap alt sc idx) a) := by
  rw [toShadow_eq hi ha]
  have hx := (off_of_supported ha).1
  generalize a % unit = x at hx
  have h1 : 2 ^ 40 ≤ shOf sc (x + disp alt sc idx) ∧
      shOf sc (x + disp alt sc idx) < 0x55 * 2 ^ 40 := by
    have : idx = 0 ∨ idx = 1 := by omega
    rcases this with rfl | rfl <;> cases sc <;> cases alt <;>
      simp only [Off, shOf, disp, baseDisp, unscale, W,
        reduceCtorEq, if_false, if_true, Bool.false_eq_true, gt_iff_lt, Nat.lt_irrefl, Nat.zero_lt_one, ne_eq] at hx ⊢ <;> omega
  generalize shOf sc (x + disp alt sc idx) = y at h1
  intro h
  unfold Supported at h
  rcases h with h | h | h
  · omega
  · split at h
    · split at h <;> omega
    · omega
  · split at h <;> omega

/-- C13: the shadows of the two maps never coincide, whatever their scales. -/
theorem C13_two_maps (alt vs : Bool) (sc sc' : Scale) (a b : Nat)
    (ha : Supported alt vs sc a) (hb : Supported alt vs sc' b) :
    toShadow (mkMap alt sc 0) a < toShadow (mkMap alt sc' 1) b := by
  rw [toShadow_eq (by decide) ha, toShadow_eq (by decide) hb]
  have hx := (off_of_supported ha).1
  have hy := (off_of_supported hb).1
  generalize a % unit = x at hx
  generalize b % unit = y at hy
  have h1 : shOf sc (x + disp alt sc 0) < if alt then 0x2B * 2 ^ 40 else 0x29 * 2 ^ 40 := by
    cases sc <;> cases alt <;> simp only [Off, shOf, disp, baseDisp, unscale, W,
        reduceCtorEq, if_false, if_true, Bool.false_eq_true, gt_iff_lt, Nat.lt_irrefl, Nat.zero_lt_one, ne_eq] at hx ⊢ <;> omega
  have h2 : (if alt then 0x2B * 2 ^ 40 else 0x29 * 2 ^ 40) ≤ shOf sc' (y + disp alt sc' 1) := by
    cases sc' <;> cases alt <;> simp only [Off, shOf, disp, baseDisp, unscale, W,
        reduceCtorEq, if_false, if_true, Bool.false_eq_true, gt_iff_lt, Nat.lt_irrefl, Nat.zero_lt_one, ne_eq] at hy ⊢ <;> omega
  omega

/-- C13: translating a shadow address again gives an address that is neither a supported
application address nor the shadow of one, so a stray double translation never hits live data. -/
theorem C13_shadow_of_shadow (alt vs : Bool) (sc : Scale) (idx a b : Nat) (hi : idx < 2)
    (ha : Supported alt vs sc a) (hb : Supported alt vs sc b) :
    ¬ Supported alt vs sc (toShadow (mkMap alt sc idx) (toShadow (mkMap alt sc idx) a)) ∧
    toShadow (mkMap alt sc idx) (toShadow (mkMap alt sc idx) a) ≠
      toShadow (mkMap alt sc idx) b := by
  rw [toShadow_eq hi ha, toShadow_eq hi hb]
  have hx := (off_of_supported ha).1
  have hy := (off_of_supported hb).1
  generalize a % unit = x at hx
  generalize b % unit = y at hy
  have hi' : idx = 0 ∨ idx = 1 := by omega
  have hne : shOf sc (x + disp alt sc idx) % unit ≠ 0 := by
    rcases hi' with rfl | rfl <;> cases sc <;> cases alt <;>
      simp only [Off, shOf, disp, baseDisp, unscale, W, unit,
        reduceCtorEq, if_false, if_true, Bool.false_eq_true, gt_iff_lt, Nat.lt_irrefl, Nat.zero_lt_one, ne_eq] at hx ⊢ <;> omega
  rw [toShadow_ne hi hne]
  have h1 : 2 ^ 40 ≤ shOf sc (shOf sc (x + disp alt sc idx) % unit + disp alt sc idx) ∧
      shOf sc (shOf sc (x + disp alt sc idx) % unit + disp alt sc idx) < 0x55 * 2 ^ 40 ∧
      shOf sc (shOf sc (x + disp alt sc idx) % unit + disp alt sc idx) ≠
        shOf sc (y + disp alt sc idx) := by
    rcases hi' with rfl | rfl <;> cases sc <;> cases alt <;>
      simp only [Off, shOf, disp, baseDisp, unscale, W, unit,
        reduceCtorEq, if_false, if_true, Bool.false_eq_true, gt_iff_lt, Nat.lt_irrefl, Nat.zero_lt_one, ne_eq] at hx hy ⊢ <;> omega
  refine ⟨?_, h1.2.2⟩
  generalize shOf sc (shOf sc (x + disp alt sc idx) % unit + disp alt sc idx) = z at h1
  intro h
  unfold Supported at h
  rcases h with h | h | h
  · omega
  · split at h
    · split at h <;> omega
    · omega
  · split at h <;> omega

/-- C13: `umbra_xl8_shadow_to_app` returns an address with exactly that shadow. -/
theorem C13_shadow_to_app (alt vs : Bool) (sc : Scale) (idx a : Nat) (hi : idx < 2)
    (ha : Supported alt vs sc a) :
    toShadow (mkMap alt sc idx) (toApp (mkMap alt sc idx) (toShadow (mkMap alt sc idx) a)) =
      toShadow (mkMap alt sc idx) a ∧
    unitOf sc (toApp (mkMap alt sc idx) (toShadow (mkMap alt sc idx) a)) =
      unitOf sc (a % 2 ^ 44) := by
  rw [toShadow_eq hi ha]
  have hx : a % unit < 2 ^ 44 := Nat.mod_lt _ (by decide)
  have hu : (2 : Nat) ^ 44 = unit := rfl
  rw [hu]
  have hoff := (off_of_supported ha).1
  generalize a % unit = x at hx hoff
  have hi' : idx = 0 ∨ idx = 1 := by omega
  have key : toApp (mkMap alt sc idx) (shOf sc (x + disp alt sc idx)) < 2 ^ 44 ∧
      unitOf sc (toApp (mkMap alt sc idx) (shOf sc (x + disp alt sc idx))) = unitOf sc x := by
    rcases hi' with rfl | rfl <;> cases sc <;> cases alt <;>
      simp only [toApp, mkMap, shOf, disp, baseDisp, unscale, W, unitOf,
        reduceCtorEq, if_false, if_true, Bool.false_eq_true, gt_iff_lt, Nat.lt_irrefl, Nat.zero_lt_one, ne_eq] <;> omega
  refine ⟨?_, key.2⟩
  generalize toApp (mkMap alt sc idx) (shOf sc (x + disp alt sc idx)) = y at key
  have e : toShadow (mkMap alt sc idx) y = shOf sc (y + disp alt sc idx) := by
    by_cases h0 : y = 0
    · subst h0
      have hd := disp_le alt sc hi
      unfold toShadow
      simp only [mkMap, ne_eq, not_true_eq_false, false_and, if_false, Nat.zero_mod, Nat.zero_add,
        Nat.mod_eq_of_lt (show disp alt sc idx < W by unfold W; omega)]
      cases sc <;> simp only [shOf]
      exact Nat.mod_eq_of_lt (by unfold W; omega)
    · have hy : y % unit = y := Nat.mod_eq_of_lt (by unfold unit; omega)
      rw [toShadow_ne hi (by rw [hy]; exact h0), hy]
  rw [e]
  have hd8 : disp alt sc idx % 8 = 0 := by
    rcases hi' with rfl | rfl <;> cases sc <;> cases alt <;> rfl
  generalize disp alt sc idx = d at hd8
  have k2 := key.2
  cases sc <;> simp only [shOf, unitOf] at k2 ⊢ <;> omega

/-- C13: the code inserted inline, which lacks the special case for unit-aligned addresses,
computes the same shadow address for every supported application address. -/
theorem C13_inline_agrees (alt vs : Bool) (sc : Scale) (idx a : Nat) (hi : idx < 2)
    (ha : Supported alt vs sc a) :
    toShadowInline (mkMap alt sc idx) a = toShadow (mkMap alt sc idx) a := by
  rw [toShadow_eq hi ha]
  have hd := disp_le alt sc hi
  have hx : a % unit < 2 ^ 44 := Nat.mod_lt _ (by decide)
  have hw : (a % unit + disp alt sc idx) % W = a % unit + disp alt sc idx :=
    Nat.mod_eq_of_lt (by unfold W; omega)
  unfold toShadowInline
  simp only [mkMap, hw]
  cases sc <;> simp only [shOf]
  exact Nat.mod_eq_of_lt (by unfold W; omega)

/-- C13 (finding): outside the supported layout the two translations differ: for an application
address that is a non-zero multiple of 16 TB the library function and the inlined code disagree. -/
theorem C13_inline_disagrees :
    toShadowInline (mkMap false .down4 0) 0x100000000000 ≠
      toShadow (mkMap false .down4 0) 0x100000000000 := by
  simp [toShadowInline, toShadow, mkMap, disp, baseDisp, unit, W]

/-- C13: within one 16 TB unit the shadow address is the scaled application address plus a
constant; this is what lets `UmbraRange` index shadow memory by scaled application address. -/
theorem C13_affine (alt vs : Bool) (sc : Scale) (idx a b : Nat) (hi : idx < 2)
    (ha : Supported alt vs sc a) (hb : Supported alt vs sc b) (hab : a / 2 ^ 44 = b / 2 ^ 44) :
    toShadow (mkMap alt sc idx) a + shOf sc b = toShadow (mkMap alt sc idx) b + shOf sc a := by
  rw [toShadow_eq hi ha, toShadow_eq hi hb]
  have e1 : a = a / 2 ^ 44 * 2 ^ 44 + a % unit := by unfold unit; omega
  have e2 : b = a / 2 ^ 44 * 2 ^ 44 + b % unit := by rw [hab]; unfold unit; omega
  generalize a / 2 ^ 44 = q at e1 e2
  generalize a % unit = x at e1
  generalize b % unit = y at e2
  subst e1 e2
  have : idx = 0 ∨ idx = 1 := by omega
  rcases this with rfl | rfl <;> cases sc <;> cases alt <;>
    simp only [shOf, disp, baseDisp, unscale, W,
        reduceCtorEq, if_false, if_true, Bool.false_eq_true, gt_iff_lt, Nat.lt_irrefl, Nat.zero_lt_one, ne_eq] <;> omega

/-- Supported, distant addresses with distinct shadows: a PIE global and a stack slot. -/
example : Supported false true .down4 0x555555554000 ∧ Supported false true .down4 0x7FFFFFFFE000 ∧
    toShadow (mkMap false .down4 0) 0x555555554000 = 0x125555555000 ∧
    toShadow (mkMap false .down4 0) 0x7FFFFFFFE000 = 0x14fffffff800 := by
  refine ⟨?_, ?_, ?_, ?_⟩ <;>
    simp [Supported, toShadow, mkMap, disp, baseDisp, unit, W]

/-! ## The segment table -/

/-- Two half-open ranges share no address (spec). -/
def Disjoint' (b1 e1 b2 e2 : Nat) : Prop := ∀ x, b1 ≤ x → x < e1 → b2 ≤ x → x < e2 → False

theorem Disjoint'.symm {a b c d : Nat} (h : Disjoint' a b c d) : Disjoint' c d a b :=
  fun x h1 h2 h3 h4 => h x h3 h4 h1 h2

theorem segOverlap_false {a b c d : Nat} (h : segOverlap a b c d = false) : Disjoint' a b c d := by
  intro x h1 h2 h3 h4
  unfold segOverlap at h
  rw [if_neg (by omega)] at h
  simp at h
  omega

/-- Map `k` of segments `p` (index `i`) and `q` (index `j`) do not interfere (spec): the shadow of
`p` hits neither the application range nor the reserve of `q`, nor, for different segments, the
shadow of `q`; different segments have disjoint application ranges. -/
structure NoClash (i j : Nat) (p q : Seg) (rp rq : Ranges) : Prop where
  app : i ≠ j → Disjoint' p.base p.stop q.base q.stop
  shadow : i ≠ j → Disjoint' rp.shB rp.shE rq.shB rq.shE
  shadowApp : Disjoint' rp.shB rp.shE q.base q.stop
  shadowRes : Disjoint' rp.shB rp.shE rq.rsB rq.rsE
  resApp : Disjoint' rp.rsB rp.rsE q.base q.stop

theorem clash_false {b : Bool} {n o : Seg} {r ro : Ranges} (h : clash b n r o ro = false) :
    Disjoint' n.base n.stop ro.shB ro.shE ∧ Disjoint' n.base n.stop ro.rsB ro.rsE ∧
    Disjoint' r.shB r.shE o.base o.stop ∧ (b = false → Disjoint' r.shB r.shE ro.shB ro.shE) ∧
    Disjoint' r.shB r.shE ro.rsB ro.rsE ∧ Disjoint' r.rsB r.rsE o.base o.stop ∧
    Disjoint' r.rsB r.rsE ro.shB ro.shE := by
  unfold clash at h
  simp only [Bool.or_eq_false_iff, Bool.and_eq_false_iff, Bool.not_eq_false'] at h
  obtain ⟨⟨⟨⟨⟨⟨h1, h2⟩, h3⟩, h4⟩, h5⟩, h6⟩, h7⟩ := h
  refine ⟨segOverlap_false h1, segOverlap_false h2, segOverlap_false h3, fun hb => ?_,
    segOverlap_false h5, segOverlap_false h6, segOverlap_false h7⟩
  rcases h4 with h4 | h4
  · simp [hb] at h4
  · exact segOverlap_false h4

theorem addShadow_true {m : Map} {k i : Nat} {segs segs' : List Seg} (hk : k < 2)
    (h : addShadow m k i segs = (segs', true)) :
    ∃ n, segs[i]? = some n ∧ segs' = segs.set i (n.put k (ranges m n.base n.stop)) ∧
      ∀ j o ro, segs'[j]? = some o → o.used = true → o.sh k = some ro →
        NoClash i j (n.put k (ranges m n.base n.stop)) o (ranges m n.base n.stop) ro ∧
        NoClash j i o (n.put k (ranges m n.base n.stop)) ro (ranges m n.base n.stop) := by
  unfold addShadow at h
  split at h
  · simp at h
  rename_i n hn
  simp only [Prod.mk.injEq, Bool.not_eq_true', List.any_eq_false, List.mem_range] at h
  obtain ⟨h1, h2⟩ := h
  refine ⟨n, hn, h1.symm, ?_⟩
  intro j o ro hj hu hro
  rw [h1] at h2
  have h3 := h2 j (List.getElem?_eq_some_iff.1 hj).1
  rw [hj] at h3
  simp only [clashSeg, hu, Bool.true_and, Bool.not_eq_true, Bool.or_eq_false_iff] at h3
  obtain ⟨h4, h5⟩ := h3
  simp only [List.any_eq_false] at h5
  have h6 := h5 k (by have : k = 0 ∨ k = 1 := by omega
                      rcases this with rfl | rfl <;> simp)
  rw [hro] at h6
  obtain ⟨c1, c2, c3, c4, c5, c6, c7⟩ := clash_false (by simpa using h6)
  have c0 : i ≠ j → Disjoint' n.base n.stop o.base o.stop := by
    intro hij
    have : (j == i) = false := by simp [Ne.symm hij]
    rw [this] at h4
    exact segOverlap_false (by simpa [Seg.put] using h4)
  have c4' : i ≠ j → _ := fun hij => c4 (by simp [Ne.symm hij])
  exact ⟨⟨c0, c4', c3, c5, c6⟩, ⟨fun h => (c0 (Ne.symm h)).symm, fun h => (c4' (Ne.symm h)).symm,
    c1.symm, c7.symm, c2.symm⟩⟩

theorem archInit_inv {m : Map} {k : Nat} (hk : k < 2) : ∀ (n i : Nat) (segs segs' : List Seg),
    archInit m k n i segs = (segs', true) → segs.length ≤ i + n →
    (∀ (a : Nat) (p : Seg), segs[a]? = some p → p.used = true → a < i →
      p.sh k = some (ranges m p.base p.stop)) →
    (∀ (a b : Nat) (p q : Seg) rp rq, segs[a]? = some p → segs[b]? = some q → p.used = true → q.used = true →
      a < i → b < i → p.sh k = some rp → q.sh k = some rq → NoClash a b p q rp rq) →
    segs'.length = segs.length ∧
    (∀ (a : Nat) (p : Seg), segs'[a]? = some p → p.used = true → p.sh k = some (ranges m p.base p.stop)) ∧
    (∀ (a b : Nat) (p q : Seg) rp rq, segs'[a]? = some p → segs'[b]? = some q → p.used = true → q.used = true →
      p.sh k = some rp → q.sh k = some rq → NoClash a b p q rp rq) ∧
    (∀ a : Nat, (segs'[a]?).map (fun p : Seg => (p.base, p.stop, p.used)) =
      (segs[a]?).map (fun p : Seg => (p.base, p.stop, p.used))) := by
  intro n
  induction n with
  | zero =>
    intro i segs segs' h hl h1 h2
    simp only [archInit, Prod.mk.injEq, and_true] at h
    subst h
    refine ⟨rfl, fun a p hp hu => h1 a p hp hu ?_, fun a b p q rp rq hp hq hpu hqu hrp hrq =>
      h2 a b p q rp rq hp hq hpu hqu ?_ ?_ hrp hrq, fun _ => rfl⟩
    · have := (List.getElem?_eq_some_iff.1 hp).1; omega
    · have := (List.getElem?_eq_some_iff.1 hp).1; omega
    · have := (List.getElem?_eq_some_iff.1 hq).1; omega
  | succ n ih =>
    intro i segs segs' h hl h1 h2
    unfold archInit at h
    split at h
    · rename_i hi
      simp only [Prod.mk.injEq, and_true] at h
      subst h
      have hi' := List.getElem?_eq_none_iff.1 hi
      refine ⟨rfl, fun a p hp hu => h1 a p hp hu ?_, fun a b p q rp rq hp hq hpu hqu hrp hrq =>
        h2 a b p q rp rq hp hq hpu hqu ?_ ?_ hrp hrq, fun _ => rfl⟩
      · have := (List.getElem?_eq_some_iff.1 hp).1; omega
      · have := (List.getElem?_eq_some_iff.1 hp).1; omega
      · have := (List.getElem?_eq_some_iff.1 hq).1; omega
    · rename_i s hs
      split at h
      · rename_i hu
        split at h
        · rename_i s1 hadd
          obtain ⟨n0, hn0, hs1, hc⟩ := addShadow_true hk hadd
          rw [hs] at hn0
          obtain rfl : s = n0 := by simpa using hn0
          have hget : ∀ a, s1[a]? = if a = i then some (s.put k (ranges m s.base s.stop))
              else segs[a]? := by
            intro a
            rw [hs1, List.getElem?_set]
            have hlt := (List.getElem?_eq_some_iff.1 hs).1
            by_cases ha : a = i
            · subst ha; simp [hlt]
            · rw [if_neg (Ne.symm ha), if_neg ha]
          have hlen : s1.length = segs.length := by rw [hs1, List.length_set]
          have g1 : ∀ (a : Nat) (p : Seg), s1[a]? = some p → p.used = true → a < i + 1 →
              p.sh k = some (ranges m p.base p.stop) := by
            intro a p hp hpu ha
            rw [hget a] at hp
            split at hp
            · obtain rfl : s.put k (ranges m s.base s.stop) = p := by simpa using hp
              simp [Seg.put]
            · exact h1 a p hp hpu (by omega)
          have g2 : ∀ (a b : Nat) (p q : Seg) rp rq, s1[a]? = some p → s1[b]? = some q →
              p.used = true → q.used = true → a < i + 1 → b < i + 1 → p.sh k = some rp →
              q.sh k = some rq → NoClash a b p q rp rq := by
            intro a b p q rp rq hp hq hpu hqu ha hb hrp hrq
            by_cases ea : a = i
            · have hp' := hp
              rw [hget a, if_pos ea] at hp'
              obtain rfl : s.put k (ranges m s.base s.stop) = p := by simpa using hp'
              have := (hc b q rq hq hqu hrq).1
              obtain rfl : ranges m s.base s.stop = rp := by simpa [Seg.put] using hrp
              subst ea
              exact this
            · by_cases eb : b = i
              · have hq' := hq
                rw [hget b, if_pos eb] at hq'
                obtain rfl : s.put k (ranges m s.base s.stop) = q := by simpa using hq'
                have := (hc a p rp hp hpu hrp).2
                obtain rfl : ranges m s.base s.stop = rq := by simpa [Seg.put] using hrq
                subst eb
                exact this
              · rw [hget a, if_neg ea] at hp
                rw [hget b, if_neg eb] at hq
                exact h2 a b p q rp rq hp hq hpu hqu (by omega) (by omega) hrp hrq
          obtain ⟨r1, r2, r3, r4⟩ := ih (i + 1) s1 segs' h (by omega) g1 g2
          refine ⟨by omega, r2, r3, fun a => ?_⟩
          rw [r4 a, hget a]
          split
          · rename_i ha; subst ha; rw [hs]; rfl
          · rfl
        · simp at h
      · rename_i hu
        refine ih (i + 1) segs segs' h (by omega) ?_ ?_
        · intro a p hp hpu ha
          by_cases ea : a = i
          · subst ea; rw [hs] at hp; obtain rfl : s = p := by simpa using hp
            exact absurd hpu hu
          · exact h1 a p hp hpu (by omega)
        · intro a b p q rp rq hp hq hpu hqu ha hb
          by_cases ea : a = i
          · subst ea; rw [hs] at hp; obtain rfl : s = p := by simpa using hp
            exact absurd hpu hu
          · by_cases eb : b = i
            · subst eb; rw [hs] at hq; obtain rfl : s = q := by simpa using hq
              exact absurd hqu hu
            · exact h2 a b p q rp rq hp hq hpu hqu (by omega) (by omega)

/-- C13: whatever application segments are in use, if creating a map succeeds then every used
segment has got its shadow range, no shadow range overlaps an application range, a reserve range
or another segment's shadow range, and the application ranges themselves are unchanged and
disjoint. -/
theorem C13_map_create (m : Map) (k : Nat) (hk : k < 2) (segs segs' : List Seg)
    (h : archInit m k segs.length 0 segs = (segs', true)) :
    (∀ (a : Nat) (p : Seg), segs'[a]? = some p → p.used = true → p.sh k = some (ranges m p.base p.stop)) ∧
    (∀ (a b : Nat) (p q : Seg) rp rq, segs'[a]? = some p → segs'[b]? = some q → p.used = true → q.used = true →
      p.sh k = some rp → q.sh k = some rq → NoClash a b p q rp rq) ∧
    (∀ a : Nat, (segs'[a]?).map (fun p : Seg => (p.base, p.stop, p.used)) =
      (segs[a]?).map (fun p : Seg => (p.base, p.stop, p.used))) := by
  obtain ⟨_, h1, h2, h3⟩ := archInit_inv hk _ _ _ _ h (by omega)
    (fun _ _ _ _ h => absurd h (by omega)) (fun _ _ _ _ _ _ _ _ _ _ h => absurd h (by omega))
  exact ⟨h1, h2, h3⟩

/-- C13 (reverse direction, as used by the fault handler): when the faulting shadow address lies
in the shadow range of a supported segment within one 16 TB unit, the application address
computed for it lies in that segment and has exactly the faulting shadow address (for the 2X
scale: the even address at or below it). -/
theorem C13_fault_addr (alt vs : Bool) (sc : Scale) (idx : Nat) (hi : idx < 2) (s : Seg)
    (target : Nat) (hsup : ∀ a, s.base ≤ a → a < s.stop → Supported alt vs sc a)
    (h8 : s.base % 8 = 0) (hone : s.base / 2 ^ 44 = (s.stop - 1) / 2 ^ 44) (hlt : s.base < s.stop)
    (hlo : toShadow (mkMap alt sc idx) s.base ≤ target)
    (hhi : target ≤ toShadow (mkMap alt sc idx) (s.stop - 1)) (hW : s.stop ≤ W) :
    let app := (s.base + unscale sc (target - toShadow (mkMap alt sc idx) s.base)) % W
    s.base ≤ app ∧ app < s.stop ∧
      toShadow (mkMap alt sc idx) app = (if sc = .up2 then target / 2 * 2 else target) := by
  have hb := hsup s.base (Nat.le_refl _) hlt
  have he := hsup (s.stop - 1) (by omega) (by omega)
  intro app
  rw [toShadow_eq hi hb] at hlo
  rw [toShadow_eq hi he] at hhi
  have hd8 : disp alt sc idx % 8 = 0 := by
    have : idx = 0 ∨ idx = 1 := by omega
    rcases this with rfl | rfl <;> cases sc <;> cases alt <;> rfl
  have hd50 := disp_le alt sc hi
  have happ : s.base ≤ app ∧ app < s.stop ∧ app / 2 ^ 44 = s.base / 2 ^ 44 ∧
      shOf sc (app % unit + disp alt sc idx) = (if sc = .up2 then target / 2 * 2 else target) := by
    show s.base ≤ (s.base + unscale sc (target - toShadow (mkMap alt sc idx) s.base)) % W ∧ _
    simp only [app]
    rw [toShadow_eq hi hb]
    generalize disp alt sc idx = d at *
    unfold unit W at *
    cases sc <;> simp only [shOf, unscale, W, reduceCtorEq, if_false, if_true] at * <;> omega
  refine ⟨happ.1, happ.2.1, ?_⟩
  rw [toShadow_eq hi (hsup app happ.1 happ.2.1)]
  exact happ.2.2.2

/-- The segments of a typical Linux process. -/
def wSegs : List Seg :=
  [⟨0x7F0000000000, 0x7FFFFF400000, true, fun _ => none⟩,
   ⟨0xFFFFFFFFFF400000, 0xFFFFFFFFFF800000, true, fun _ => none⟩,
   ⟨0x7FFFFF800000, 0x800000000000, true, fun _ => none⟩,
   ⟨0, 0x10000000000, true, fun _ => none⟩,
   ⟨0x550000000000, 0x560000000000, true, fun _ => none⟩,
   ⟨0, 0, false, fun _ => none⟩]

/-- Creating the 4-to-1 map, and then a 1-to-1 map, succeeds for them (so `C13_map_create` is not
vacuous), and a fault in the stack's shadow is traced back to the stack. -/
example :
    (archInit (mkMap false .down4 0) 0 wSegs.length 0 wSegs).2 = true ∧
    (archInit (mkMap false .same 1) 1 wSegs.length 0
      (archInit (mkMap false .down4 0) 0 wSegs.length 0 wSegs).1).2 = true ∧
    faultAddr (mkMap false .down4 0) 0 0x14fffffff800
      (archInit (mkMap false .down4 0) 0 wSegs.length 0 wSegs).1 = some 0x7FFFFFFFE000 := by
  refine ⟨by decide +kernel, by decide +kernel, by decide +kernel⟩

/-- A process using the address range of its own shadow is refused. -/
example : (archInit (mkMap false .down4 0) 0 2 0
    [⟨0, 0x10000000000, true, fun _ => none⟩,
     ⟨0x110000000000, 0x120000000000, true, fun _ => none⟩]).2 = false := by decide +kernel

end Verif.Umbra64
