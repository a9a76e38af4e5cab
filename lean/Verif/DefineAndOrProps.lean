import Verif.DefineAndOr
import Verif.DefineShift

/-
C49: and, test and or.
-/

namespace Verif.Define

open Classical

/-! ### The loop -/

/-- The new value of a byte, from the values of the two sources. -/
def aoByte (q : AOIn) (i : Nat) (a b : Sh) : Sh :=
  if a = .undef then
    if q.have_ ∧ b = .defined ∧ andorVals q.strict q.op q.val1 i q.bitmask then .defined else .undef
  else if b = .undef then
    if q.have_ ∧ andorVals q.strict q.op q.val0 i q.bitmask then a else .undef
  else a

/-- Whether a byte sets `changed`. -/
def aoChanges (q : AOIn) (i : Nat) (a b : Sh) : Prop :=
  if a = .undef then
    q.have_ ∧ b = .defined ∧ andorVals q.strict q.op q.val1 i q.bitmask
  else b = .undef

theorem aoStep_dst (q : AOIn) (a : AO) (i k : Nat) :
    (aoStep q a i).dst k = if k = i + q.sz then .defined
      else if k = i then aoByte q i (a.dst i) (a.dst (i + q.sz)) else a.dst k := by
  unfold aoStep aoByte
  simp only [AO.set]
  by_cases hk : k = i + q.sz
  · simp [hk]
  · simp only [hk, if_false]
    by_cases h1 : a.dst i = .undef
    · simp only [h1, if_true]
      split
      · rfl
      · by_cases hki : k = i
        · simp [hki, h1]
        · simp [hki]
    · simp only [h1, if_false]
      by_cases h2 : a.dst (i + q.sz) = .undef
      · simp only [h2, if_true]
        split
        · by_cases hki : k = i
          · simp [hki]
          · simp [hki]
        · rfl
      · simp only [h2, if_false]
        by_cases hki : k = i
        · simp [hki]
        · simp [hki]

theorem aoStep_changed (q : AOIn) (a : AO) (i : Nat) :
    (aoStep q a i).changed = true ↔
      a.changed = true ∨ aoChanges q i (a.dst i) (a.dst (i + q.sz)) := by
  unfold aoStep aoChanges
  simp only [AO.set]
  by_cases h1 : a.dst i = .undef
  · simp only [h1, if_true]
    split
    · rename_i h; simp [h]
    · rename_i h; simp [h]
  · simp only [h1, if_false]
    by_cases h2 : a.dst (i + q.sz) = .undef
    · simp only [h2, if_true]
      split <;> simp
    · simp [h2]

theorem aoLoop_inv (q : AOIn) (d : Nat → Sh) (n : Nat) (hn : n ≤ q.sz) :
    let a := (List.range n).foldl (aoStep q) { dst := d, changed := false }
    (∀ k, a.dst k = if k < n then aoByte q k (d k) (d (k + q.sz))
      else if q.sz ≤ k ∧ k < q.sz + n then .defined else d k) ∧
    (a.changed = true ↔ ∃ k < n, aoChanges q k (d k) (d (k + q.sz))) := by
  induction n with
  | zero => simp
  | succ n ih =>
    obtain ⟨h1, h2⟩ := ih (by omega)
    simp only [List.range_succ, List.foldl_append, List.foldl_cons, List.foldl_nil]
    generalize (List.range n).foldl (aoStep q) { dst := d, changed := false } = a at h1 h2
    have e1 : a.dst n = d n := by rw [h1, if_neg (by omega), if_neg (by omega)]
    have e2 : a.dst (n + q.sz) = d (n + q.sz) := by
      rw [h1, if_neg (by omega), if_neg (by omega)]
    refine ⟨fun k => ?_, ?_⟩
    · rw [aoStep_dst q a n k, e1, e2, h1]
      by_cases c1 : k = n + q.sz
      · rw [if_pos c1, if_neg (by omega), if_pos (by omega)]
      · rw [if_neg c1]
        by_cases c2 : k = n
        · rw [if_pos c2, if_pos (by omega), c2]
        · rw [if_neg c2]
          by_cases c3 : k < n
          · rw [if_pos c3, if_pos (by omega)]
          · rw [if_neg c3, if_neg (show ¬ k < n + 1 by omega)]
            by_cases c4 : q.sz ≤ k ∧ k < q.sz + n
            · rw [if_pos c4, if_pos (by omega)]
            · rw [if_neg c4, if_neg (by omega)]
    · rw [aoStep_changed, h2, e1, e2]
      constructor
      · rintro (⟨k, hk, hc⟩ | hc)
        · exact ⟨k, by omega, hc⟩
        · exact ⟨n, by omega, hc⟩
      · rintro ⟨k, hk, hc⟩
        by_cases hkn : k = n
        · right; rw [← hkn]; exact hc
        · left; exact ⟨k, by omega, hc⟩

theorem layout_low (sz : Nat) (s0 s1 : Nat → Sh) (k : Nat) (hk : k < sz) :
    aoLayout sz s0 s1 k = norm (s0 k) := by
  unfold aoLayout combine norm
  rw [if_pos hk]; simp

theorem layout_high (sz : Nat) (s0 s1 : Nat → Sh) (k : Nat) (hk : k < sz) :
    aoLayout sz s0 s1 (k + sz) = norm (s1 k) := by
  unfold aoLayout combine norm
  rw [if_neg (by omega), if_pos (by omega)]; simp

theorem norm_undef (s : Sh) : norm s = .undef ↔ s = .undef := by
  unfold norm; split <;> simp_all

theorem norm_defined (s : Sh) : norm s = .defined ↔ s ≠ .undef := by
  unfold norm; split <;> simp_all

theorem andor_dst (q : AOIn) (s0 s1 : Nat → Sh) (j : Nat) (hj : j < q.sz) :
    (andor q s0 s1).1 j = aoByte q j (norm (s0 j)) (norm (s1 j)) := by
  have h := (aoLoop_inv q (aoLayout q.sz s0 s1) q.sz (Nat.le_refl _)).1 j
  simp only [andor, aoLoop]
  rw [h, if_pos hj, layout_low _ _ _ _ hj, layout_high _ _ _ _ hj]

/-! ### What the result depends on -/

/-- The operation of the processor; test computes the and for the flags. -/
def BitOp.run (op : BitOp) {n : Nat} (x y : BitVec n) : BitVec n :=
  match op with
  | .and | .test => x &&& y
  | .or => x ||| y

/-- Byte `j` of the result depends on undefined data: the operands could be others, the
same in all defined bytes, with another result. -/
def Depends (op : BitOp) (s0 s1 : Nat → Sh) {n : Nat} (x y : BitVec n) (j : Nat) : Prop :=
  ∃ x' y' : BitVec n, AgreeOn s0 x x' ∧ AgreeOn s1 y y' ∧
    byteOf (op.run x y) j ≠ byteOf (op.run x' y') j

theorem byteOf_zero_or_bit {n : Nat} (x : BitVec n) (j : Nat) :
    byteOf x j = 0#8 ∨ ∃ i < 8, x.getLsbD (8 * j + i) = true := by
  by_cases h : ∃ i < 8, x.getLsbD (8 * j + i) = true
  · exact Or.inr h
  · left
    unfold byteOf
    apply BitVec.eq_of_getLsbD_eq
    intro i hi
    have : x.getLsbD (8 * j + i) = false := by
      cases hx : x.getLsbD (8 * j + i)
      · rfl
      · exact absurd ⟨i, hi, hx⟩ h
    simp [hi, this]

theorem agree_refl (s : Nat → Sh) {n : Nat} (x : BitVec n) : AgreeOn s x x := fun _ _ => rfl

/-- Changing a bit of an undefined byte. -/
theorem agree_change {s : Nat → Sh} {n : Nat} {x x' : BitVec n} (j : Nat) (hs : s j = .undef)
    (h : ∀ k, k / 8 ≠ j → x.getLsbD k = x'.getLsbD k) : AgreeOn s x x' := by
  intro k hk
  rw [byteOf_eq_iff]
  intro i hi
  refine h _ ?_
  intro e
  have : k = j := by omega
  exact hk (this ▸ hs)

theorem differ {n : Nat} {a b : BitVec n} {j i : Nat} (hi : i < 8)
    (h : a.getLsbD (8 * j + i) ≠ b.getLsbD (8 * j + i)) : byteOf a j ≠ byteOf b j := by
  intro e
  exact h ((byteOf_eq_iff a b j).1 e i hi)

theorem getLsbD_flip {n : Nat} (x : BitVec n) (t k : Nat) (ht : t < n) :
    (x ^^^ BitVec.twoPow n t).getLsbD k = (x.getLsbD k ^^ decide (k = t)) := by
  rw [BitVec.getLsbD_xor, BitVec.getLsbD_twoPow]
  by_cases h : k = t
  · subst h; simp [ht]
  · have : ¬ t = k := fun e => h e.symm
    simp [h, this]

/-- An and or test byte with only the first source undefined depends on it iff the other
is not zero. -/
theorem depends_and_left {s0 s1 : Nat → Sh} {n : Nat} (x y : BitVec (8 * n)) (op : BitOp)
    (hop : op ≠ .or) (j : Nat) (hj : j < n) (h0 : s0 j = .undef) (h1 : s1 j ≠ .undef) :
    Depends op s0 s1 x y j ↔ byteOf y j ≠ 0#8 := by
  have hrun : ∀ a b : BitVec (8 * n), op.run a b = a &&& b := by
    intro a b; cases op <;> first | rfl | exact absurd rfl hop
  constructor
  · rintro ⟨x', y', ha, hb, hne⟩ hz
    apply hne
    have hz' : byteOf y' j = 0#8 := by rw [← hb j h1, hz]
    rw [hrun, hrun, byteOf_eq_iff]
    have hzero : ∀ z : BitVec (8 * n), byteOf z j = 0#8 → ∀ i < 8, z.getLsbD (8 * j + i) = false := by
      intro z hz i hi
      have := congrArg (fun w => w.getLsbD i) hz
      simpa [byteOf, hi] using this
    intro i hi
    rw [BitVec.getLsbD_and, BitVec.getLsbD_and, hzero y hz i hi, hzero y' hz' i hi]
    simp
  · intro hz
    rcases byteOf_zero_or_bit y j with h | ⟨i, hi, hy⟩
    · exact absurd h hz
    · refine ⟨x ^^^ BitVec.twoPow _ (8 * j + i), y, agree_change j h0 ?_, agree_refl _ _, ?_⟩
      · intro k hk
        rw [getLsbD_flip _ _ _ (by omega)]
        have : ¬ k = 8 * j + i := by omega
        simp [this]
      · refine differ hi ?_
        rw [hrun, hrun, BitVec.getLsbD_and, BitVec.getLsbD_and, getLsbD_flip _ _ _ (by omega), hy]
        simp

theorem Depends.swap {op : BitOp} {s0 s1 : Nat → Sh} {n : Nat} {x y : BitVec n} {j : Nat}
    (h : Depends op s0 s1 x y j) : Depends op s1 s0 y x j := by
  obtain ⟨x', y', ha, hb, hne⟩ := h
  refine ⟨y', x', hb, ha, ?_⟩
  cases op <;> simp only [BitOp.run] at hne ⊢
  · rwa [BitVec.and_comm y, BitVec.and_comm y']
  · rwa [BitVec.and_comm y, BitVec.and_comm y']
  · rwa [BitVec.or_comm y, BitVec.or_comm y']

theorem depends_both {s0 s1 : Nat → Sh} {n : Nat} (x y : BitVec (8 * n)) (op : BitOp) (j : Nat)
    (hj : j < n) (h0 : s0 j = .undef) (h1 : s1 j = .undef) : Depends op s0 s1 x y j := by
  have hc : ∀ z : BitVec (8 * n), ∃ w : BitVec (8 * n),
      (∀ k, k / 8 ≠ j → z.getLsbD k = w.getLsbD k) ∧
      w.getLsbD (8 * j) = !(op.run x y).getLsbD (8 * j) := by
    intro z
    by_cases h : z.getLsbD (8 * j) = !(op.run x y).getLsbD (8 * j)
    · exact ⟨z, fun _ _ => rfl, h⟩
    · refine ⟨z ^^^ BitVec.twoPow _ (8 * j), ?_, ?_⟩
      · intro k hk
        rw [getLsbD_flip _ _ _ (by omega)]
        have : ¬ k = 8 * j := by omega
        simp [this]
      · rw [getLsbD_flip _ _ _ (by omega)]
        revert h
        cases z.getLsbD (8 * j) <;> cases (op.run x y).getLsbD (8 * j) <;> simp
  obtain ⟨x', hx1, hx2⟩ := hc x
  obtain ⟨y', hy1, hy2⟩ := hc y
  refine ⟨x', y', agree_change j h0 hx1, agree_change j h1 hy1, differ (i := 0) (by omega) ?_⟩
  have e : ∀ c : Bool, x'.getLsbD (8 * j) = c → y'.getLsbD (8 * j) = c →
      (op.run x' y').getLsbD (8 * j) = c := by
    intro c h1 h2
    cases op <;> simp [BitOp.run, h1, h2]
  have := e _ hx2 hy2
  rw [Nat.add_zero, this]
  cases (op.run x y).getLsbD (8 * j) <;> simp

theorem not_depends {s0 s1 : Nat → Sh} {n : Nat} (x y : BitVec n) (op : BitOp) (j : Nat)
    (h0 : s0 j ≠ .undef) (h1 : s1 j ≠ .undef) : ¬ Depends op s0 s1 x y j := by
  rintro ⟨x', y', ha, hb, hne⟩
  apply hne
  have hx := (byteOf_eq_iff _ _ j).1 (ha j h0)
  have hy := (byteOf_eq_iff _ _ j).1 (hb j h1)
  rw [byteOf_eq_iff]
  intro i hi
  cases op <;> simp [BitOp.run, hx i hi, hy i hi]

/-! ### The bytes of a value -/

theorem dwordToByte_eq (v n : Nat) (hv : v < 2 ^ 32) (hn : n < 4) :
    dwordToByte v n = v / 2 ^ (8 * n) % 256 := by
  have key : ∀ m k, (v &&& m) / 2 ^ k = (v / 2 ^ k) &&& (m / 2 ^ k) := by
    intro m k
    rw [← Nat.shiftRight_eq_div_pow, ← Nat.shiftRight_eq_div_pow, ← Nat.shiftRight_eq_div_pow,
      Nat.shiftRight_and_distrib]
  have h255 : ∀ a : Nat, a &&& 255 = a % 256 := fun a => Nat.and_two_pow_sub_one_eq_mod a 8
  unfold dwordToByte
  rcases (show n = 0 ∨ n = 1 ∨ n = 2 ∨ n = 3 by omega) with rfl | rfl | rfl | rfl
  · simp only [Nat.zero_mod, Nat.pow_zero, Nat.mul_zero, Nat.div_one, Nat.mul_one]
    exact h255 v
  · show (v &&& 0xff * 256 ^ 1) / 256 ^ 1 = v / 2 ^ 8 % 256
    rw [show (256 : Nat) ^ 1 = 2 ^ 8 by decide, key, ← h255]
  · show (v &&& 0xff * 256 ^ 2) / 256 ^ 2 = v / 2 ^ 16 % 256
    rw [show (256 : Nat) ^ 2 = 2 ^ 16 by decide, key, ← h255]
  · show (v &&& (2 ^ 64 - 2 ^ 24)) / 256 ^ 3 = v / 2 ^ 24 % 256
    rw [show (256 : Nat) ^ 3 = 2 ^ 24 by decide, key,
      show (2 ^ 64 - 2 ^ 24) / 2 ^ 24 = 2 ^ 40 - 1 by decide, Nat.and_two_pow_sub_one_eq_mod]
    omega

theorem byteOf_zero_iff {n : Nat} (x : BitVec n) (j : Nat) :
    byteOf x j = 0#8 ↔ x.toNat / 2 ^ (8 * j) % 256 = 0 := by
  unfold byteOf
  rw [← BitVec.toNat_inj]
  simp [BitVec.extractLsb'_toNat, Nat.shiftRight_eq_div_pow]

/-! ### Theorems -/

theorem andorVals_and (strict : Bool) (op : BitOp) (hop : op ≠ .or) {n : Nat}
    (x : BitVec (8 * n)) (hn : n ≤ 4) (j : Nat) (hj : j < n) {bm : Bool}
    (hbm : strict = false → op = .and → bm = false) :
    andorVals strict op x.toNat j bm = true ↔ byteOf x j = 0#8 := by
  have hlt : x.toNat < 2 ^ 32 :=
    Nat.lt_of_lt_of_le x.isLt (Nat.pow_le_pow_right (by omega) (by omega))
  rw [byteOf_zero_iff, ← dwordToByte_eq _ _ hlt (by omega)]
  unfold andorVals
  cases strict <;> cases op <;> simp_all

/-- C49: and and test of operands of at most four bytes whose values can be read, where
no bitfield heuristic applies (an and with a bitmask immediate, without
-strict_bitops).  A byte of the result is called undefined exactly if
it depends on undefined data.  Missing: or, eight-byte operands and the heuristics,
see the theorems below. -/
theorem C49_and_exact_partial (n : Nat) (hn : n ≤ 4) (strict : Bool) (op : BitOp) (hop : op ≠ .or)
    (bm : Bool) (hbm : strict = false → op = .and → bm = false)
    (x y : BitVec (8 * n)) (s0 s1 : Nat → Sh) (j : Nat) (hj : j < n) :
    (andor ⟨n, strict, op, true, x.toNat, y.toNat, bm⟩ s0 s1).1 j = .undef ↔
      Depends op s0 s1 x y j := by
  rw [andor_dst _ _ _ _ hj]
  unfold aoByte
  simp only [norm_undef, norm_defined]
  by_cases h0 : s0 j = .undef
  · rw [if_pos h0]
    by_cases h1 : s1 j = .undef
    · simp only [h1, ne_eq, not_true_eq_false, false_and, and_false, if_false, true_iff]
      exact depends_both x y op j hj h0 h1
    · rw [depends_and_left x y op hop j hj h0 h1]
      simp only [true_and, ne_eq, h1, not_false_eq_true, andorVals_and strict op hop y hn j hj hbm]
      split <;> simp_all
  · rw [if_neg h0]
    by_cases h1 : s1 j = .undef
    · rw [if_pos h1]
      have hd : Depends op s0 s1 x y j ↔ byteOf x j ≠ 0#8 :=
        ⟨fun h => (depends_and_left y x op hop j hj h1 h0).1 h.swap,
         fun h => ((depends_and_left y x op hop j hj h1 h0).2 h).swap⟩
      rw [hd]
      simp only [true_and, andorVals_and strict op hop x hn j hj hbm]
      split
      · rename_i hz
        simp [hz, norm_undef, h0]
      · rename_i hz
        simp [hz]
    · rw [if_neg h1, norm_undef]
      exact ⟨fun h => absurd h h0, fun h => absurd h (not_depends x y op j h0 h1)⟩

/-- C49: without -strict_bitops, an and with a bitmask immediate keeps only the bytes undefined
that are undefined in both sources (and hides the others, although they may matter). -/
theorem C49_bitmask_and (n v0 v1 : Nat) (s0 s1 : Nat → Sh) (j : Nat) (hj : j < n) :
    (andor ⟨n, false, .and, true, v0, v1, true⟩ s0 s1).1 j = .undef ↔ s0 j = .undef ∧ s1 j = .undef := by
  rw [andor_dst _ _ _ _ hj]
  unfold aoByte andorVals
  cases e0 : s0 j <;> cases e1 : s1 j <;> simp_all [norm]

example : (andor ⟨4, false, .and, true, 5, 0x38, true⟩ (fun _ => .undef) (fun _ => .defined)).1 0
    = .defined := by decide +kernel

/-- C49: with -strict_bitops no byte of an or of any size is called defined if it depends
on undefined data. -/
theorem C49_or_sound_partial (n : Nat) (have_ bitmask : Bool) (v0 v1 : Nat)
    (x y : BitVec (8 * n)) (h64 : v0 < 2 ^ 64 ∧ v1 < 2 ^ 64) (s0 s1 : Nat → Sh) (j : Nat)
    (hj : j < n)
    (hr : (andor ⟨n, true, .or, have_, v0, v1, bitmask⟩ s0 s1).1 j ≠ .undef) :
    ¬ Depends .or s0 s1 x y j := by
  have hv : ∀ v, v < 2 ^ 64 → andorVals true .or v j bitmask = true → False := by
    intro v hv h
    simp only [andorVals, if_true, ne_eq, not_true_eq_false, decide_false, Bool.false_and,
      Bool.false_or, decide_true, Bool.true_and, decide_eq_true_eq] at h
    unfold dwordToByte at h
    simp only [] at h
    generalize hm : (if j % 4 = 3 then 2 ^ 64 - 2 ^ 24 else 0xff * 256 ^ (j % 4)) = m at h
    by_cases h0 : j = 0
    · subst h0
      have hm' : m = 0xff := by rw [← hm]; decide
      have := @Nat.and_le_right v m
      rw [hm'] at this h
      rw [Nat.pow_zero, Nat.div_one] at h
      rw [h] at this
      exact absurd this (by decide)
    · have h1 : (v &&& m) ≤ v := Nat.and_le_left
      have h2 : (v &&& m) / 256 ^ j ≤ (v &&& m) / 256 ^ 1 :=
        Nat.div_le_div_left (Nat.pow_le_pow_right (by omega) (by omega)) (by decide)
      rw [h] at h2
      omega
  have hr' : ¬ s0 j = .undef ∧ ¬ s1 j = .undef := by
    rw [andor_dst _ _ _ _ hj] at hr
    unfold aoByte at hr
    simp only [norm_undef, norm_defined] at hr
    by_cases h0 : s0 j = .undef
    · rw [if_pos h0, if_neg] at hr
      · exact absurd rfl hr
      · rintro ⟨_, _, h⟩; exact hv _ h64.2 h
    · rw [if_neg h0] at hr
      by_cases h1 : s1 j = .undef
      · rw [if_pos h1, if_neg] at hr
        · exact absurd rfl hr
        · rintro ⟨_, h⟩; exact hv _ h64.1 h
      · exact ⟨h0, h1⟩
  exact not_depends x y .or j hr'.1 hr'.2

theorem fold_combine (l : List Nat) (g : Nat → Sh) (f : Sh) :
    l.foldl (fun f i => combine f (g i)) f = .undef ↔ f = .undef ∨ ∃ i ∈ l, g i = .undef := by
  induction l generalizing f with
  | nil => simp
  | cons a l ih =>
    rw [List.foldl_cons, ih]
    have : combine f (g a) = .undef ↔ f = .undef ∨ g a = .undef := by
      unfold combine; split <;> simp_all
    rw [this]; simp [or_assoc]

/-- C49: for all three, with or without the heuristics, the flags are called undefined
exactly if some byte of the result is. -/
theorem C49_flags (q : AOIn) (s0 s1 : Nat → Sh) (hq : 2 * q.sz ≤ 32) :
    (andor q s0 s1).2 = .undef ↔ ∃ j < q.sz, (andor q s0 s1).1 j = .undef := by
  obtain ⟨h1, h2⟩ := aoLoop_inv q (aoLayout q.sz s0 s1) q.sz (Nat.le_refl _)
  have hb : ∀ j < q.sz, (andor q s0 s1).1 j = aoByte q j (norm (s0 j)) (norm (s1 j)) :=
    fun j hj => andor_dst q s0 s1 j hj
  have hsnd : (andor q s0 s1).2 = if (aoLoop q (aoLayout q.sz s0 s1)).changed then
      (List.range arrayLen).foldl (fun f i => combine f ((andor q s0 s1).1 i)) .defined
      else aoFlags0 q.sz s0 s1 := rfl
  rw [hsnd]
  by_cases hc : (aoLoop q (aoLayout q.sz s0 s1)).changed = true
  · rw [if_pos hc, fold_combine]
    simp only [reduceCtorEq, false_or, List.mem_range]
    constructor
    · rintro ⟨i, _, hu⟩
      by_cases hi : i < q.sz
      · exact ⟨i, hi, hu⟩
      · exfalso
        have := h1 i
        rw [show (andor q s0 s1).1 i = _ from this, if_neg hi] at hu
        by_cases h3 : q.sz ≤ i ∧ i < q.sz + q.sz
        · rw [if_pos h3] at hu; cases hu
        · rw [if_neg h3] at hu
          unfold aoLayout at hu
          rw [if_neg hi, if_neg (by omega)] at hu
          cases hu
    · rintro ⟨j, hj, hu⟩
      exact ⟨j, by unfold arrayLen; omega, hu⟩
  · rw [if_neg hc]
    have hn : ∀ k < q.sz, ¬ aoChanges q k (norm (s0 k)) (norm (s1 k)) := by
      intro k hk h
      apply hc
      refine h2.2 ⟨k, hk, ?_⟩
      rw [layout_low _ _ _ _ hk, layout_high _ _ _ _ hk]
      exact h
    unfold aoFlags0
    rw [fold_combine, fold_combine]
    simp only [reduceCtorEq, false_or, List.mem_range]
    have hbyte : ∀ k < q.sz, ((andor q s0 s1).1 k = .undef ↔ s0 k = .undef ∨ s1 k = .undef) := by
      intro k hk
      have h := hn k hk
      rw [hb k hk]
      unfold aoChanges at h
      unfold aoByte
      simp only [norm_undef, norm_defined] at h ⊢
      by_cases h0 : s0 k = .undef
      · rw [if_pos h0] at h ⊢
        rw [if_neg h]
        simp [h0]
      · rw [if_neg h0] at h ⊢
        rw [if_neg h, norm_undef]
        simp [h0, h]
    constructor
    · rintro (⟨k, hk, h⟩ | ⟨k, hk, h⟩)
      · exact ⟨k, hk, (hbyte k hk).2 (Or.inl h)⟩
      · exact ⟨k, hk, (hbyte k hk).2 (Or.inr h)⟩
    · rintro ⟨k, hk, h⟩
      rcases (hbyte k hk).1 h with h | h
      · exact Or.inl ⟨k, hk, h⟩
      · exact Or.inr ⟨k, hk, h⟩

/-- C49, negative: or with 0xff gives 0xff, but also with -strict_bitops the result is
called undefined: `~0` has all 64 bits set and is compared with one byte. -/
theorem C49_or_ff : ¬ Depends .or (fun _ => .undef) (fun _ => .defined) (0x00#8) (0xff#8) 0 ∧
    (andor ⟨1, true, .or, true, 0x00, 0xff, false⟩ (fun _ => .undef) (fun _ => .defined)).1 0
      = .undef := by
  refine ⟨?_, by decide⟩
  rintro ⟨x', y', _, hb, hne⟩
  have hy : y' = 0xff#8 := by
    have := hb 0 (by simp)
    have e : ∀ z : BitVec 8, byteOf z 0 = z := by
      intro z; unfold byteOf; simp
    rw [e, e] at this
    exact this.symm
  apply hne
  rw [hy]
  have : ∀ z : BitVec 8, z ||| 0xff#8 = 0xff#8 := by decide +kernel
  simp [BitOp.run, this]

/-- C49, negative: without -strict_bitops (the default) an or with a defined zero is
called defined though it is the undefined operand itself. -/
theorem C49_or_relaxed (x : BitVec 8) :
    Depends .or (fun _ => .undef) (fun _ => .defined) x (0#8) 0 ∧
    (andor ⟨1, false, .or, true, x.toNat, 0, false⟩ (fun _ => .undef) (fun _ => .defined)).1 0
      = .defined := by
  have e : ∀ z : BitVec 8, byteOf z 0 = z := by
    intro z; unfold byteOf; simp
  have h : ∀ z : BitVec 8, z ≠ ~~~z := by decide +kernel
  refine ⟨⟨~~~x, 0#8, by intro j hj; simp at hj, agree_refl _ _, ?_⟩, ?_⟩
  · simp [BitOp.run, e]
  · rw [andor_dst _ _ _ _ (Nat.one_pos)]
    simp [aoByte, norm, andorVals]

/-- C49, negative: and of eight-byte operands.  Byte 4 of the defined operand is 0xff and
the result byte is the undefined byte of the other; the wrong shift finds zero and
calls it defined, with either setting of -strict_bitops. -/
theorem C49_and_64 (strict : Bool) :
    Depends .and (fun _ => .undef) (fun _ => .defined) (0#64) (0x000000ff00000000#64) 4 ∧
    (andor ⟨8, strict, .and, true, 0, 0x000000ff00000000, false⟩ (fun _ => .undef)
      (fun _ => .defined)).1 4 = .defined := by
  refine ⟨⟨0x000000ff00000000#64, 0x000000ff00000000#64, by intro j hj; simp at hj,
    agree_refl _ _, by decide⟩, ?_⟩
  cases strict <;> decide +kernel

/-- C49, negative: the other way round, byte 3 of an eight-byte operand is zero, but with
a bit set above it the code does not see that. -/
theorem C49_and_64_false (strict : Bool) :
    ¬ Depends .and (fun _ => .undef) (fun _ => .defined) (0#64) (0x0100000000000000#64) 3 ∧
    (andor ⟨8, strict, .and, true, 0, 0x0100000000000000, false⟩ (fun _ => .undef)
      (fun _ => .defined)).1 3 = .undef := by
  refine ⟨?_, by cases strict <;> decide +kernel⟩
  have := depends_and_left (s0 := fun _ => .undef) (s1 := fun _ => .defined) (n := 8) (0#64)
    (0x0100000000000000#64) .and (by decide) 3 (by omega) rfl (by decide)
  intro h
  exact this.1 h (by decide)

/-- C49, negative: the value of an operand in memory is read into an uninitialised
variable; whatever is in its upper half can hide a zero in byte 3. -/
theorem C49_garbage : dwordToByte 0x00000001_00ffffff 3 ≠ 0 ∧
    (0x00000001_00ffffff % 2 ^ 32) / 2 ^ 24 % 256 = 0 := by
  decide +kernel

/-! ### The immediate of a bitfield -/

/-- The zero bits below `n` form one run. -/
def OneRun (v n : Nat) : Prop :=
  ∀ a b c, a < b → b < c → c < n → v.testBit a = false → v.testBit c = false → v.testBit b = false

theorem bmRun_succ (v n : Nat) : bmRun v (n + 1) = bmStep (bmRun v n) (v.testBit n) := by
  simp [bmRun, List.range_succ]

theorem bmRun_inv (v n : Nat) :
    (bmRun v n).ones = ((List.range n).filter fun i => v.testBit i).length ∧
    ((bmRun v n).found = true ↔ ∃ a < n, v.testBit a = false) ∧
    ((bmRun v n).two = true ↔ ¬ OneRun v n) ∧
    ((bmRun v n).two = false →
      ((bmRun v n).last = true ↔ ∃ a, a + 1 = n ∧ v.testBit a = false)) := by
  induction n with
  | zero => simp [bmRun, OneRun]
  | succ n ih =>
    obtain ⟨h1, h2, h3, h4⟩ := ih
    rw [bmRun_succ, List.range_succ, List.filter_append, List.length_append, ← h1]
    have mono : OneRun v (n + 1) → OneRun v n := fun h a b c h1 h2 h3 => h a b c h1 h2 (by omega)
    generalize bmRun v n = s at *
    cases hb : v.testBit n with
    | true =>
      have hrun : OneRun v (n + 1) ↔ OneRun v n := by
        refine ⟨mono, fun h a b c hab hbc hc ha hcc => ?_⟩
        by_cases e : c = n
        · rw [e, hb] at hcc; cases hcc
        · exact h a b c hab hbc (by omega) ha hcc
      simp only [bmStep, if_true]
      refine ⟨by simp [hb], ?_, by rw [hrun]; exact h3, ?_⟩
      · rw [h2]
        constructor
        · rintro ⟨a, ha, h⟩; exact ⟨a, by omega, h⟩
        · rintro ⟨a, ha, h⟩
          by_cases e : a = n
          · rw [e, hb] at h; cases h
          · exact ⟨a, by omega, h⟩
      · intro _
        simp only [Bool.false_eq_true, false_iff]
        rintro ⟨a, ha, h⟩
        have : a = n := by omega
        rw [this, hb] at h; cases h
    | false =>
      have hfound : ∃ a < n + 1, v.testBit a = false := ⟨n, by omega, hb⟩
      simp only [bmStep, Bool.false_eq_true, if_false]
      by_cases hc : ¬ s.last = true ∧ s.found = true
      · rw [if_pos hc]
        refine ⟨by simp [hb], ?_, ?_, by simp⟩
        · simp only [hc.2, true_iff]; exact hfound
        · simp only [true_iff]
          by_cases ht : s.two = true
          · exact fun h => h3.1 ht (mono h)
          · have hl := h4 (by simpa using ht)
            obtain ⟨a, ha, hz⟩ := h2.1 hc.2
            have hn1 : n ≠ 0 := by omega
            have hne : v.testBit (n - 1) = true := by
              cases hq : v.testBit (n - 1)
              · exact absurd (hl.2 ⟨n - 1, by omega, hq⟩) hc.1
              · rfl
            intro h
            have han : a ≠ n - 1 := by rintro rfl; rw [hne] at hz; cases hz
            have := h a (n - 1) n (by omega) (by omega) (by omega) hz hb
            rw [hne] at this; cases this
      · rw [if_neg hc]
        have hlf : s.found = true → s.last = true := by
          intro hf
          exact Classical.not_not.1 fun hl => hc ⟨hl, hf⟩
        refine ⟨by simp [hb], by simp only [true_iff]; exact hfound, ?_, ?_⟩
        · simp only []
          rw [h3]
          by_cases ht : s.two = true
          · have := h3.1 ht
            exact ⟨fun h hh => h (mono hh), fun _ => this⟩
          · have hl := h4 (by simpa using ht)
            have hr : OneRun v n := Classical.not_not.1 fun h => ht (h3.2 h)
            simp only [hr, not_true_eq_false, false_iff, Classical.not_not]
            intro a b c hab hbc hcn ha hcc
            by_cases e : c = n
            · subst e
              obtain ⟨p, hp, hpz⟩ := hl.1 (hlf (h2.2 ⟨a, by omega, ha⟩))
              by_cases e2 : b = p
              · rw [e2]; exact hpz
              · exact hr a b p hab (by omega) (by omega) ha hpz
            · exact hr a b c hab hbc (by omega) ha hcc
        · intro _
          simp only [true_iff]
          exact ⟨n, rfl, hb⟩

/-- C49: the immediates taken for the clearing of a bitfield are exactly those of an and,
without -strict_bitops, whose zero bits form one run and that have more than two
one bits. -/
theorem C49_bitmask (strict : Bool) (op : BitOp) (sz v : Nat) :
    bitmaskImmed strict op sz v = true ↔ strict = false ∧ op = .and ∧ OneRun v (sz * 8) ∧
      2 < ((List.range (sz * 8)).filter fun i => v.testBit i).length := by
  obtain ⟨h1, _, h3, _⟩ := bmRun_inv v (sz * 8)
  unfold bitmaskImmed
  by_cases hs : ¬ strict = true ∧ op = .and
  · rw [if_pos hs, ← h1]
    have : strict = false := by simpa using hs.1
    simp only [this, hs.2, true_and, decide_eq_true_eq, h3, Classical.not_not, gt_iff_lt]
  · rw [if_neg hs]
    simp only [Bool.false_eq_true, false_iff]
    rintro ⟨h, h', _⟩
    exact hs ⟨by simp [h], h'⟩

/-- and eax, 0xffff00ff is such an immediate, and eax, 0xff00ff00 is not; the second
byte of an undefined register is suppressed by the first of two zero bytes. -/
example : bitmaskImmed false .and 4 0xffff00ff = true ∧ bitmaskImmed false .and 4 0xff00ff00 = false ∧
    (andor ⟨4, true, .and, true, 0, 0xffff00ff, false⟩ (fun _ => .undef) (fun _ => .defined)).1 1
      = .defined ∧
    (andor ⟨4, true, .and, true, 0, 0xffff00ff, false⟩ (fun _ => .undef) (fun _ => .defined)).1 2
      = .undef := by
  decide +kernel

end Verif.Define
