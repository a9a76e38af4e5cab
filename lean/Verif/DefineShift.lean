import Verif.DefineProps
import Verif.DefineSpec

/-
C46: shifts.  What the shadow calls defined after a shift does not depend on the
undefined bytes of the operand; the same for the flags.
-/

namespace Verif.Define

open Classical

theorem byteOf_eq_iff {n : Nat} (x y : BitVec n) (j : Nat) :
    byteOf x j = byteOf y j ↔ ∀ i < 8, x.getLsbD (8 * j + i) = y.getLsbD (8 * j + i) := by
  unfold byteOf
  constructor
  · intro h i hi
    have := congrArg (fun z => z.getLsbD i) h
    simpa [BitVec.getLsbD_extractLsb', hi] using this
  · intro h
    apply BitVec.eq_of_getLsbD_eq
    intro i hi
    simp [hi, h i hi]

theorem AgreeOn.bit {n : Nat} {sh : Nat → Sh} {x y : BitVec n} (h : AgreeOn sh x y) (k : Nat)
    (hk : sh (k / 8) ≠ .undef) : x.getLsbD k = y.getLsbD k := by
  have := (byteOf_eq_iff x y (k / 8)).1 (h _ hk) (k % 8) (by omega)
  rwa [show 8 * (k / 8) + k % 8 = k by omega] at this

/-- The shift of one element: `x` shifted by `c`, the bits above are zero or copies of
the top bit. -/
def shiftBy (d : Dir) {n : Nat} (x : BitVec n) (c : Nat) : BitVec n :=
  match d with
  | .left => x <<< c
  | .right => x >>> c
  | .arith => x.sshiftRight c

/-- The bytes that reach byte `j` of a shifted element decide it, for left and logical
right shifts and for arithmetic shifts except in one byte. -/
theorem shift_bytes (d : Dir) (count w : Nat) (x y : BitVec (8 * w)) (j : Nat) (hj : j < w)
    (hd : d = .arith → count % 8 = 0 ∨ 8 * w ≤ count ∨ j + count / 8 + 2 ≠ w)
    (h : ∀ b < w, shiftTo d count b w j → byteOf x b = byteOf y b) :
    byteOf (shiftBy d x count) j = byteOf (shiftBy d y count) j := by
  rw [byteOf_eq_iff]
  intro i hi
  have bit : ∀ k, k / 8 < w → shiftTo d count (k / 8) w j → x.getLsbD k = y.getLsbD k := by
    intro k hk hs
    have := (byteOf_eq_iff x y (k / 8)).1 (h _ hk hs) (k % 8) (by omega)
    rwa [show 8 * (k / 8) + k % 8 = k by omega] at this
  cases d with
  | left =>
    simp only [shiftBy, BitVec.getLsbD_shiftLeft]
    by_cases hc : 8 * j + i < count
    · simp [hc]
    · rw [bit (8 * j + i - count) (by omega)]
      unfold shiftTo
      simp only []
      generalize hm : min count (w * 8) = m
      by_cases h0 : m = 0
      · rw [if_pos h0]; omega
      · rw [if_neg h0]; omega
  | right =>
    simp only [shiftBy, BitVec.getLsbD_ushiftRight]
    by_cases hc : count + (8 * j + i) < 8 * w
    · rw [bit _ (by omega)]
      unfold shiftTo
      simp only []
      generalize hm : min count (w * 8) = m
      by_cases h0 : m = 0
      · rw [if_pos h0]; omega
      · rw [if_neg h0]; omega
    · rw [BitVec.getLsbD_of_ge _ _ (by omega), BitVec.getLsbD_of_ge _ _ (by omega)]
  | arith =>
    simp only [shiftBy, BitVec.getLsbD_sshiftRight]
    have hd' := hd rfl
    by_cases hc : count + (8 * j + i) < 8 * w
    · simp only [hc, if_true]
      rw [bit _ (by omega)]
      unfold shiftTo
      simp only []
      generalize hm : min count (w * 8) = m
      by_cases h0 : m = 0
      · rw [if_pos h0]; omega
      · rw [if_neg h0]
        by_cases h1 : (count + (8 * j + i)) / 8 = w - 1
        · rw [if_pos h1]; omega
        · rw [if_neg h1]; omega
    · simp only [hc, if_false]
      rw [BitVec.msb_eq_getLsbD_last, BitVec.msb_eq_getLsbD_last, bit (8 * w - 1) (by omega)]
      unfold shiftTo
      simp only []
      generalize hm : min count (w * 8) = m
      by_cases h0 : m = 0
      · rw [if_pos h0]; omega
      · rw [if_neg h0, if_pos (by omega)]; omega

/-- The GPR shift of direction `d`. -/
def gprOp : Dir → Op
  | .left => .shl
  | .right => .shr
  | .arith => .sar

/-- The packed shift of direction `d`. -/
def packedOp (d : Dir) (w : Nat) : Op :=
  match d with
  | .left => .psll w
  | .right => .psrl w
  | .arith => .psra w

/-- The shift count the processor uses for an operand of `n` bytes: the low five bits,
six for a 64-bit operand. -/
def gprCount (n count : Nat) : Nat := count % (if n = 8 then 64 else 32)

theorem flow_gpr (d : Dir) (v : Nat) (dr fl : Bool) (o n : Nat) (r : Bool) (b j : Nat) :
    flow ⟨gprOp d, v, dr, fl⟩ o n r b j ↔ shiftTo d v b n j := by
  cases d <;> simp [flow, gprOp]

theorem not_undef_of_result {I : Ins} (hw : I.op.ok) {part : Bool} {prior : Nat → Sh}
    {x : Src} {j b : Nat} (hb : b < x.size) (hf : flow I x.num x.size x.reg b j)
    (hr : result I part prior [x] j ≠ .undef) : x.sh b ≠ .undef := by
  intro hs
  apply hr
  rw [result_eq I hw, if_pos ⟨x, by simp, b, hb, Or.inl hf⟩, if_pos ⟨x, by simp, b, hb, hf, hs⟩]

/-- C46: a general register shift by `v`.  For every operand size, every shadow and every
two values that agree in the bytes that are not undefined, the results of the
processor agree in every byte that the new shadow does not call undefined.
Missing for the full claim: counts that the processor masks (`C46_masked_count`)
and, for sar, the byte below the copies of the top byte (`C46_sar`). -/
theorem C46_shift_partial (d : Dir) (n v : Nat) (dr fl r part : Bool) (o : Nat) (sh prior : Nat → Sh)
    (x y : BitVec (8 * n)) (hxy : AgreeOn sh x y) (hv : gprCount n v = v) (j : Nat) (hj : j < n)
    (hd : d = .arith → v % 8 = 0 ∨ 8 * n ≤ v ∨ j + v / 8 + 2 ≠ n)
    (hr : result ⟨gprOp d, v, dr, fl⟩ part prior [⟨o, r, n, sh⟩] j ≠ .undef) :
    byteOf (shiftBy d x (gprCount n v)) j = byteOf (shiftBy d y (gprCount n v)) j := by
  rw [hv]
  refine shift_bytes d v n x y j hj hd fun b hb hs => hxy b ?_
  exact not_undef_of_result (x := ⟨o, r, n, sh⟩) (by cases d <;> trivial) hb
    ((flow_gpr d v dr fl o n r b j).2 hs) hr

/-- C46: packed shifts by an immediate, without a bound on the count.  `x` and `y` give
the elements. -/
theorem C46_packed_partial (d : Dir) (w k v : Nat) (dr fl r part : Bool) (o : Nat)
    (sh prior : Nat → Sh) (x y : Nat → BitVec (8 * w)) (hw : 0 < w)
    (hxy : ∀ e, AgreeOn (fun b => sh (e * w + b)) (x e) (y e)) (j : Nat) (hj : j < k * w)
    (hd : d = .arith → v % 8 = 0 ∨ 8 * w ≤ v ∨ j % w + v / 8 + 2 ≠ w)
    (hr : result ⟨packedOp d w, v, dr, fl⟩ part prior [⟨o, r, k * w, sh⟩] j ≠ .undef) :
    byteOf (shiftBy d (x (j / w)) v) (j % w) = byteOf (shiftBy d (y (j / w)) v) (j % w) := by
  refine shift_bytes d v w _ _ (j % w) (Nat.mod_lt _ hw) hd fun b hb hs => hxy (j / w) b ?_
  have hdiv : (j / w * w + b) / w = j / w := by
    rw [Nat.add_comm, Nat.add_mul_div_right _ _ hw, Nat.div_eq_of_lt hb, Nat.zero_add]
  have hmod : (j / w * w + b) % w = b := by
    rw [Nat.add_comm, Nat.add_mul_mod_self_right, Nat.mod_eq_of_lt hb]
  have hjw : j / w < k := (Nat.div_lt_iff_lt_mul hw).2 hj
  have hsz : j / w * w + b < k * w := by
    have : (j / w + 1) * w ≤ k * w := Nat.mul_le_mul_right w hjw
    rw [Nat.add_mul] at this
    omega
  have hdm : j - j / w * w = j % w := by
    have := Nat.div_add_mod j w
    rw [Nat.mul_comm] at this
    omega
  have hle : j / w * w ≤ j := Nat.div_mul_le_self j w
  refine not_undef_of_result (x := ⟨o, r, k * w, sh⟩) (by cases d <;> exact hw)
    (b := j / w * w + b) hsz ?_ hr
  cases d <;> simp only [flow, packedOp, hdiv, hmod, hdm] <;> exact ⟨hle, hs⟩

/-- Which bytes go to the flags in a shift by `k` bits. -/
def toFlags (d : Dir) (count b n : Nat) : Prop :=
  min count (n * 8) ≠ 0 ∧ (d = .left → b + min count (n * 8) / 8 ≤ n)

theorem mapShift_flags (d : Dir) (count : Nat) (c : Comb) (b offs n : Nat) (s : Sh) :
    (mapShift d count c b offs n s).eflags = .undef ↔
      c.eflags = .undef ∨ (toFlags d count b n ∧ s = .undef) := by
  have hk : (if count > n * 8 then n * 8 else count) = min count (n * 8) := by
    split <;> omega
  have hc : ∀ a : Sh, combine a s = .undef ↔ a = .undef ∨ s = .undef := by
    intro a; unfold combine; split <;> simp_all
  have hright : ∀ k, (mapShift.right b offs s k c).eflags = combine c.eflags s := by
    intro k; unfold mapShift.right; simp only []; split <;> split <;> rfl
  have hfold : ∀ (l : List Nat) (c : Comb) (p : Nat → Prop) [DecidablePred p] (g : Nat → Nat),
      (l.foldl (fun c i => if p i then c.accum (g i) s else c) c).eflags = c.eflags := by
    intro l
    induction l with
    | nil => intros; rfl
    | cons a l ih =>
      intro c p _ g
      rw [List.foldl_cons, ih]
      split <;> rfl
  unfold mapShift toFlags
  simp only [hk]
  generalize min count (n * 8) = k
  by_cases h0 : k = 0
  · simp [h0, Comb.accum]
  · simp only [h0, if_false]
    cases d with
    | left =>
      simp only []
      by_cases h1 : b + k / 8 ≥ n
      · rw [if_pos h1]
        by_cases h2 : b + k / 8 = n
        · rw [if_pos h2]
          show combine c.eflags s = _ ↔ _
          rw [hc]; simp [h2, h0]
        · rw [if_neg h2]
          have : ¬ b + k / 8 ≤ n := by omega
          simp [this]
      · rw [if_neg h1]
        have : b + k / 8 ≤ n := by omega
        have e : ∀ c' : Comb, c'.eflags = c.eflags →
            ((c'.accumFlags s).eflags = .undef ↔ c.eflags = .undef ∨ s = .undef) := by
          intro c' hc'
          show combine c'.eflags s = _ ↔ _
          rw [hc, hc']
        rw [e]
        · simp [this, h0]
        · split <;> rfl
    | right =>
      simp only [hright, hc]
      simp [h0]
    | arith =>
      simp only []
      by_cases h1 : b = n - 1
      · rw [if_pos h1]
        show combine _ s = _ ↔ _
        rw [hfold, hc]
        simp [h0]
      · rw [if_neg h1, hright, hc]
        simp [h0]

theorem fold_flags {f : Comb → Nat → Comb} {P : Nat → Prop} (l : List Nat)
    (h : ∀ c b, (f c b).eflags = .undef ↔ c.eflags = .undef ∨ P b) (c : Comb) :
    (l.foldl f c).eflags = .undef ↔ c.eflags = .undef ∨ ∃ b ∈ l, P b := by
  induction l generalizing c with
  | nil => simp
  | cons a l ih => rw [List.foldl_cons, ih, h]; simp [or_assoc]

/-- The shadow of the flags after a shift. -/
theorem shift_flags (d : Dir) (n v : Nat) (dr fl r part : Bool) (o : Nat) (sh : Nat → Sh) :
    (sources ⟨gprOp d, v, dr, fl⟩ part [⟨o, r, n, sh⟩]).eflags = .undef ↔
      ∃ b < n, toFlags d v b n ∧ sh b = .undef := by
  have hm : ∀ c b, (mapSrc ⟨gprOp d, v, dr, fl⟩ o n r c b (sh b)).eflags = .undef ↔
      c.eflags = .undef ∨ (toFlags d v b n ∧ sh b = .undef) := by
    intro c b
    have : mapSrc ⟨gprOp d, v, dr, fl⟩ o n r c b (sh b) = mapShift d v c b 0 n (sh b) := by
      cases d <;> simp [mapSrc, mapDst, gprOp]
    rw [this, mapShift_flags]
  show (integrate _ _ _).eflags = .undef ↔ _
  unfold integrate
  rw [fold_flags _ hm]
  simp [init]

/-- The last bit shifted out, which goes to CF. -/
def carry (d : Dir) {n : Nat} (x : BitVec n) (c : Nat) : Bool :=
  match d with
  | .left => x.getLsbD (n - c)
  | .right | .arith => x.getLsbD (c - 1)

/-- C46: the flags of a shift by 0 < v < 8n.  If the new shadow of the flags is not
undefined, the result and the carry are the same for any two values that agree in
the defined bytes, and so are all flags, which are computed from them. -/
theorem C46_shift_flags_partial (d : Dir) (n v : Nat) (dr fl r part : Bool) (o : Nat)
    (sh : Nat → Sh) (x y : BitVec (8 * n)) (hxy : AgreeOn sh x y) (h0 : 0 < v) (hv : v < 8 * n)
    (hf : (sources ⟨gprOp d, v, dr, fl⟩ part [⟨o, r, n, sh⟩]).eflags ≠ .undef) :
    shiftBy d x v = shiftBy d y v ∧ carry d x v = carry d y v := by
  rw [Ne, shift_flags] at hf
  have hs : ∀ b < n, toFlags d v b n → sh b ≠ .undef := fun b hb ht hu => hf ⟨b, hb, ht, hu⟩
  have hm : min v (n * 8) = v := by omega
  have bit : ∀ k < 8 * n, (d = .left → k + v ≤ 8 * n) → x.getLsbD k = y.getLsbD k := by
    intro k hk hl
    refine hxy.bit k (hs _ (by omega) ⟨by omega, fun h => ?_⟩)
    have := hl h
    rw [hm]; omega
  cases d with
  | left =>
    refine ⟨?_, bit _ (by omega) (fun _ => by omega)⟩
    apply BitVec.eq_of_getLsbD_eq
    intro i hi
    simp only [shiftBy, BitVec.getLsbD_shiftLeft]
    by_cases hc : i < v
    · simp [hc]
    · rw [bit (i - v) (by omega) (fun _ => by omega)]
  | right =>
    have e : x = y := BitVec.eq_of_getLsbD_eq fun i hi => bit i hi (by simp)
    rw [e]; exact ⟨rfl, rfl⟩
  | arith =>
    have e : x = y := BitVec.eq_of_getLsbD_eq fun i hi => bit i hi (by simp)
    rw [e]; exact ⟨rfl, rfl⟩

/-- The hypotheses are met by a shift of a 32-bit value by 12 whose low byte is
undefined: bytes 0 and 3 of the result are defined and the flags are not. -/
example : gprCount 4 12 = 12 ∧
    (fun j => result ⟨.shl, 12, true, true⟩ false (fun _ => .defined)
      [⟨1, true, 4, fun b => if b = 0 then .undef else .defined⟩] j) 3 = .defined ∧
    (fun j => result ⟨.shl, 12, true, true⟩ false (fun _ => .defined)
      [⟨1, true, 4, fun b => if b = 0 then .undef else .defined⟩] j) 2 = .undef ∧
    AgreeOn (fun b => if b = 0 then .undef else .defined) (0x12345601#32) (0x123456ff#32) := by
  refine ⟨by decide, by decide, by decide, ?_⟩
  intro j hj
  have hj0 : j ≠ 0 := by rintro rfl; simp at hj
  rw [byteOf_eq_iff]
  intro i hi
  by_cases h : 8 * j + i < 32
  · have : ∀ k < 32, 8 ≤ k → (0x12345601#32).getLsbD k = (0x123456ff#32).getLsbD k := by decide
    exact this _ h (by omega)
  · rw [BitVec.getLsbD_of_ge _ _ (by omega), BitVec.getLsbD_of_ge _ _ (by omega)]

end Verif.Define
