import Verif.DefineMoves
import Verif.DefineShift

/-
C46: shifts do not call more undefined than necessary.
C47: the flags as a source, the bounds of the array, and where the code is wrong.
-/

namespace Verif.Define

open Classical

theorem undef_source {I : Ins} (hw : I.op.ok) {part : Bool} {prior : Nat → Sh} {x : Src} {j : Nat}
    (hn : subregNonlow I.op = false) (hr : result I part prior [x] j = .undef) :
    ∃ b < x.size, flow I x.num x.size x.reg b j ∧ x.sh b = .undef := by
  rw [result_eq I hw] at hr
  by_cases u : ∃ y ∈ [x], ∃ b < y.size, flow I y.num y.size y.reg b j ∧ y.sh b = .undef
  · obtain ⟨y, hy, h⟩ := u
    rw [List.mem_singleton] at hy
    exact hy ▸ h
  · rw [if_neg u] at hr
    simp only [hn, Bool.false_eq_true, false_and, if_false, ite_self] at hr
    exact absurd hr (by simp)

/-- A bit of byte `b` that gets to byte `j`. -/
theorem bit_reaches (d : Dir) (n v b j : Nat) (hb : b < n) (hj : j < n)
    (hs : shiftTo d v b n j) :
    ∃ t, t / 8 = b ∧ ∃ i < 8,
      (shiftBy d (BitVec.twoPow (8 * n) t) v).getLsbD (8 * j + i) = true := by
  unfold shiftTo at hs
  simp only [] at hs
  generalize hm : min v (n * 8) = m at hs
  by_cases h0 : m = 0
  · rw [if_pos h0] at hs
    have hv : v = 0 := by omega
    refine ⟨8 * b, by omega, 0, by omega, ?_⟩
    subst hv
    cases d <;> simp [shiftBy, BitVec.getLsbD_twoPow, hs] <;> omega
  · rw [if_neg h0] at hs
    cases d with
    | left =>
      simp only [] at hs
      have hv : m = v := by omega
      by_cases h1 : j = b + m / 8
      · refine ⟨8 * b, by omega, v % 8, by omega, ?_⟩
        simp only [shiftBy, BitVec.getLsbD_shiftLeft, BitVec.getLsbD_twoPow]
        simp; omega
      · refine ⟨8 * b + 7, by omega, (v + 7) % 8, by omega, ?_⟩
        simp only [shiftBy, BitVec.getLsbD_shiftLeft, BitVec.getLsbD_twoPow]
        simp; omega
    | right =>
      simp only [] at hs
      have hv : m = v := by omega
      by_cases h1 : j + m / 8 = b
      · refine ⟨8 * b + 7, by omega, 7 - v % 8, by omega, ?_⟩
        simp only [shiftBy, BitVec.getLsbD_ushiftRight, BitVec.getLsbD_twoPow]
        simp; omega
      · refine ⟨8 * b, by omega, 8 - v % 8, by omega, ?_⟩
        simp only [shiftBy, BitVec.getLsbD_ushiftRight, BitVec.getLsbD_twoPow]
        simp; omega
    | arith =>
      simp only [] at hs
      by_cases ht : b = n - 1
      · rw [if_pos ht] at hs
        refine ⟨8 * n - 1, by omega, 7, by omega, ?_⟩
        simp only [shiftBy, BitVec.getLsbD_sshiftRight, BitVec.msb_eq_getLsbD_last,
          BitVec.getLsbD_twoPow]
        split <;> simp <;> omega
      · rw [if_neg ht] at hs
        have hv : m = v := by omega
        by_cases h1 : j + m / 8 = b
        · refine ⟨8 * b + 7, by omega, 7 - v % 8, by omega, ?_⟩
          have : v + (8 * j + (7 - v % 8)) < 8 * n := by omega
          simp only [shiftBy, BitVec.getLsbD_sshiftRight, BitVec.getLsbD_twoPow, this, if_true]
          simp; omega
        · refine ⟨8 * b, by omega, 8 - v % 8, by omega, ?_⟩
          have : v + (8 * j + (8 - v % 8)) < 8 * n := by omega
          simp only [shiftBy, BitVec.getLsbD_sshiftRight, BitVec.getLsbD_twoPow, this, if_true]
          simp; omega

theorem shiftBy_zero (d : Dir) (n v k : Nat) : (shiftBy d (0#n) v).getLsbD k = false := by
  cases d
  · simp [shiftBy]
  · simp [shiftBy]
  · simp [shiftBy]

/-- C46: no byte is called undefined without need.  If the new shadow of byte `j` is
undefined, there are two values that agree in all defined bytes of the operand and
whose shifts differ in byte `j`. -/
theorem C46_shift_precise (d : Dir) (n v : Nat) (dr fl r part : Bool) (o : Nat)
    (sh prior : Nat → Sh) (hv : gprCount n v = v) (j : Nat) (hj : j < n)
    (hr : result ⟨gprOp d, v, dr, fl⟩ part prior [⟨o, r, n, sh⟩] j = .undef) :
    ∃ x y : BitVec (8 * n), AgreeOn sh x y ∧
      byteOf (shiftBy d x (gprCount n v)) j ≠ byteOf (shiftBy d y (gprCount n v)) j := by
  obtain ⟨b, hb, hf, hs⟩ := undef_source (x := ⟨o, r, n, sh⟩) (by cases d <;> trivial)
    (by cases d <;> rfl) hr
  obtain ⟨t, ht, i, hi, hbit⟩ := bit_reaches d n v b j hb hj ((flow_gpr d v dr fl o n r b j).1 hf)
  rw [hv]
  refine ⟨BitVec.twoPow (8 * n) t, 0#(8 * n), ?_, ?_⟩
  · intro k hk
    rw [byteOf_eq_iff]
    intro q hq
    have : k ≠ b := by rintro rfl; exact hk hs
    have hne : t ≠ 8 * k + q := by omega
    simp [BitVec.getLsbD_twoPow, hne]
  · intro he
    have := (byteOf_eq_iff _ _ j).1 he i hi
    rw [hbit, shiftBy_zero] at this
    exact absurd this (by decide)

/-- C46, negative: sar eax, 4 with an undefined top byte.  Byte 2 is called defined, but
its upper half comes from the top byte. -/
theorem C46_sar : ∃ x y : BitVec 32,
    AgreeOn (fun b => if b = 3 then .undef else .defined) x y ∧
    result ⟨.sar, 4, true, true⟩ false (fun _ => .defined)
      [⟨1, true, 4, fun b => if b = 3 then .undef else .defined⟩] 2 = .defined ∧
    byteOf (shiftBy .arith x (gprCount 4 4)) 2 ≠ byteOf (shiftBy .arith y (gprCount 4 4)) 2 := by
  refine ⟨0x01000000#32, 0#32, ?_, by decide, by decide⟩
  intro j hj
  have hj3 : j ≠ 3 := by rintro rfl; simp at hj
  rw [byteOf_eq_iff]
  intro i hi
  by_cases h : 8 * j + i < 32
  · have : ∀ k < 32, k / 8 ≠ 3 → (0x01000000#32).getLsbD k = (0#32).getLsbD k := by decide
    exact this _ h (by omega)
  · rw [BitVec.getLsbD_of_ge _ _ (by omega), BitVec.getLsbD_of_ge _ _ (by omega)]

/-- C46, negative: shl eax, 32 leaves the register as it is, since the processor takes
the count modulo 32.  The code takes everything to be shifted out: a completely
undefined register becomes defined. -/
theorem C46_masked_count (x : BitVec 32) :
    shiftBy .left x (gprCount 4 32) = x ∧
    ∀ j < 4, result ⟨.shl, 32, true, true⟩ false (fun _ => .undef)
      [⟨1, true, 4, fun _ => .undef⟩] j = .defined := by
  refine ⟨?_, by decide⟩
  show x <<< 0 = x
  simp

/-- C46, negative: a shift by 0 leaves the flags as they are, but the shadow of the
flags is set to defined whatever it was. -/
theorem C46_zero_count (d : Dir) (n : Nat) (dr fl r part : Bool) (o : Nat) (sh : Nat → Sh) :
    (sources ⟨gprOp d, 0, dr, fl⟩ part [⟨o, r, n, sh⟩]).eflags ≠ .undef := by
  rw [Ne, shift_flags]
  rintro ⟨b, _, ⟨h, _⟩, _⟩
  simp at h

/-- C46, negative: rol eax, 8 with an undefined low byte.  The shadow stays in place:
byte 1, which gets the undefined byte, is called defined. -/
theorem C46_rotate : ∃ x y : BitVec 32,
    AgreeOn (fun b => if b = 0 then .undef else .defined) x y ∧
    result ⟨.rot, 8, true, true⟩ false (fun _ => .defined)
      [⟨1, true, 4, fun b => if b = 0 then .undef else .defined⟩] 1 = .defined ∧
    byteOf (x.rotateLeft 8) 1 ≠ byteOf (y.rotateLeft 8) 1 := by
  refine ⟨1#32, 0#32, ?_, by decide, by decide⟩
  intro j hj
  have hj3 : j ≠ 0 := by rintro rfl; simp at hj
  rw [byteOf_eq_iff]
  intro i hi
  by_cases h : 8 * j + i < 32
  · have : ∀ k < 32, k / 8 ≠ 0 → (1#32).getLsbD k = (0#32).getLsbD k := by decide
    exact this _ h (by omega)
  · rw [BitVec.getLsbD_of_ge _ _ (by omega), BitVec.getLsbD_of_ge _ _ (by omega)]

/-- C45, negative: shufpd with immediate 3 copies the high halves; with both of them
undefined the code calls the whole destination defined. -/
theorem C45_shufpd : (Move.shufpd 3).org 0 = .src 2 8 ∧ (Move.shufpd 3).org 8 = .src 0 8 ∧
    ∀ j < 16, result ⟨.shufpd, 3, true, false⟩ false (fun _ => .undef)
      [⟨0, true, 16, fun _ => .undef⟩, ⟨2, true, 16, fun _ => .undef⟩] j = .defined := by
  decide

/-- C45, negative: pshufd is not followed at all, all of the destination is called
defined. -/
theorem C45_pshufd (imm : Nat) (j : Nat) :
    want (.pshufd imm) (fun _ _ => .undef) (fun _ => .undef) j = .undef ∧
    result ⟨.bail, imm, true, false⟩ false (fun _ => .undef) [⟨0, true, 16, fun _ => .undef⟩] j
      = .defined := by
  refine ⟨by simp [want, Move.org, norm], ?_⟩
  rw [result_eq _ (by trivial)]
  simp [flow, subregNonlow]

/-- C45, negative: movhps from memory.  The operand has 8 bytes, so the shadow of the
loaded bytes goes to the low half, which the instruction does not write, and the
high half keeps its old shadow. -/
theorem C45_movhps_load : Move.toHigh.org 8 = .src 0 0 ∧ Move.toHigh.org 0 = .keep ∧
    (∀ j < 8, result ⟨.movhps, 0, true, false⟩ true (fun _ => .defined)
      [⟨0, false, 8, fun _ => .undef⟩] j = .undef) ∧
    (∀ j < 16, 8 ≤ j → result ⟨.movhps, 0, true, false⟩ true (fun _ => .defined)
      [⟨0, false, 8, fun _ => .undef⟩] j = .defined) := by
  decide

/-- C45, negative: movhlps when the operand is described with 8 bytes: the low half of
the source is taken for the high half. -/
theorem C45_movhlps : Move.fromHigh.org 0 = .src 0 8 ∧
    result ⟨.movlps, 0, true, false⟩ false (fun _ => .defined)
      [⟨0, true, 8, fun b => if b < 8 then .undef else .defined⟩] 0 = .undef := by
  decide

/-- C45, negative: insertps that zeroes element 0 of an undefined register.  The last
byte of the element keeps the old shadow, so a zero is called undefined. -/
theorem C45_insertps_zero : (Move.insertps 0x11 false).org 3 = .zero ∧
    result ⟨.insertps, 0x11, true, false⟩ true (fun _ => .undef)
      [⟨0, true, 16, fun _ => .defined⟩] 3 = .undef := by
  decide

/-- C45, negative: pextrb with immediate 16 reads byte 0, the code finds no byte. -/
theorem C45_pextr_mask : (Move.extract 1 16).org 0 = .src 0 0 ∧
    result ⟨.pextr 1, 16, true, false⟩ false (fun _ => .undef)
      [⟨0, true, 16, fun _ => .undef⟩] 0 = .defined := by
  decide

/-- C45, negative: xadd stores the sum of both operands in its destination, but the
shadow is that of one operand only. -/
theorem C45_xadd : ∃ x y s : BitVec 32,
    AgreeOn (fun _ => .undef) x y ∧
    result ⟨.xadd, 0, true, true⟩ false (fun _ => .defined)
      [⟨0, true, 4, fun _ => .undef⟩, ⟨1, true, 4, fun _ => .defined⟩] 0 = .defined ∧
    byteOf (x + s) 0 ≠ byteOf (y + s) 0 := by
  refine ⟨1#32, 0#32, 0#32, ?_, by decide, by decide⟩
  intro j hj
  simp at hj

/-- C47: by default every source byte counts for the flags: they are undefined exactly if
some byte of some operand is. -/
theorem C47_flags_default (v : Nat) (d part : Bool) (xs : List Src) :
    (sources ⟨.other, v, d, true⟩ part xs).eflags = .undef ↔
      ∃ x ∈ xs, ∃ b < x.size, x.sh b = .undef := by
  have hm : ∀ (x : Src) c b, (mapSrc ⟨.other, v, d, true⟩ x.num x.size x.reg c b (x.sh b)).eflags
      = .undef ↔ c.eflags = .undef ∨ x.sh b = .undef := by
    intro x c b
    show combine c.eflags (x.sh b) = .undef ↔ _
    unfold combine; split <;> simp_all
  have hi : ∀ c (x : Src), (integrate ⟨.other, v, d, true⟩ c x).eflags = .undef ↔
      c.eflags = .undef ∨ ∃ b < x.size, x.sh b = .undef := by
    intro c x
    unfold integrate
    rw [fold_flags _ (hm x)]
    simp
  have : ∀ c, (xs.foldl (integrate ⟨.other, v, d, true⟩) c).eflags = .undef ↔
      c.eflags = .undef ∨ ∃ x ∈ xs, ∃ b < x.size, x.sh b = .undef := by
    induction xs with
    | nil => intro c; simp
    | cons x xs ih => intro c; rw [List.foldl_cons, ih, hi]; simp [or_assoc]
  show Comb.eflags (xs.foldl _ _) = Sh.undef ↔ _
  rw [this]
  simp [init]

/-- C47: the flags as a source of an instruction with one destination.  The comment in
the code says that they reach all bytes; they do if all fields of the stored word
are undefined. -/
theorem C47_flags_source (c : Comb) (n j : Nat) (hj : j < n) (hn : n ≤ 4) :
    (integrateFlags c 0xff n).dst j = .undef := by
  have h := Step.foldl (f := fun c i => c.accum i (ofBits (dword2byte 0xff i))) (List.range n)
    (fun c i _ => Step.accum c i _) (c.accumFlags (ofBits (dword2byte 0xff 0)))
  have hu : ∀ i < 4, ofBits (dword2byte 0xff i) = .undef := by decide
  unfold integrateFlags
  rw [h.eq, if_pos ⟨j, List.mem_range.2 hj, rfl⟩,
    if_pos (Or.inr ⟨j, List.mem_range.2 hj, rfl, hu j (by omega)⟩)]

/-- C47, negative: the slow path stores the two bits of one value, and reading them back
marks byte 0 only.  After an undefined comparison, sbb eax, eax fills all four bytes
with the carry, and three of them are called defined. -/
theorem C47_flags_one_byte : (∀ cf : Bool, ∀ j < 4,
      byteOf (if cf then 0xffffffff#32 else 0#32) j = if cf then 0xff#8 else 0#8) ∧
    (integrateFlags (init ⟨.other, 0, true, true⟩ false) (storeFlags .undef) 4).dst 0 = .undef ∧
    ∀ j < 4, 0 < j →
      (integrateFlags (init ⟨.other, 0, true, true⟩ false) (storeFlags .undef) 4).dst j
        = .defined := by
  decide

/-- C48: the array of 32 values is never left by operands of at most 16 bytes, two
operands for the exchanges, as long as the immediate of pinsr names an element. -/
theorem C48_bounds_partial (I : Ins) (hw : I.op.ok) (part : Bool) (xs : List Src)
    (hs : ∀ x ∈ xs, x.size ≤ 16)
    (he : ∀ w, (I.op = .psrl w ∨ I.op = .psra w ∨ I.op = .psll w ∨ I.op = .punpckl w ∨
      I.op = .punpckh w) → w = 1 ∨ w = 2 ∨ w = 4 ∨ w = 8)
    (hp : ∀ w, I.op = .pinsr w → I.val * w + w ≤ 16) :
    (sources I part xs).oob = false := by
  rw [← Bool.not_eq_true, sources_oob I hw]
  rintro ⟨j, ⟨x, hx, b, hb, h⟩, hj⟩
  have h16 := hs x hx
  unfold arrayLen at hj
  obtain ⟨op, v, d, fl⟩ := I
  have hsh : ∀ dir b' n j', b' < n → shiftTo dir v b' n j' → j' < n := by
    intro dir b' n j' hb' hs'
    unfold shiftTo at hs'
    simp only [] at hs'
    generalize min v (n * 8) = m at hs'
    by_cases h0 : m = 0
    · rw [if_pos h0] at hs'; omega
    · rw [if_neg h0] at hs'
      cases dir
      · simp only [] at hs'; omega
      · simp only [] at hs'; omega
      · simp only [] at hs'
        by_cases h1 : b' = n - 1
        · rw [if_pos h1] at hs'; omega
        · rw [if_neg h1] at hs'; omega
  have hpk : ∀ dir w, (w = 1 ∨ w = 2 ∨ w = 4 ∨ w = 8) → b / w * w ≤ j →
      shiftTo dir v (b % w) w (j - b / w * w) → False := by
    intro dir w hw' h1 h2
    have := hsh dir _ w _ (Nat.mod_lt _ (by omega)) h2
    rcases hw' with rfl | rfl | rfl | rfl <;> omega
  cases op <;> simp only [flow, fill, Op.ok, or_false, false_or] at h hw
  case shl => have := hsh _ _ _ _ hb h; omega
  case shr => have := hsh _ _ _ _ hb h; omega
  case sar => have := hsh _ _ _ _ hb h; omega
  case rot => omega
  case other => omega
  case bail => omega
  case xchg =>
    rcases Nat.eq_zero_or_pos x.num with h0 | h0
    · rw [h0] at h; omega
    · rw [show 1 - x.num = 0 by omega] at h; omega
  case xadd =>
    rcases Nat.eq_zero_or_pos x.num with h0 | h0
    · rw [h0] at h; omega
    · rw [show 1 - x.num = 0 by omega] at h; omega
  case bswap => omega
  case punpckl w =>
    rcases Nat.eq_zero_or_pos x.num with h0 | h0
    · rw [h0] at h
      rcases he w (by simp) with rfl | rfl | rfl | rfl <;> omega
    · rw [show 1 - x.num = 0 by omega] at h
      rcases he w (by simp) with rfl | rfl | rfl | rfl <;> omega
  case punpckh w =>
    rcases Nat.eq_zero_or_pos x.num with h0 | h0
    · rw [h0] at h
      rcases he w (by simp) with rfl | rfl | rfl | rfl <;> omega
    · rw [show 1 - x.num = 0 by omega] at h
      rcases he w (by simp) with rfl | rfl | rfl | rfl <;> omega
  case shufps => split at h <;> omega
  case shufpd => split at h <;> omega
  case psrl w => exact hpk _ w (he w (by simp)) h.1 h.2
  case psra w => exact hpk _ w (he w (by simp)) h.1 h.2
  case psll w => exact hpk _ w (he w (by simp)) h.1 h.2
  case psrldq => omega
  case pslldq => omega
  case pextr w =>
    have := Nat.mod_le b w
    omega
  case pinsr w =>
    have h1 : v * w + w ≤ 16 := hp w rfl
    have h2 := Nat.mod_lt b hw
    omega
  case insertps => omega
  case movhps => split at h <;> (try split at h) <;> omega
  case movlps => split at h <;> omega

/-- C48, negative: pinsrb with immediate 32, a legal encoding for which the processor
uses the low four bits, writes past the end of the array. -/
theorem C48_overflow : (Move.insert 1 32).org 0 = .src 0 0 ∧
    (sources ⟨.pinsr 1, 32, true, false⟩ true [⟨0, true, 4, fun _ => .undef⟩]).oob = true := by
  decide

/-- The hypotheses of `C48_bounds_partial` are met by pinsrw with immediate 7. -/
example : (∀ w, Op.pinsr 2 = .pinsr w → 7 * w + w ≤ 16) ∧
    (sources ⟨.pinsr 2, 7, true, false⟩ true [⟨0, true, 4, fun _ => .undef⟩]).oob = false := by
  refine ⟨?_, by decide⟩
  intro w h
  cases h
  omega

end Verif.Define
