import Verif.Crc
import Mathlib.Algebra.Polynomial.Degree.Lemmas
import Mathlib.Algebra.CharP.Two
import Mathlib.Data.ZMod.Basic
import Mathlib.Tactic.Ring
import Mathlib.Algebra.Field.ZMod
import Mathlib.Tactic.LinearCombination
import Mathlib.Tactic.ComputeDegree

/-! # C39: CRC-32 -/
namespace Verif.Crc
open Polynomial

/-! ## Specification: polynomial division over GF(2) -/

/-- A bit as an element of GF(2). -/
def gf (b : Bool) : ZMod 2 := if b then 1 else 0

/-- The IEEE 802.3 / AUTODIN II generator polynomial. -/
noncomputable def gen : (ZMod 2)[X] :=
  X ^ 32 + X ^ 26 + X ^ 23 + X ^ 22 + X ^ 16 + X ^ 12 + X ^ 11 + X ^ 10 + X ^ 8 + X ^ 7 + X ^ 5 +
    X ^ 4 + X ^ 2 + X + 1

/-- A 32-bit register as a polynomial of degree below 32; the lowest bit is the coefficient of
`X ^ 31` ("reflected"). -/
noncomputable def regPoly (c : BitVec 32) : (ZMod 2)[X] :=
  ∑ i ∈ Finset.range 32, C (gf (c.getLsbD i)) * X ^ (31 - i)

/-- The bits of a message in transmission order: bytes in order, each lowest bit first. -/
def bits (m : List (BitVec 8)) : List Bool :=
  m.flatMap fun b => (List.range 8).map fun i => b.getLsbD i

/-- The message polynomial: the first bit is the highest coefficient. -/
noncomputable def msgPoly (bs : List Bool) : (ZMod 2)[X] :=
  bs.foldl (fun p b => X * p + C (gf b)) 0

/-! ## From the table to single bits -/

/-- The reflected generator without its `X ^ 32` term. -/
def K : BitVec 32 := 0xEDB88320

/-- Shift the register by one bit. -/
def S (c : BitVec 32) : BitVec 32 := (c >>> 1) ^^^ (if c.getLsbD 0 then K else 0)

/-- Feed one bit. -/
def feed (c : BitVec 32) (b : Bool) : BitVec 32 := S (c ^^^ (if b then 1 else 0))

theorem S_xor (x y : BitVec 32) : S (x ^^^ y) = S x ^^^ S y := by
  unfold S
  rw [BitVec.ushiftRight_xor_distrib, BitVec.getLsbD_xor]
  generalize x >>> 1 = p
  generalize y >>> 1 = q
  generalize K = k
  cases x.getLsbD 0 <;> cases y.getLsbD 0 <;> simp
  · ac_rfl
  · ac_rfl
  · rw [show p ^^^ k ^^^ (q ^^^ k) = p ^^^ q ^^^ (k ^^^ k) by ac_rfl]
    simp

/-- `n` shifts. -/
def Sn : Nat → BitVec 32 → BitVec 32
  | 0, c => c
  | n + 1, c => Sn n (S c)

theorem Sn_xor (n : Nat) : ∀ x y : BitVec 32, Sn n (x ^^^ y) = Sn n x ^^^ Sn n y := by
  induction n with
  | zero => intro x y; rfl
  | succ n ih => intro x y; simp only [Sn]; rw [S_xor, ih]

theorem Sn_shift (n : Nat) : ∀ x : BitVec 32, (∀ i, i < n → x.getLsbD i = false) →
    Sn n x = x >>> n := by
  induction n with
  | zero => intro x _; simp [Sn]
  | succ n ih =>
    intro x h
    have h0 := h 0 (by omega)
    simp only [Sn]
    have hS : S x = x >>> 1 := by unfold S; rw [h0]; simp
    rw [hS, ih, ← BitVec.shiftRight_add, Nat.add_comm]
    intro i hi
    rw [BitVec.getLsbD_ushiftRight]
    exact h _ (by omega)

/-- Feeding the low `n` bits of `e` one by one is `n` shifts of the sum. -/
theorem feed_bits (n : Nat) : ∀ c e : BitVec 32, (∀ i, n ≤ i → e.getLsbD i = false) →
    ((List.range n).map fun i => e.getLsbD i).foldl feed c = Sn n (c ^^^ e) := by
  induction n with
  | zero =>
    intro c e h
    have : e = 0 := by
      apply BitVec.eq_of_getLsbD_eq
      intro i _
      rw [h i (by omega)]; simp
    subst this
    simp [Sn]
  | succ n ih =>
    intro c e h
    rw [List.range_succ_eq_map, List.map_cons, List.map_map, List.foldl_cons]
    have hs : ((fun i => e.getLsbD i) ∘ Nat.succ) = fun i => (e >>> 1).getLsbD i := by
      funext i
      simp only [Function.comp, BitVec.getLsbD_ushiftRight]
      rw [Nat.add_comm]
    rw [hs, ih (feed c (e.getLsbD 0)) (e >>> 1) (by
      intro i hi
      rw [BitVec.getLsbD_ushiftRight]
      exact h _ (by omega))]
    simp only [Sn]
    congr 1
    unfold feed
    have he : e = (if e.getLsbD 0 then (1 : BitVec 32) else 0) ^^^ ((e >>> 1) <<< 1) := by
      apply BitVec.eq_of_getLsbD_eq
      intro i hi
      rw [BitVec.getLsbD_xor, BitVec.getLsbD_shiftLeft, BitVec.getLsbD_ushiftRight]
      cases i with
      | zero => cases h0 : e.getLsbD 0 <;> simp
      | succ i =>
        have : (if e.getLsbD 0 = true then (1 : BitVec 32) else 0).getLsbD (i + 1) = false := by
          split <;> simp
        rw [this]
        simp [hi, Nat.add_comm]
    have h2 : S ((e >>> 1) <<< 1) = e >>> 1 := by
      unfold S
      have : ((e >>> 1) <<< 1).getLsbD 0 = false := by simp
      rw [this]
      apply BitVec.eq_of_getLsbD_eq
      intro i hi
      simp only [Bool.false_eq_true, if_false, BitVec.getLsbD_xor, BitVec.getLsbD_ushiftRight,
        BitVec.getLsbD_shiftLeft]
      by_cases h31 : 1 + i < 32
      · simp [h31]
      · rw [BitVec.getLsbD_of_ge _ _ (show 32 ≤ 1 + i by omega)]
        simp [h31]
    conv => rhs; rw [he, ← BitVec.xor_assoc, S_xor, h2]

/-- The whole table. -/
theorem crctab_eq : crctab = (List.range 256).map fun k => Sn 8 (BitVec.ofNat 32 k) := by
  decide +kernel

theorem crctab_getD (k : Nat) (h : k < 256) : crctab.getD k 0 = Sn 8 (BitVec.ofNat 32 k) := by
  rw [crctab_eq, List.getD_eq_getElem?_getD, List.getElem?_map, List.getElem?_range h]
  rfl

/-- One table step is eight bit steps. -/
theorem crcByte_eq (c : BitVec 32) (b : BitVec 8) :
    crcByte c b = ((List.range 8).map fun i => b.getLsbD i).foldl feed c := by
  have e8 : ((List.range 8).map fun i => b.getLsbD i) =
      (List.range 8).map fun i => (b.setWidth 32).getLsbD i := by
    apply List.map_congr_left
    intro i hi
    have := List.mem_range.1 hi
    rw [BitVec.getLsbD_setWidth]
    simp [show i < 32 by omega]
  rw [e8, feed_bits 8 c _ (by intro i hi; rw [BitVec.getLsbD_setWidth]; simp [hi])]
  unfold crcByte
  have hm : (c ^^^ b.signExtend 32) &&& 0xFF = (c ^^^ b.setWidth 32) &&& 0xFF := by
    apply BitVec.eq_of_getLsbD_eq
    intro i hi
    have hff : (0xFF : BitVec 32).getLsbD i = decide (i < 8) := by
      have : ∀ i : Fin 32, (0xFF : BitVec 32).getLsbD i = decide (i.val < 8) := by decide
      exact this ⟨i, hi⟩
    simp only [BitVec.getLsbD_and, BitVec.getLsbD_xor, hff, BitVec.getLsbD_signExtend,
      BitVec.getLsbD_setWidth]
    by_cases h8 : i < 8 <;> simp [h8, hi]
  rw [hm]
  have he : ∀ i, 8 ≤ i → (b.setWidth 32).getLsbD i = false := by
    intro i hi; rw [BitVec.getLsbD_setWidth]; simp [hi]
  generalize b.setWidth 32 = e at *
  have hff : ∀ i, i < 32 → (0xFF : BitVec 32).getLsbD i = decide (i < 8) := by
    intro i hi
    have : ∀ i : Fin 32, (0xFF : BitVec 32).getLsbD i = decide (i.val < 8) := by decide
    exact this ⟨i, hi⟩
  have hlt : ((c ^^^ e) &&& 0xFF).toNat < 256 := by
    rw [BitVec.toNat_and]
    exact Nat.lt_of_le_of_lt Nat.and_le_right (by decide)
  rw [crctab_getD _ hlt, BitVec.ofNat_toNat, BitVec.setWidth_eq]
  have hsplit : c ^^^ e = ((c ^^^ e) &&& ~~~0xFF) ^^^ ((c ^^^ e) &&& 0xFF) := by
    apply BitVec.eq_of_getLsbD_eq
    intro i hi
    simp only [BitVec.getLsbD_xor, BitVec.getLsbD_and, BitVec.getLsbD_not, hff i hi, hi]
    cases c.getLsbD i <;> cases e.getLsbD i <;> by_cases h8 : i < 8 <;> simp [h8]
  have hhigh : Sn 8 ((c ^^^ e) &&& ~~~0xFF) = c >>> 8 := by
    rw [Sn_shift]
    · apply BitVec.eq_of_getLsbD_eq
      intro i hi
      simp only [BitVec.getLsbD_ushiftRight, BitVec.getLsbD_and, BitVec.getLsbD_xor,
        BitVec.getLsbD_not, he (8 + i) (by omega)]
      by_cases h : 8 + i < 32
      · rw [hff _ h]; simp [h]
      · rw [BitVec.getLsbD_of_ge _ _ (show 32 ≤ 8 + i by omega)]; simp
    · intro i hi
      simp only [BitVec.getLsbD_and, BitVec.getLsbD_not, hff i (by omega), hi]
      simp
  conv => rhs; rw [hsplit, Sn_xor, hhigh]

theorem crc32_bits (m : List (BitVec 8)) : crc32 m = (bits m).foldl feed 0xFFFFFFFF := by
  unfold crc32 bits
  generalize (0xFFFFFFFF : BitVec 32) = c
  induction m generalizing c with
  | nil => rfl
  | cons b m ih =>
    rw [List.foldl_cons, List.flatMap_cons, List.foldl_append, ih, crcByte_eq]

/-! ## From bits to polynomials -/

theorem two_eq : (2 : (ZMod 2)[X]) = 0 := CharTwo.two_eq_zero

theorem gf_xor (a b : Bool) : gf (a ^^ b) = gf a + gf b := by
  cases a <;> cases b <;> decide

theorem regPoly_xor (x y : BitVec 32) : regPoly (x ^^^ y) = regPoly x + regPoly y := by
  unfold regPoly
  rw [← Finset.sum_add_distrib]
  apply Finset.sum_congr rfl
  intro i _
  rw [BitVec.getLsbD_xor, gf_xor, C_add, add_mul]

theorem regPoly_shift (c : BitVec 32) :
    regPoly (c >>> 1) + C (gf (c.getLsbD 0)) * X ^ 32 = X * regPoly c := by
  unfold regPoly
  rw [Finset.sum_range_succ, Finset.sum_range_succ' (fun i => C (gf (c.getLsbD i)) * X ^ (31 - i)) 31,
    mul_add, Finset.mul_sum]
  have h31 : (c >>> 1).getLsbD 31 = false := by
    rw [BitVec.getLsbD_ushiftRight]; exact BitVec.getLsbD_of_ge _ _ (by omega)
  rw [h31]
  have h1 : ∀ i ∈ Finset.range 31, C (gf ((c >>> 1).getLsbD i)) * X ^ (31 - i) =
      X * (C (gf (c.getLsbD (i + 1))) * X ^ (31 - (i + 1))) := by
    intro i hi
    have := Finset.mem_range.1 hi
    rw [BitVec.getLsbD_ushiftRight, Nat.add_comm 1 i, show 31 - i = (31 - (i + 1)) + 1 by omega]
    ring
  rw [Finset.sum_congr rfl h1]
  simp only [gf, Bool.false_eq_true, if_false, C_0, zero_mul, add_zero, Nat.sub_zero]
  ring

theorem regPoly_K : regPoly K + X ^ 32 = gen := by
  unfold regPoly
  have : ∀ i ∈ Finset.range 32, C (gf (K.getLsbD i)) * X ^ (31 - i) =
      if i ∈ [5, 8, 9, 15, 19, 20, 21, 23, 24, 26, 27, 29, 30, 31] then (X : (ZMod 2)[X]) ^ (31 - i)
      else 0 := by
    intro i hi
    have hi := Finset.mem_range.1 hi
    have key : ∀ j : Fin 32, K.getLsbD j =
        decide (j.val ∈ [5, 8, 9, 15, 19, 20, 21, 23, 24, 26, 27, 29, 30, 31]) := by decide
    have := key ⟨i, hi⟩
    simp only at this
    rw [this]
    split
    · rename_i h; simp [gf, h]
    · rename_i h; simp [gf, h]
  rw [Finset.sum_congr rfl this]
  simp only [Finset.sum_range_succ, Finset.sum_range_zero]
  simp
  unfold gen
  ring

theorem regPoly_one (b : Bool) : regPoly (if b then 1 else 0) = C (gf b) * X ^ 31 := by
  unfold regPoly
  rw [Finset.sum_range_succ']
  rw [Finset.sum_eq_zero]
  · cases b <;> simp [gf]
  · intro i _
    cases b <;> simp [gf]

theorem regPoly_feed (c : BitVec 32) (b : Bool) :
    ∃ q, regPoly (feed c b) = X * regPoly c + C (gf b) * X ^ 32 + q * gen := by
  unfold feed S
  generalize hx : c ^^^ (if b then 1 else 0) = x
  have h1 := regPoly_shift x
  have h2 : regPoly x = regPoly c + C (gf b) * X ^ 31 := by
    rw [← hx, regPoly_xor, regPoly_one]
  rw [regPoly_xor]
  have h3 : regPoly (if x.getLsbD 0 = true then K else 0) =
      C (gf (x.getLsbD 0)) * (gen - X ^ 32) := by
    rw [← regPoly_K]
    cases x.getLsbD 0
    · simp [gf, regPoly]
    · simp [gf]
  refine ⟨C (gf (x.getLsbD 0)), ?_⟩
  rw [h3]
  have two := two_eq
  linear_combination h1 + X * h2 - C (gf (x.getLsbD 0)) * X ^ 32 * two

/-- C39: the table-driven checksum is the remainder of polynomial division: it is congruent, modulo
the generator, to the message shifted by 32 plus the initial register shifted past the message, and
its degree is below 32. -/
theorem C39_crc32 (m : List (BitVec 8)) :
    gen ∣ (X ^ 32 * msgPoly (bits m) + X ^ (bits m).length * regPoly 0xFFFFFFFF) -
      regPoly (crc32 m) ∧ (regPoly (crc32 m)).degree < 32 := by
  constructor
  · rw [crc32_bits]
    generalize (0xFFFFFFFF : BitVec 32) = c
    suffices ∀ (bs : List Bool) (c : BitVec 32) (p : (ZMod 2)[X]), gen ∣
        (X ^ 32 * bs.foldl (fun p b => X * p + C (gf b)) p +
          X ^ bs.length * (regPoly c - X ^ 32 * p)) - regPoly (bs.foldl feed c) by
      have := this (bits m) c 0
      simpa [msgPoly] using this
    intro bs
    induction bs with
    | nil => intro c p; simp
    | cons b bs ih =>
      intro c p
      obtain ⟨q, hq⟩ := regPoly_feed c b
      obtain ⟨r, hr⟩ := ih (feed c b) (X * p + C (gf b))
      refine ⟨r - X ^ bs.length * q, ?_⟩
      simp only [List.foldl_cons, List.length_cons]
      rw [hq] at hr
      linear_combination hr
  · generalize crc32 m = c
    unfold regPoly
    refine lt_of_le_of_lt (degree_sum_le _ _) ?_
    rw [Finset.sup_lt_iff (by exact WithBot.bot_lt_coe 32)]
    intro i hi
    refine lt_of_le_of_lt (degree_C_mul_X_pow_le _ _) ?_
    have : 31 - i < 32 := by omega
    exact_mod_cast this

/-- The remainder is unique: a register congruent to the message is the checksum. -/
theorem C39_unique (m : List (BitVec 8)) (c : BitVec 32)
    (h : gen ∣ (X ^ 32 * msgPoly (bits m) + X ^ (bits m).length * regPoly 0xFFFFFFFF) - regPoly c) :
    c = crc32 m := by
  have hdeg : ∀ c, (regPoly c).degree < 32 := by
    intro c
    unfold regPoly
    refine lt_of_le_of_lt (degree_sum_le _ _) ?_
    rw [Finset.sup_lt_iff (by exact WithBot.bot_lt_coe 32)]
    intro i hi
    refine lt_of_le_of_lt (degree_C_mul_X_pow_le _ _) ?_
    have : 31 - i < 32 := by omega
    exact_mod_cast this
  have hgd : gen.degree = 32 := by
    unfold gen
    compute_degree!
  have hz : regPoly (crc32 m) - regPoly c = 0 := by
    by_contra hne
    have hd : gen ∣ regPoly (crc32 m) - regPoly c := by
      have := dvd_sub h (C39_crc32 m).1
      have e : X ^ 32 * msgPoly (bits m) + X ^ (bits m).length * regPoly 0xFFFFFFFF - regPoly c -
        (X ^ 32 * msgPoly (bits m) + X ^ (bits m).length * regPoly 0xFFFFFFFF - regPoly (crc32 m)) =
        regPoly (crc32 m) - regPoly c := by ring
      rwa [e] at this
    have := degree_le_of_dvd hd hne
    rw [hgd] at this
    exact absurd (lt_of_le_of_lt this (lt_of_le_of_lt (degree_sub_le _ _)
      (max_lt (hdeg _) (hdeg _)))) (lt_irrefl _)
  have hp : regPoly (crc32 m ^^^ c) = 0 := by
    rw [regPoly_xor, ← sub_eq_zero.1 hz]
    linear_combination regPoly (crc32 m) * two_eq
  have hx : crc32 m ^^^ c = 0 := by
    generalize crc32 m ^^^ c = x at hp
    apply BitVec.eq_of_getLsbD_eq
    intro i hi
    have hc := congrArg (fun p => p.coeff (31 - i)) hp
    unfold regPoly at hc
    simp only [finsetSum_coeff, coeff_C_mul, coeff_X_pow, coeff_zero] at hc
    rw [Finset.sum_eq_single i] at hc
    · cases hb : x.getLsbD i
      · simp
      · rw [hb] at hc; simp [gf] at hc
    · intro j hj hne
      have := Finset.mem_range.1 hj
      rw [if_neg (by omega), mul_zero]
    · intro h; exact absurd (Finset.mem_range.2 hi) h
  have := congrArg (· ^^^ c) hx
  simpa [BitVec.xor_assoc] using this.symm

theorem halfLoop_fst (len : Nat) (bs : List (BitVec 8)) : ∀ i c h,
    (halfLoop len bs i c h).1 = bs.foldl crcByte c := by
  induction bs with
  | nil => intro i c h; rfl
  | cons b bs ih => intro i c h; rw [halfLoop, ih]; rfl

theorem halfLoop_snd (len : Nat) (bs : List (BitVec 8)) : ∀ i c h,
    (halfLoop len bs i c h).2 = if i ≤ len / 2 ∧ len / 2 < i + bs.length then
      some ((bs.take (len / 2 + 1 - i)).foldl crcByte c) else h := by
  induction bs with
  | nil => intro i c h; rw [halfLoop, if_neg (by simp)]
  | cons b bs ih =>
    intro i c h
    simp only [halfLoop, ih, List.length_cons]
    by_cases he : i = len / 2
    · rw [if_neg (by omega), if_pos he, if_pos (by omega), ← he,
        show i + 1 - i = 1 by omega]
      simp
    · rw [if_neg he]
      by_cases hc : i + 1 ≤ len / 2 ∧ len / 2 < i + 1 + bs.length
      · rw [if_pos hc, if_pos (by omega), show len / 2 + 1 - i = (len / 2 + 1 - (i + 1)) + 1 by omega]
        rfl
      · rw [if_neg hc, if_neg (by omega)]

/-- C39: what the pair really is: the whole checksum, and the checksum of the first
`len / 2 + 1` bytes.  Full statement (common/crypto.c:439-441): the second is the checksum of the
first `len / 2` bytes; false by `C39_half_prefix_off_by_one` and `C39_half_unset`. -/
theorem C39_whole_and_half_partial (buf : List (BitVec 8)) :
    (wholeAndHalf buf).1 = crc32 buf ∧
    (buf ≠ [] → (wholeAndHalf buf).2 = some (crc32 (buf.take (buf.length / 2 + 1)))) := by
  refine ⟨halfLoop_fst _ _ _ _ _, fun h => ?_⟩
  have : 0 < buf.length := List.length_pos_of_ne_nil h
  unfold wholeAndHalf
  rw [halfLoop_snd, if_pos (by omega)]
  rfl

/-- The second value is not the checksum of the documented prefix. -/
theorem C39_half_prefix_off_by_one :
    (wholeAndHalf [0x61, 0x62]).2 ≠ some (crc32 ([0x61, 0x62].take 1)) := by decide +kernel

/-- For an empty buffer the second value is never written. -/
theorem C39_half_unset : (wholeAndHalf []).2 = none := rfl

/-- The standard check value: complementing the result for "123456789" gives 0xCBF43926. -/
example : ~~~(crc32 [0x31, 0x32, 0x33, 0x34, 0x35, 0x36, 0x37, 0x38, 0x39]) = 0xCBF43926 := by
  decide +kernel

end Verif.Crc
