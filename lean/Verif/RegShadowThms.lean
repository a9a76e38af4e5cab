import Verif.RegShadow

/-!
# The shadow of the registers: theorems  (C67)
-/

namespace Verif.RegShadow

open Verif.Shadow (set2bits)

/-! ## What the registers of the machine are -/

/-- A register of the machine with bits of its own: a general purpose register at its full size,
an xmm register, the upper half of a ymm register, an MMX register. -/
inductive Phys where
  | gpr (n : Nat)
  | xmm (n : Nat)
  | ymmh (n : Nat)
  | mm (n : Nat)
deriving DecidableEq

/-- Its size in bytes. -/
def psize (x64 : Bool) : Phys → Nat
  | .gpr _ => if x64 then 8 else 4
  | .mm _ => 8
  | _ => 16

/-- Whether the machine has it. -/
def Exists (x64 : Bool) : Phys → Prop
  | .gpr n => n < if x64 then 16 else 8
  | .mm n => n < 8
  | .xmm n | .ymmh n => n < if x64 then 16 else 8

/-- Where a register that an instruction can name lies: the machine's register it is part of, the
first byte. -/
def part : Reg → Phys × Nat
  | .high8 n => (.gpr n, 1)
  | .low8 n | .r16 n | .r32 n | .r64 n => (.gpr n, 0)
  | .xmm n => (.xmm n, 0)
  | .ymm n => (.ymmh n, 0)
  | .mm n => (.mm n, 0)

/-- The two bits of byte `j` (of four) in a byte of shadow. -/
def fld (b : UInt8) (j : Nat) : Nat := b.toNat / 4 ^ j % 4

/-- Where the shadow of a machine register begins. -/
def base (x64 : Bool) : Phys → Loc
  | .gpr n => .tls (n * gsz x64)
  | .xmm n => .aux (4 * n)
  | .ymmh n => .aux (ymmhOff x64 + 4 * n)
  | .mm n => .aux (mmOff x64 + 2 * n)

/-- The two bits kept for byte `i` of a machine register: 0 = defined, 3 = undefined. -/
def bits (x64 : Bool) (f : File) (p : Phys) (i : Nat) : Nat :=
  fld (f.get ((base x64 p).plus (i / 4))) (i % 4)

/-- A register that an instruction can name. -/
def Named (x64 : Bool) : Reg → Prop
  | .high8 n => n < 4
  | .low8 n => n < if x64 then 16 else 4
  | .r64 n => x64 = true ∧ n < 16
  | r => Exists x64 (part r).1

instance (x64 : Bool) (p : Phys) : Decidable (Exists x64 p) := by
  cases p <;> exact inferInstanceAs (Decidable (_ < _))

/-! ## Lemmas -/

theorem fld_table (q : Nat) (hq : q < 4) : ∀ b : Fin 256, ∀ v j : Fin 4,
    fld (set2bits (UInt8.ofNat b.val).toUInt32 (UInt32.ofNat v.val)
      (UInt32.ofNat (2 * q))).toUInt8 j.val =
    if j.val = q then v.val else fld (UInt8.ofNat b.val) j.val := by
  match q, hq with
  | 0, _ => decide +kernel
  | 1, _ => decide +kernel
  | 2, _ => decide +kernel
  | 3, _ => decide +kernel

theorem fld_set (b : UInt8) (v q j : Nat) (hv : v < 4) (hq : q < 4) (hj : j < 4) :
    fld (set2bits b.toUInt32 (UInt32.ofNat v) (UInt32.ofNat (2 * q))).toUInt8 j =
    if j = q then v else fld b j := by
  have h := fld_table q hq ⟨b.toNat, b.toNat_lt⟩ ⟨v, hv⟩ ⟨j, hj⟩
  rwa [show UInt8.ofNat b.toNat = b from UInt8.ofNat_toNat] at h

theorem get_set (f : File) (a b : Loc) (v : UInt8) :
    (f.set a v).get b = if b = a then v else f.get b := by
  cases a <;> cases b <;> simp [File.set, File.get]

theorem plus_plus (a : Loc) (m n : Nat) : (a.plus m).plus n = a.plus (m + n) := by
  cases a <;> simp [Loc.plus, Nat.add_assoc]

theorem plus_zero (a : Loc) : a.plus 0 = a := by cases a <;> rfl

theorem regAddr_base (x64 : Bool) (r : Reg) : regAddr x64 r = base x64 (part r).1 := by
  cases r <;> rfl

/-- Slots of different registers, and different bytes of one slot, are apart. -/
theorem loc_inj (x64 : Bool) (p q : Phys) (i j : Nat) (hp : Exists x64 p) (hq : Exists x64 q)
    (hi : i < psize x64 p) (hj : j < psize x64 q) :
    (base x64 p).plus (i / 4) = (base x64 q).plus (j / 4) ↔ p = q ∧ i / 4 = j / 4 := by
  cases x64 <;> cases p <;> cases q <;>
    simp [Exists, psize, base, Loc.plus, gsz, ymmhOff, mmOff, numXmm] at * <;> omega

theorem loc_meta (x64 : Bool) (p : Phys) (i : Nat) (hp : Exists x64 p) (hi : i < psize x64 p)
    (k : Nat) (hk : eflagsOff x64 ≤ k) : (base x64 p).plus (i / 4) ≠ .tls k := by
  cases x64 <;> cases p <;>
    simp [Exists, psize, base, Loc.plus, gsz, eflagsOff, numGpr] at * <;> omega

theorem bits_set_same (x64 : Bool) (f : File) (p q : Phys) (i j : Nat) (v : UInt8)
    (hp : Exists x64 p) (hq : Exists x64 q) (hi : i < psize x64 p) (hj : j < psize x64 q) :
    bits x64 (f.set ((base x64 p).plus (i / 4)) v) q j =
      if q = p ∧ j / 4 = i / 4 then fld v (j % 4) else bits x64 f q j := by
  unfold bits
  rw [get_set]
  have h := loc_inj x64 q p j i hq hp hj hi
  by_cases hc : q = p ∧ j / 4 = i / 4
  · rw [if_pos (h.mpr hc), if_pos hc]
  · rw [if_neg (fun e => hc (h.mp e)), if_neg hc]

theorem bits_setByte (x64 : Bool) (f : File) (r : Reg) (i v : Nat) (hv : v < 4)
    (hp : Exists x64 (part r).1) (hi : i < psize x64 (part r).1) (q : Phys) (j : Nat)
    (hq : Exists x64 q) (hj : j < psize x64 q) :
    bits x64 (setByte x64 f r i v) q j =
      if q = (part r).1 ∧ j = i then v else bits x64 f q j := by
  unfold setByte
  simp only
  rw [regAddr_base, show i * 2 / 8 = i / 4 by omega, show i * 2 % 8 = 2 * (i % 4) by omega,
    bits_set_same x64 f _ q i j _ hp hq hi hj,
    fld_set _ v (i % 4) (j % 4) hv (by omega) (by omega)]
  by_cases hc : q = (part r).1 ∧ j / 4 = i / 4
  · rw [if_pos hc]
    obtain ⟨e, h4⟩ := hc
    by_cases hm : j % 4 = i % 4
    · rw [if_pos hm, if_pos ⟨e, by omega⟩]
    · rw [if_neg hm, if_neg (fun h => hm (by rw [h.2]))]
      unfold bits
      rw [e, h4]
  · rw [if_neg hc, if_neg (fun h => hc ⟨h.1, by rw [h.2]⟩)]

theorem setByte_tls (x64 : Bool) (f : File) (r : Reg) (i v : Nat)
    (hp : Exists x64 (part r).1) (hi : i < psize x64 (part r).1) (k : Nat)
    (hk : eflagsOff x64 ≤ k) : (setByte x64 f r i v).tls k = f.tls k := by
  have h := get_set f ((regAddr x64 r).plus (i * 2 / 8)) (.tls k)
    (set2bits (f.get ((regAddr x64 r).plus (i * 2 / 8))).toUInt32 (UInt32.ofNat v)
      (UInt32.ofNat (i * 2 % 8))).toUInt8
  rw [if_neg] at h
  · exact h
  · rw [regAddr_base, show i * 2 / 8 = i / 4 by omega]
    exact fun e => loc_meta x64 _ i hp hi k hk e.symm

/-- A run of writes of bytes. -/
theorem bits_run (x64 : Bool) (r : Reg) (s : Nat) (vals : Nat → Nat) (hv : ∀ i, vals i < 4)
    (hp : Exists x64 (part r).1) (q : Phys) (j : Nat) (hq : Exists x64 q)
    (hj : j < psize x64 q) : ∀ (n : Nat) (f : File), s + n ≤ psize x64 (part r).1 →
    bits x64 ((List.range n).foldl (fun f i => setByte x64 f r (i + s) (vals (i + s))) f) q j =
      if q = (part r).1 ∧ s ≤ j ∧ j < s + n then vals j else bits x64 f q j
  | 0, f, _ => by
    rw [if_neg (by omega)]; rfl
  | n + 1, f, h => by
    rw [List.range_succ, List.foldl_append, List.foldl_cons, List.foldl_nil,
      bits_setByte x64 _ r _ _ (hv _) hp (by omega) q j hq hj,
      bits_run x64 r s vals hv hp q j hq hj n f (by omega)]
    by_cases e : q = (part r).1
    · by_cases h1 : j = n + s
      · rw [if_pos ⟨e, h1⟩, if_pos ⟨e, by omega, by omega⟩, h1]
      · rw [if_neg (fun h => h1 h.2)]
        by_cases h2 : s ≤ j ∧ j < s + n
        · rw [if_pos ⟨e, h2⟩, if_pos ⟨e, by omega, by omega⟩]
        · rw [if_neg (fun h => h2 h.2), if_neg (by omega)]
    · rw [if_neg (fun h => e h.1), if_neg (fun h => e h.1), if_neg (fun h => e h.1)]

theorem run_tls (x64 : Bool) (r : Reg) (s : Nat) (vals : Nat → Nat)
    (hp : Exists x64 (part r).1) (k : Nat) (hk : eflagsOff x64 ≤ k) :
    ∀ (n : Nat) (f : File), s + n ≤ psize x64 (part r).1 →
    ((List.range n).foldl (fun f i => setByte x64 f r (i + s) (vals (i + s))) f).tls k = f.tls k
  | 0, _, _ => rfl
  | n + 1, f, h => by
    rw [List.range_succ, List.foldl_append, List.foldl_cons, List.foldl_nil,
      setByte_tls x64 _ r _ _ hp (by omega) k hk, run_tls x64 r s vals hp k hk n f (by omega)]

theorem fld_zero (j : Nat) : fld (UInt8.ofNat 0) j = 0 := by
  show (UInt8.ofNat 0).toNat / 4 ^ j % 4 = 0
  rw [show (UInt8.ofNat 0).toNat = 0 from rfl, Nat.zero_div]

theorem named_exists (x64 : Bool) (r : Reg) (h : Named x64 r) : Exists x64 (part r).1 := by
  cases x64 <;> cases r <;> simp [Named, Exists, part] at * <;> omega

theorem psize_gpr (x64 : Bool) (r : Reg) (h : isGpr r = true) :
    psize x64 (part r).1 = if x64 then 8 else 4 := by
  cases r <;> simp [isGpr, psize, part] at *

theorem bits_setDword (x64 : Bool) (f : File) (r : Reg) (hp : Exists x64 (part r).1) (q : Phys)
    (j : Nat) (hq : Exists x64 q) (hj : j < psize x64 q) :
    bits x64 (setDword x64 f r 0) q j =
      if q = (part r).1 ∧ j < 4 then 0 else bits x64 f q j := by
  unfold setDword
  rw [regAddr_base, ← plus_zero (base x64 (part r).1), show (0 : Nat) = 0 / 4 from rfl,
    bits_set_same x64 f _ q 0 j _ hp hq (by cases x64 <;> cases (part r).1 <;> simp [psize]) hj,
    fld_zero]
  by_cases hc : q = (part r).1 ∧ j < 4
  · rw [if_pos hc, if_pos ⟨hc.1, by omega⟩]
  · rw [if_neg hc, if_neg (fun h => hc ⟨h.1, by omega⟩)]

theorem bits_setHigh (x64 : Bool) (f : File) (r : Reg) (hp : Exists x64 (part r).1)
    (hs : 8 ≤ psize x64 (part r).1) (q : Phys) (j : Nat) (hq : Exists x64 q)
    (hj : j < psize x64 q) :
    bits x64 (setHighDword x64 f r 0) q j =
      if q = (part r).1 ∧ 4 ≤ j ∧ j < 8 then 0 else bits x64 f q j := by
  unfold setHighDword
  rw [regAddr_base, show (1 : Nat) = 4 / 4 from rfl,
    bits_set_same x64 f _ q 4 j _ hp hq (by omega) hj, fld_zero]
  by_cases hc : q = (part r).1 ∧ 4 ≤ j ∧ j < 8
  · rw [if_pos hc, if_pos ⟨hc.1, by omega⟩]
  · rw [if_neg hc, if_neg (fun h => hc ⟨h.1, by omega, by omega⟩)]

theorem setQword_eq (x64 : Bool) (f : File) (r : Reg) :
    setQword x64 f r 0 = setHighDword x64 (setDword x64 f r 0) r 0 := rfl

theorem bits_setPtrsz (x64 : Bool) (f : File) (r : Reg) (hg : isGpr r = true)
    (hp : Exists x64 (part r).1) (q : Phys) (j : Nat) (hq : Exists x64 q)
    (hj : j < psize x64 q) :
    bits x64 (setPtrsz x64 f r 0) q j = if q = (part r).1 then 0 else bits x64 f q j := by
  have hps := psize_gpr x64 r hg
  cases x64 with
  | false =>
    rw [setPtrsz, if_neg (by decide), bits_setDword false f r hp q j hq hj]
    by_cases e : q = (part r).1
    · rw [if_pos e, if_pos ⟨e, by rw [e, hps] at hj; simpa using hj⟩]
    · rw [if_neg e, if_neg (fun h => e h.1)]
  | true =>
    rw [setPtrsz, if_pos rfl, setQword_eq,
      bits_setHigh true _ r hp (by rw [hps]; decide) q j hq hj,
      bits_setDword true f r hp q j hq hj]
    by_cases e : q = (part r).1
    · have hj8 : j < 8 := by rw [e, hps] at hj; simpa using hj
      rw [if_pos e]
      by_cases h4 : j < 4
      · rw [if_neg (by omega), if_pos ⟨e, h4⟩]
      · rw [if_pos ⟨e, by omega, hj8⟩]
    · rw [if_neg e, if_neg (fun h => e h.1), if_neg (fun h => e h.1)]

theorem tls_set (x64 : Bool) (f : File) (p : Phys) (i : Nat) (v : UInt8) (hp : Exists x64 p)
    (hi : i < psize x64 p) (k : Nat) (hk : eflagsOff x64 ≤ k) :
    (f.set ((base x64 p).plus (i / 4)) v).tls k = f.tls k := by
  have h := get_set f ((base x64 p).plus (i / 4)) (.tls k) v
  rw [if_neg (fun e => loc_meta x64 p i hp hi k hk e.symm)] at h
  exact h

/-- A two-bit field of a number. -/
theorem field_split (lo hi k j : Nat) (hlo : lo < 4 ^ k) :
    (lo + 4 ^ k * hi) / 4 ^ j % 4 = if j < k then lo / 4 ^ j % 4 else hi / 4 ^ (j - k) % 4 := by
  split
  · rename_i h
    obtain ⟨d, rfl⟩ : ∃ d, k = j + (d + 1) := ⟨k - j - 1, by omega⟩
    rw [Nat.pow_add, Nat.mul_assoc, Nat.add_mul_div_left _ _ (Nat.pow_pos (by decide)),
      Nat.pow_succ, Nat.mul_comm (4 ^ d) 4, Nat.mul_assoc, Nat.add_mul_mod_self_left]
  · rename_i h
    obtain ⟨d, rfl⟩ : ∃ d, j = k + d := ⟨j - k, by omega⟩
    rw [Nat.pow_add, ← Nat.div_div_eq_div_mul, Nat.add_mul_div_left _ _ (Nat.pow_pos (by decide)),
      Nat.div_eq_of_lt hlo, Nat.zero_add, show k + d - k = d by omega]

theorem field_mod (x m j : Nat) :
    x % 4 ^ m / 4 ^ j % 4 = if j < m then x / 4 ^ j % 4 else 0 := by
  have h := field_split (x % 4 ^ m) (x / 4 ^ m) m j (Nat.mod_lt _ (Nat.pow_pos (by decide)))
  rw [Nat.mod_add_div] at h
  split
  · rename_i hj
    rw [if_pos hj] at h
    exact h.symm
  · rename_i hj
    rw [Nat.div_eq_of_lt (Nat.lt_of_lt_of_le (Nat.mod_lt _ (Nat.pow_pos (by decide)))
      (Nat.pow_le_pow_right (by decide) (by omega)))]

theorem field_zero (x : Nat) : x = 0 ↔ ∀ j, x / 4 ^ j % 4 = 0 := by
  constructor
  · rintro rfl j
    rw [Nat.zero_div]
  · induction x using Nat.strongRecOn with
    | _ x ih =>
      intro h
      by_cases h0 : x = 0
      · exact h0
      · have hz : x / 4 = 0 := by
          apply ih (x / 4) (by omega)
          intro j
          rw [Nat.div_div_eq_div_mul, Nat.mul_comm, ← Nat.pow_succ]
          exact h (j + 1)
        have := h 0
        rw [Nat.pow_zero, Nat.div_one] at this
        omega

theorem byte_field (b : UInt8) (j : Nat) : b.toNat / 4 ^ j % 4 = if j < 4 then fld b j else 0 := by
  have h := field_mod b.toNat 4 j
  rwa [Nat.mod_eq_of_lt (show b.toNat < 4 ^ 4 by have := b.toNat_lt; omega)] at h

theorem get16_field (f : File) (a : Loc) (j : Nat) :
    get16 f a / 4 ^ j % 4 = if j < 8 then fld (f.get (a.plus (j / 4))) (j % 4) else 0 := by
  rw [get16, show 256 = 4 ^ 4 from rfl, field_split _ _ 4 j (by
    have := (f.get a).toNat_lt; omega), byte_field, byte_field]
  split
  · rename_i h
    rw [if_pos (by omega), show j / 4 = 0 by omega, plus_zero, Nat.mod_eq_of_lt h]
  · rename_i h
    by_cases h8 : j < 8
    · rw [if_pos (by omega), if_pos h8, show j / 4 = 1 by omega, show j - 4 = j % 4 by omega]
    · rw [if_neg (by omega), if_neg h8]

theorem get16_lt (f : File) (a : Loc) : get16 f a < 65536 := by
  have h1 := (f.get a).toNat_lt
  have h2 := (f.get (a.plus 1)).toNat_lt
  unfold get16
  omega

theorem get32_field (f : File) (a : Loc) (j : Nat) :
    get32 f a / 4 ^ j % 4 = if j < 16 then fld (f.get (a.plus (j / 4))) (j % 4) else 0 := by
  rw [get32, show 65536 = 4 ^ 8 from rfl, field_split _ _ 8 j (get16_lt f a), get16_field,
    get16_field, plus_plus]
  split
  · rename_i h
    rw [if_pos (by omega)]
  · rename_i h
    by_cases h8 : j < 16
    · rw [if_pos (by omega), if_pos h8, show 2 + (j - 8) / 4 = j / 4 by omega,
        show (j - 8) % 4 = j % 4 by omega]
    · rw [if_neg (by omega), if_neg h8]

theorem and3 : ∀ b : Fin 256, (UInt8.ofNat b.val &&& 0x3).toNat = b.val % 4 ^ 1 := by
  decide +kernel

theorem andf : ∀ b : Fin 256, (UInt8.ofNat b.val &&& 0xf).toNat = b.val % 4 ^ 2 := by
  decide +kernel

theorem andc : ∀ b : Fin 256, ((UInt8.ofNat b.val &&& 0xc) >>> 2).toNat = b.val % 4 ^ 2 / 4 ^ 1 := by
  decide +kernel

theorem byteFin (b : UInt8) : ∃ k : Fin 256, UInt8.ofNat k.val = b ∧ k.val = b.toNat :=
  ⟨⟨b.toNat, b.toNat_lt⟩, UInt8.ofNat_toNat, rfl⟩

/-- The number that is read for a register, field by field. -/
theorem read_field (x64 : Bool) (f : File) (r : Reg) (hr : ∀ n, r ≠ .mm n ∧ r ≠ .ymm n) (j : Nat) :
    getReg x64 f r / 4 ^ j % 4 =
      if j < regSize r then bits x64 f (part r).1 ((part r).2 + j) else 0 := by
  unfold bits
  rw [← regAddr_base]
  cases r with
  | low8 n =>
    obtain ⟨k, e, e'⟩ := byteFin (f.get (regAddr x64 (.low8 n)))
    show ((f.get (regAddr x64 (.low8 n)) &&& 0x3).toNat) / 4 ^ j % 4 = if j < 1 then
      fld (f.get ((regAddr x64 (.low8 n)).plus ((0 + j) / 4))) ((0 + j) % 4) else 0
    rw [← e, and3, field_mod]
    split
    · rename_i h
      rw [show j = 0 by omega]
      show _ = fld (f.get ((regAddr x64 (.low8 n)).plus 0)) 0
      rw [plus_zero, e']; rfl
    · rfl
  | high8 n =>
    obtain ⟨k, e, e'⟩ := byteFin (f.get (regAddr x64 (.high8 n)))
    show (((f.get (regAddr x64 (.high8 n)) &&& 0xc) >>> 2).toNat) / 4 ^ j % 4 = if j < 1 then
      fld (f.get ((regAddr x64 (.high8 n)).plus ((1 + j) / 4))) ((1 + j) % 4) else 0
    rw [← e, andc, Nat.div_div_eq_div_mul, ← Nat.pow_add, field_mod]
    by_cases h : j < 1
    · rw [if_pos (by omega), if_pos h, show j = 0 by omega]
      show _ = fld (f.get ((regAddr x64 (.high8 n)).plus 0)) 1
      rw [plus_zero, e']; rfl
    · rw [if_neg (by omega), if_neg h]
  | r16 n =>
    obtain ⟨k, e, e'⟩ := byteFin (f.get (regAddr x64 (.r16 n)))
    show ((f.get (regAddr x64 (.r16 n)) &&& 0xf).toNat) / 4 ^ j % 4 = if j < 2 then
      fld (f.get ((regAddr x64 (.r16 n)).plus ((0 + j) / 4))) ((0 + j) % 4) else 0
    rw [← e, andf, field_mod]
    split
    · rename_i h
      rw [Nat.zero_add, show j / 4 = 0 by omega, plus_zero,
        Nat.mod_eq_of_lt (show j < 4 by omega), e']; rfl
    · rfl
  | r32 n =>
    show ((f.get (regAddr x64 (.r32 n))).toNat) / 4 ^ j % 4 = if j < 4 then
      fld (f.get ((regAddr x64 (.r32 n)).plus ((0 + j) / 4))) ((0 + j) % 4) else 0
    rw [byte_field]
    split
    · rename_i h
      rw [Nat.zero_add, show j / 4 = 0 by omega, plus_zero, Nat.mod_eq_of_lt (by omega)]
    · rfl
  | r64 n =>
    simp only [getReg, regSize, part, Nat.zero_add]
    rw [get16_field]
  | xmm n =>
    simp only [getReg, regSize, part, Nat.zero_add]
    rw [get32_field]
  | ymm n => exact absurd rfl (hr n).2
  | mm n => exact absurd rfl (hr n).1

theorem checked_field (x64 : Bool) (f : File) (r : Reg) (hr : ∀ n, r ≠ .mm n ∧ r ≠ .ymm n)
    (sz : Nat) (hs : sz ≤ regSize r) (j : Nat) :
    checkedShadow x64 f r sz / 4 ^ j % 4 =
      if j < sz then bits x64 f (part r).1 ((part r).2 + j) else 0 := by
  unfold checkedShadow
  split
  · rw [show 2 ^ (sz * 2) = 4 ^ sz by rw [Nat.mul_comm, Nat.pow_mul], field_mod]
    split
    · rw [read_field x64 f r hr, if_pos (by omega)]
    · rfl
  · rw [read_field x64 f r hr, show regSize r = sz by omega]

theorem fits (x64 : Bool) (r : Reg) (hn : Named x64 r) (hy : ∀ n, r ≠ .ymm n) :
    (part r).2 + regSize r ≤ psize x64 (part r).1 := by
  cases x64 <;> cases r <;> simp [Named, part, regSize, psize] at *

/-- What marking a register's bytes defined changes: the first bytes of the machine register. -/
theorem mark_bits (x64 : Bool) (f : File) (r : Reg) (sz : Nat) (hn : Named x64 r)
    (hs : sz ≤ psize x64 (part r).1) (q : Phys) (j : Nat) (hq : Exists x64 q)
    (hj : j < psize x64 q) :
    bits x64 (markDefined x64 f r sz) q j =
      if q = (part r).1 ∧ j < sz then 0 else bits x64 f q j := by
  have hp := named_exists x64 r hn
  unfold markDefined
  split
  · rename_i h
    rw [bits_setPtrsz x64 f r h.2 hp q j hq hj]
    by_cases e : q = (part r).1
    · rw [if_pos e, if_pos ⟨e, by rw [e, psize_gpr x64 r h.2] at hj; rw [h.1]; exact hj⟩]
    · rw [if_neg e, if_neg (fun h => e h.1)]
  · split
    · rename_i h
      rw [bits_setDword x64 f r hp q j hq hj, h.1]
    · have := bits_run x64 r 0 (fun _ => 0) (fun _ => by decide) hp q j hq hj sz f (by omega)
      simp only [Nat.add_zero, Nat.zero_le, true_and, Nat.zero_add] at this
      exact this

theorem mark_tls (x64 : Bool) (f : File) (r : Reg) (sz : Nat) (hn : Named x64 r)
    (hs : sz ≤ psize x64 (part r).1) (k : Nat) (hk : eflagsOff x64 ≤ k) :
    (markDefined x64 f r sz).tls k = f.tls k := by
  have hp := named_exists x64 r hn
  have h0 : 0 < psize x64 (part r).1 := by cases x64 <;> cases (part r).1 <;> simp [psize]
  have hd : ∀ f : File, (setDword x64 f r 0).tls k = f.tls k := by
    intro f
    have := tls_set x64 f (part r).1 0 (UInt8.ofNat 0) hp h0 k hk
    rw [Nat.zero_div, plus_zero] at this
    rw [setDword, regAddr_base]
    exact this
  unfold markDefined
  split
  · rename_i h
    unfold setPtrsz
    split
    · rename_i hx
      rw [setQword_eq, setHighDword, regAddr_base]
      have := tls_set x64 (setDword x64 f r 0) (part r).1 4 (UInt8.ofNat 0) hp (by
        rw [psize_gpr x64 r h.2, if_pos hx]; decide) k hk
      rw [this, hd]
    · exact hd f
  · split
    · exact hd f
    · have := run_tls x64 r 0 (fun _ => 0) hp k hk sz f (by omega)
      simpa using this

/-- The flags and the counter depend on the slots from `eflagsOff` on only. -/
theorem meta_eq (x64 : Bool) (f g : File) (h : ∀ k, eflagsOff x64 ≤ k → g.tls k = f.tls k) :
    getEflags x64 g = getEflags x64 f ∧ getInheap x64 g = getInheap x64 f := by
  constructor
  · unfold getEflags get16
    simp only [File.get, Loc.plus]
    rw [h _ (Nat.le_refl _), h _ (Nat.le_succ _)]
  · unfold getInheap
    rw [h _ (by simp [inheapOff])]

/-! ## The property -/

/-- `q` byte `j` is a byte of a register of the machine. -/
def IsByte (x64 : Bool) (q : Phys) (j : Nat) : Prop := Exists x64 q ∧ j < psize x64 q

/-- `g` has the same flags and heap counter as `f`. -/
def SameMeta (x64 : Bool) (f g : File) : Prop :=
  getEflags x64 g = getEflags x64 f ∧ getInheap x64 g = getInheap x64 f

/-- Byte `j` of machine register `q` is byte `i` (counted from its own first byte) of the register
that an instruction names. -/
def IsByteOf (r : Reg) (i : Nat) (q : Phys) (j : Nat) : Prop :=
  q = (part r).1 ∧ j = (part r).2 + i

/-- **C67** (reading; general purpose and xmm registers).  The value read for a register has, byte
by byte, the bits of the bytes that the instruction names, and nothing else; it is taken to be
defined exactly when all those bytes are. -/
theorem C67_read_partial (x64 : Bool) (f : File) (r : Reg) (hr : ∀ n, r ≠ .mm n ∧ r ≠ .ymm n) :
    (∀ j, getReg x64 f r / 4 ^ j % 4 =
      if j < regSize r then bits x64 f (part r).1 ((part r).2 + j) else 0) ∧
    (isDefined (getReg x64 f r) = true ↔
      ∀ i q j, i < regSize r → IsByteOf r i q j → bits x64 f q j = 0) := by
  refine ⟨read_field x64 f r hr, ?_⟩
  unfold isDefined
  rw [beq_iff_eq, field_zero]
  constructor
  · rintro h i q j hi ⟨rfl, rfl⟩
    have := h i
    rwa [read_field x64 f r hr, if_pos hi] at this
  · intro h j
    rw [read_field x64 f r hr]
    split
    · rename_i hj
      exact h j _ _ hj ⟨rfl, rfl⟩
    · rfl

/-- **C67** (writing).  Writing the shadow of a destination register gives every byte of the
operand its bit pair, with 64 bits also clears the upper half of a register that is written as a
32-bit one, and changes nothing else: no other register, not the flags, not the heap counter. -/
theorem C67_write (x64 : Bool) (f : File) (r : Reg) (hn : Named x64 r) (hy : ∀ n, r ≠ .ymm n)
    (sz : Nat) (h0 : 0 < sz) (hs : sz ≤ regSize r) (vals : Nat → Nat) (hv : ∀ i, vals i < 4) :
    (∀ q j, IsByte x64 q j →
      bits x64 (assign x64 f r sz vals) q j =
        if q = (part r).1 ∧ (part r).2 ≤ j ∧ j < (part r).2 + sz then vals (j - (part r).2)
        else if q = (part r).1 ∧ x64 = true ∧ sz = 4 ∧ isGpr r = true ∧ 4 ≤ j then 0
        else bits x64 f q j) ∧
    SameMeta x64 f (assign x64 f r sz vals) := by
  have hp := named_exists x64 r hn
  have hf := fits x64 r hn hy
  have ho : offsInDword r = (part r).2 := by cases r <;> rfl
  have h1 : (part r).2 = 0 ∨ sz = 1 := by
    cases r <;> simp [part, regSize] at * <;> omega
  constructor
  · rintro q j ⟨hq, hj⟩
    unfold assign
    simp only
    rw [bits_run x64 r 1 vals hv hp q j hq hj (sz - 1) _ (by omega),
      bits_setByte x64 _ r _ _ (hv 0) hp (by rw [ho]; omega) q j hq hj, ho]
    have hhi : bits x64 (if x64 = true ∧ sz = 4 ∧ isGpr r = true then setHighDword x64 f r 0
        else f) q j =
        if q = (part r).1 ∧ x64 = true ∧ sz = 4 ∧ isGpr r = true ∧ 4 ≤ j then 0
        else bits x64 f q j := by
      split
      · rename_i h
        have h8 : psize x64 (part r).1 = 8 := by rw [psize_gpr x64 r h.2.2, if_pos h.1]
        rw [bits_setHigh x64 f r hp (by omega) q j hq hj]
        by_cases e : q = (part r).1 ∧ 4 ≤ j
        · rw [if_pos ⟨e.1, e.2, by rw [e.1] at hj; omega⟩, if_pos ⟨e.1, h.1, h.2.1, h.2.2, e.2⟩]
        · rw [if_neg (fun h => e ⟨h.1, h.2.1⟩), if_neg (fun h => e ⟨h.1, h.2.2.2.2⟩)]
      · rename_i h
        rw [if_neg (fun g => h ⟨g.2.1, g.2.2.1, g.2.2.2.1⟩)]
    rw [hhi]
    by_cases e : q = (part r).1
    · by_cases hb : (part r).2 ≤ j ∧ j < (part r).2 + sz
      · rw [if_pos (show q = (part r).1 ∧ (part r).2 ≤ j ∧ j < (part r).2 + sz from ⟨e, hb⟩)]
        by_cases hz : j = (part r).2
        · by_cases hj1 : 1 ≤ j ∧ j < 1 + (sz - 1)
          · omega
          · rw [if_neg (fun h => hj1 h.2), if_pos ⟨e, hz⟩, hz, Nat.sub_self]
        · have : (part r).2 = 0 := by omega
          rw [if_pos ⟨e, by omega, by omega⟩, this, Nat.sub_zero]
      · rw [if_neg (show ¬(q = (part r).1 ∧ (part r).2 ≤ j ∧ j < (part r).2 + sz) from
            fun h => hb h.2), if_neg (by omega), if_neg (by omega)]
    · rw [if_neg (fun h => e h.1), if_neg (fun h => e h.1), if_neg (fun h => e h.1),
        if_neg (fun h => e h.1)]
  · apply meta_eq
    intro k hk
    unfold assign
    simp only
    rw [run_tls x64 r 1 vals hp k hk (sz - 1) _ (by omega),
      setByte_tls x64 _ r _ _ hp (by rw [ho]; omega) k hk]
    split
    · rename_i h
      rw [setHighDword, regAddr_base]
      exact tls_set x64 f (part r).1 4 (UInt8.ofNat 0) hp (by
        rw [psize_gpr x64 r h.2.2, if_pos h.1]; decide) k hk
    · rfl

/-- **C67** (checking; registers other than ah, ch, dh, bh and MMX registers).  The check of a
source register reports exactly when one of the bytes that the operand reads is not defined (and
no exception applies); after a report those bytes are defined, nothing else has changed, and the
same check does not report again. -/
theorem C67_check_partial (x64 : Bool) (f : File) (r : Reg) (hn : Named x64 r)
    (hr : ∀ n, r ≠ .mm n ∧ r ≠ .ymm n) (hh : ∀ n, r ≠ .high8 n) (sz : Nat)
    (hs : sz ≤ regSize r) :
    ((checkReg x64 f r sz none).1 = true ↔ ∃ i q j, i < sz ∧ IsByteOf r i q j ∧
      bits x64 f q j ≠ 0) ∧
    (∀ q j, IsByte x64 q j →
      ((∃ i, i < sz ∧ IsByteOf r i q j) → bits x64 (checkReg x64 f r sz none).2 q j = 0) ∧
      (¬(∃ i, i < sz ∧ IsByteOf r i q j) →
        bits x64 (checkReg x64 f r sz none).2 q j = bits x64 f q j)) ∧
    SameMeta x64 f (checkReg x64 f r sz none).2 ∧
    (∀ exc, (checkReg x64 (checkReg x64 f r sz none).2 r sz exc).1 = false) := by
  have hf := fits x64 r hn (fun n => (hr n).2)
  have hz : (part r).2 = 0 := by
    cases r with
    | high8 n => exact absurd rfl (hh n)
    | _ => rfl
  have hdef : ∀ f, isDefined (checkedShadow x64 f r sz) = true ↔
      ∀ i, i < sz → bits x64 f (part r).1 ((part r).2 + i) = 0 := by
    intro f
    unfold isDefined
    rw [beq_iff_eq, field_zero]
    constructor
    · intro h i hi
      have := h i
      rwa [checked_field x64 f r hr sz hs, if_pos hi] at this
    · intro h j
      rw [checked_field x64 f r hr sz hs]
      split
      · rename_i hj; exact h j hj
      · rfl
  have hb : ∀ q j, (∃ i, i < sz ∧ IsByteOf r i q j) ↔ q = (part r).1 ∧ j < sz := by
    intro q j
    constructor
    · rintro ⟨i, hi, e, e'⟩
      exact ⟨e, by omega⟩
    · rintro ⟨e, h⟩
      exact ⟨j, h, e, by omega⟩
  by_cases hd : isDefined (checkedShadow x64 f r sz) = true
  · have hall := (hdef f).mp hd
    have hc : ∀ exc, checkReg x64 f r sz exc = (false, f) := fun exc => by
      unfold checkReg; rw [if_pos hd]
    refine ⟨?_, ?_, ?_, ?_⟩
    · rw [hc]
      constructor
      · intro h; cases h
      · rintro ⟨i, q, j, hi, ⟨rfl, rfl⟩, hne⟩
        exact absurd (hall i hi) hne
    · intro q j hq
      rw [hc]
      refine ⟨?_, fun _ => rfl⟩
      rintro ⟨i, hi, rfl, rfl⟩
      exact hall i hi
    · rw [hc]; exact ⟨rfl, rfl⟩
    · intro exc
      rw [hc, hc]
  · have hc : checkReg x64 f r sz none = (true, markDefined x64 f r sz) := by
      rw [checkReg, if_neg hd]
    have hm : ∀ q j, IsByte x64 q j → bits x64 (markDefined x64 f r sz) q j =
        if q = (part r).1 ∧ j < sz then 0 else bits x64 f q j := fun q j h =>
      mark_bits x64 f r sz hn (by omega) q j h.1 h.2
    rw [hc]
    refine ⟨?_, ?_, meta_eq x64 f _ (fun k hk => mark_tls x64 f r sz hn (by omega) k hk), ?_⟩
    · constructor
      · intro _
        refine Classical.byContradiction fun hne => hd ((hdef f).mpr fun i hi => ?_)
        exact Classical.byContradiction fun h => hne ⟨i, _, _, hi, ⟨rfl, rfl⟩, h⟩
      · intro _; rfl
    · intro q j hq
      show ((_ → bits x64 (markDefined x64 f r sz) q j = 0) ∧
        (_ → bits x64 (markDefined x64 f r sz) q j = _))
      rw [hm q j hq]
      exact ⟨fun h => if_pos ((hb q j).mp h), fun h => if_neg (fun g => h ((hb q j).mpr g))⟩
    · intro exc
      have : isDefined (checkedShadow x64 (markDefined x64 f r sz) r sz) = true := by
        rw [hdef]
        intro i hi
        rw [hm _ _ ⟨named_exists x64 r hn, by omega⟩, if_pos ⟨rfl, by omega⟩]
      unfold checkReg; rw [if_pos this]

/-- **C67** (ah, ch, dh, bh; the code does not do what it says).  When a check of such a register
reports, the byte marked defined is the low byte of the register and not the one that was read:
an error in reading that low byte is now missed, and the next check of the high byte reports
again. -/
theorem C67_high_byte (x64 : Bool) (f : File) (n : Nat) (hn : n < 4)
    (hu : bits x64 f (.gpr n) 1 ≠ 0) :
    let c := checkReg x64 f (.high8 n) 1 none
    c.1 = true ∧ bits x64 c.2 (.gpr n) 0 = 0 ∧ bits x64 c.2 (.gpr n) 1 = bits x64 f (.gpr n) 1 ∧
    (checkReg x64 c.2 (.low8 n) 1 none).1 = false ∧
    (checkReg x64 c.2 (.high8 n) 1 none).1 = true := by
  have hnm : Named x64 (.high8 n) := hn
  have hex : Exists x64 (.gpr n) := named_exists x64 _ hnm
  have hsz : 4 ≤ psize x64 (.gpr n) := by cases x64 <;> simp [psize]
  have hrep : ∀ f : File, bits x64 f (.gpr n) 1 ≠ 0 →
      checkReg x64 f (.high8 n) 1 none = (true, markDefined x64 f (.high8 n) 1) := by
    intro f hu
    rw [checkReg, if_neg]
    intro h
    unfold isDefined at h
    rw [beq_iff_eq, field_zero] at h
    have := h 0
    rw [checked_field x64 f (.high8 n) (fun _ => ⟨by simp, by simp⟩) 1 (Nat.le_refl 1),
      if_pos (by decide)] at this
    exact hu this
  have hm := fun j hj => mark_bits x64 f (.high8 n) 1 hnm (by show 1 ≤ psize x64 (.gpr n); omega)
    (.gpr n) j hex hj
  have e0 := hm 0 (by omega)
  have e1 := hm 1 (by omega)
  rw [if_pos ⟨rfl, by decide⟩] at e0
  rw [if_neg (fun h => absurd h.2 (by decide))] at e1
  simp only [hrep f hu]
  refine ⟨trivial, e0, e1, ?_, ?_⟩
  · rw [checkReg, if_pos]
    unfold isDefined
    rw [beq_iff_eq, field_zero]
    intro j
    rw [checked_field x64 _ (.low8 n) (fun _ => ⟨by simp, by simp⟩) 1 (Nat.le_refl 1)]
    split
    · rename_i hj
      rw [show j = 0 by omega]
      exact e0
    · rfl
  · rw [hrep _ (by rw [e1]; exact hu)]

end Verif.RegShadow
