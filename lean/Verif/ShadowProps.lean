import Verif.Shadow
import Verif.UmbraRangeProps

/-!
# Byte-granular shadow state (C08–C11)

Specification: `st s a` is the state of application byte `a`, the `a % 4`-th base-4 digit of the
shadow byte of its dword.
-/
namespace Verif.Shadow

open Verif.Umbra

/-- State of application byte `a` (spec). -/
def st (s : St) (a : Nat) : Nat := (view dm s (a / 4)).toNat / 4 ^ (a % 4) % 4

theorem dm_valid : dm.Valid := ⟨by decide, by decide, by decide, by decide, by decide⟩

theorem dmB : dm.B = 262144 := rfl

/-! ## Bits -/

theorem fld_eq (x r : Nat) :
    x / 4 ^ r % 4 = (x.testBit (2 * r)).toNat + 2 * (x.testBit (2 * r + 1)).toNat := by
  have h4 : (4 : Nat) ^ r = 2 ^ (2 * r) := by rw [Nat.pow_mul]
  rw [h4, Nat.testBit_eq_decide_div_mod_eq, Nat.testBit_eq_decide_div_mod_eq, Nat.pow_succ,
    ← Nat.div_div_eq_div_mul]
  generalize x / 2 ^ (2 * r) = y
  by_cases h1 : y % 2 = 1 <;> by_cases h2 : y / 2 % 2 = 1 <;> simp [h1, h2] <;> omega

theorem fld_ext {x y r q : Nat} (h0 : x.testBit (2 * r) = y.testBit (2 * q))
    (h1 : x.testBit (2 * r + 1) = y.testBit (2 * q + 1)) : x / 4 ^ r % 4 = y / 4 ^ q % 4 := by
  rw [fld_eq, fld_eq, h0, h1]

theorem word_bit (b0 b1 b2 b3 : UInt8) (n : Nat) :
    (b0.toUInt32 ||| (b1.toUInt32 <<< 8) ||| (b2.toUInt32 <<< 16) |||
        (b3.toUInt32 <<< 24)).toBitVec.getLsbD n
      = if n < 8 then b0.toBitVec.getLsbD n
        else if n < 16 then b1.toBitVec.getLsbD (n - 8)
        else if n < 24 then b2.toBitVec.getLsbD (n - 16)
        else b3.toBitVec.getLsbD (n - 24) := by
  have z : ∀ (b : UInt8) (m : Nat), 8 ≤ m → b.toBitVec.getLsbD m = false :=
    fun b m h => BitVec.getLsbD_of_ge _ _ h
  simp [BitVec.getLsbD_setWidth]
  by_cases h8 : n < 8
  · simp [h8, show n < 16 by omega, show n < 24 by omega, show n < 32 by omega]
  · by_cases h16 : n < 16
    · simp [h8, h16, show n < 24 by omega, show n < 32 by omega, show n - 8 < 32 by omega,
        z b0 n (by omega)]
    · by_cases h24 : n < 24
      · simp [h8, h16, h24, show n < 32 by omega, show n - 8 < 32 by omega,
          show n - 16 < 32 by omega, z b0 n (by omega), z b1 (n - 8) (by omega)]
      · by_cases h32 : n < 32
        · simp [h8, h16, h24, h32, show n - 8 < 32 by omega, show n - 24 < 32 by omega,
            show n - 16 < 32 by omega, z b0 n (by omega), z b1 (n - 8) (by omega),
            z b2 (n - 16) (by omega)]
        · simp [h8, h16, h24, h32, z b3 (n - 24) (by omega)]

theorem const_bits : ∀ i < 32, (4294967292#32).getLsbD i = decide (2 ≤ i) ∧
    (4294967295#32).getLsbD i = true := by decide

theorem set2bits_bit (w v : UInt32) (q n : Nat) (hq : q < 16) (hv : v.toNat < 4) :
    (set2bits w v (UInt32.ofNat (q * 2))).toBitVec.getLsbD n =
      if n = 2 * q then v.toBitVec.getLsbD 0
      else if n = 2 * q + 1 then v.toBitVec.getLsbD 1
      else w.toBitVec.getLsbD n := by
  have hv2 : ∀ i, 2 ≤ i → v.toBitVec.getLsbD i = false := by
    intro i hi
    show v.toNat.testBit i = false
    refine Nat.testBit_lt_two_pow (Nat.lt_of_lt_of_le hv ?_)
    exact Nat.pow_le_pow_right (n := 2) (by omega) hi
  have hm : q * 2 % 32 = q * 2 := Nat.mod_eq_of_lt (by omega)
  by_cases h32 : n < 32
  · by_cases hlt : n < q * 2
    · simp [set2bits, hm, h32, hlt, show n ≠ 2 * q by omega, show n ≠ 2 * q + 1 by omega]
    · have hc := const_bits (n - q * 2) (by omega)
      simp only [set2bits, UInt32.toBitVec_or, UInt32.toBitVec_and, UInt32.toBitVec_shiftLeft,
        UInt32.toBitVec_not]
      by_cases e0 : n = 2 * q
      · subst e0
        simp [hm, show ¬ 2 * q < q * 2 by omega, show 2 * q - q * 2 = 0 by omega, h32]
      · by_cases e1 : n = 2 * q + 1
        · subst e1
          simp [hm, h32, show ¬ 2 * q + 1 < q * 2 by omega, show 2 * q + 1 - q * 2 = 1 by omega]
        · have hd : 2 ≤ n - q * 2 := by omega
          simp [hm, h32, hlt, hc.1, hc.2, e0, e1, hd, hv2 _ hd, -BitVec.getLsbD_eq_getElem]
  · have hw : w.toBitVec.getLsbD n = false := BitVec.getLsbD_of_ge _ _ (by omega)
    simp [set2bits, h32, hw, show n ≠ 2 * q by omega, show n ≠ 2 * q + 1 by omega]

/-- Bit `n` of byte `t % 4` of the word is bit `8*(t%4)+n` of the word. -/
theorem getw (mem : Nat → UInt8) (k w j n : Nat) (hj : j < 4) (hn : n < 8) :
    (word mem k w).toNat.testBit (8 * j + n) =
      (mem (scale dm (k * dm.B) + 4 * w + j)).toNat.testBit n := by
  show (word mem k w).toBitVec.getLsbD (8 * j + n) = _
  unfold word
  rw [word_bit]
  have : j = 0 ∨ j = 1 ∨ j = 2 ∨ j = 3 := by omega
  rcases this with rfl | rfl | rfl | rfl
  · rw [if_pos (by omega), show 8 * 0 + n = n by omega]; rfl
  · rw [if_neg (by omega), if_pos (by omega), show 8 * 1 + n - 8 = n by omega]; rfl
  · rw [if_neg (by omega), if_neg (by omega), if_pos (by omega),
      show 8 * 2 + n - 16 = n by omega]; rfl
  · rw [if_neg (by omega), if_neg (by omega), if_neg (by omega),
      show 8 * 3 + n - 24 = n by omega]; rfl

theorem putw (mem : Nat → UInt8) (k w j n : Nat) (v : UInt32) (hj : j < 4) (hn : n < 8) :
    (putWord mem k w v (scale dm (k * dm.B) + 4 * w + j)).toNat.testBit n =
      v.toNat.testBit (8 * j + n) := by
  unfold putWord
  have : j = 0 ∨ j = 1 ∨ j = 2 ∨ j = 3 := by omega
  have e : ∀ x : Nat, (x % 256).testBit n = x.testBit n := by
    intro x
    rw [show 256 = 2 ^ 8 by rfl, Nat.testBit_mod_two_pow]
    simp [hn]
  rcases this with rfl | rfl | rfl | rfl <;> simp [e, Nat.testBit_shiftRight]

theorem putw_other (mem : Nat → UInt8) (k w t : Nat) (v : UInt32)
    (h : t < scale dm (k * dm.B) + 4 * w ∨ scale dm (k * dm.B) + 4 * w + 4 ≤ t) :
    putWord mem k w v t = mem t := by
  unfold putWord
  rw [if_neg (by omega), if_neg (by omega), if_neg (by omega), if_neg (by omega)]

theorem get2_toNat (w : UInt32) (i : Nat) : (get2 w i).toNat = w.toNat / 4 ^ (i % 16) % 4 := by
  have h4 : (4 : Nat) ^ (i % 16) = 2 ^ (2 * (i % 16)) := by rw [Nat.pow_mul]
  unfold get2 bmShift
  rw [UInt32.toNat_and, UInt32.toNat_shiftRight, h4, Nat.mul_comm]
  have : (UInt32.ofNat (2 * (i % 16))).toNat % 32 = 2 * (i % 16) := by
    rw [UInt32.toNat_ofNat']; omega
  rw [this, Nat.shiftRight_eq_div_pow]
  exact Nat.and_two_pow_sub_one_eq_mod _ 2

/-! ## Reading and writing one byte -/

/-- The info describes the present state of its block. -/
def InfoOk (s : St) (info : Info) : Prop := ∀ k al, info = some (k, al) → al = s.ex k

theorem fetch_ok {s : St} {info : Info} (h : InfoOk s info) (a : Nat) :
    fetch s info a = (a / dm.B, s.ex (a / dm.B)) := by
  unfold fetch
  split
  · rename_i k al
    have := h k al rfl
    split
    · rename_i hr
      have hk : a / dm.B = k := by
        rw [dmB] at hr ⊢; omega
      rw [hk, this]
    · rfl
  · rfl

theorem idx_facts (a : Nat) : scale dm (a / dm.B * dm.B) + 4 * ((a - a / dm.B * dm.B) / 16) +
    ((a - a / dm.B * dm.B) % 16) / 4 = a / 4 ∧
    (a - a / dm.B * dm.B) % 16 = 4 * (((a - a / dm.B * dm.B) % 16) / 4) + a % 4 := by
  have h1 : dm.B = 262144 := rfl
  have h2 : scale dm (a / dm.B * dm.B) = a / dm.B * 262144 * 1 / 4 := rfl
  rw [h2, h1]
  constructor <;> omega

theorem view_blk (s : St) (a : Nat) :
    view dm s (a / 4) = if s.ex (a / dm.B) then s.mem (a / 4) else 0x55 := by
  have h : a / 4 / (dm.B * dm.m / dm.g) = a / dm.B := by
    show a / 4 / 65536 = a / 262144
    omega
  unfold view
  rw [h]; rfl

theorem getByte_ok {s : St} {info : Info} (h : InfoOk s info) (a : Nat) :
    (getByte s info a).2.toNat = st s a ∧
      (getByte s info a).1 = some (a / dm.B, s.ex (a / dm.B)) := by
  unfold getByte
  rw [fetch_ok h]
  dsimp only
  refine ⟨?_, rfl⟩
  unfold st
  rw [view_blk]
  by_cases he : s.ex (a / dm.B) = true
  · rw [if_pos he, if_pos he, get2_toNat]
    obtain ⟨h1, h2⟩ := idx_facts a
    rw [h2]
    rw [← h1]
    have hj : ((a - a / dm.B * dm.B) % 16) / 4 < 4 := by omega
    refine fld_ext ?_ ?_
    · rw [show 2 * (4 * ((a - a / dm.B * dm.B) % 16 / 4) + a % 4) =
        8 * ((a - a / dm.B * dm.B) % 16 / 4) + 2 * (a % 4) by omega, getw _ _ _ _ _ hj (by omega)]
    · rw [show 2 * (4 * ((a - a / dm.B * dm.B) % 16 / 4) + a % 4) + 1 =
        8 * ((a - a / dm.B * dm.B) % 16 / 4) + (2 * (a % 4) + 1) by omega,
        getw _ _ _ _ _ hj (by omega)]
  · rw [if_neg he, if_neg he]
    have : a % 4 = 0 ∨ a % 4 = 1 ∨ a % 4 = 2 ∨ a % 4 = 3 := by omega
    rcases this with h | h | h | h <;> rw [h] <;> rfl

theorem st_lt (s : St) (a : Nat) : st s a < 4 := Nat.mod_lt _ (by omega)

/-- The word store seen through `st`. -/
theorem st_putWord {s : St} {a : Nat} {v : UInt32} (hv : v.toNat < 4)
    (he : s.ex (a / dm.B) = true) (x : Nat) :
    st (St.mk s.ex (putWord s.mem (a / dm.B) ((a - a / dm.B * dm.B) / 16)
          (set2bits (word s.mem (a / dm.B) ((a - a / dm.B * dm.B) / 16)) v
            (bmShift (a - a / dm.B * dm.B))))) x =
      if x = a then v.toNat else st s x := by
  unfold st
  rw [view_blk, view_blk]
  dsimp only
  obtain ⟨ha1, ha2⟩ := idx_facts a
  generalize hW : (a - a / dm.B * dm.B) / 16 = W at *
  generalize hP : scale dm (a / dm.B * dm.B) + 4 * W = P at *
  generalize hI : (a - a / dm.B * dm.B) % 16 = I at *
  have hI16 : I < 16 := by omega
  -- is the byte of `x` inside the word?
  by_cases hin : P ≤ x / 4 ∧ x / 4 < P + 4
  · obtain ⟨j, hj, hxj⟩ : ∃ j, j < 4 ∧ x / 4 = P + j := ⟨x / 4 - P, by omega, by omega⟩
    have hxb : x / dm.B = a / dm.B := by
      have h2 : scale dm (a / dm.B * dm.B) = a / dm.B * 262144 * 1 / 4 := rfl
      rw [h2] at hP; rw [dmB] at hP hW hI ⊢; omega
    rw [hxb, he, if_pos rfl, if_pos rfl, hxj]
    have hbit : ∀ n, n < 8 →
        (putWord s.mem (a / dm.B) W (set2bits (word s.mem (a / dm.B) W) v
          (bmShift (a - a / dm.B * dm.B))) (P + j)).toNat.testBit n =
        if 8 * j + n = 2 * I then v.toNat.testBit 0
        else if 8 * j + n = 2 * I + 1 then v.toNat.testBit 1
        else (s.mem (P + j)).toNat.testBit n := by
      intro n hn
      rw [← hP, putw _ _ _ _ _ _ hj hn, ← getw s.mem (a / dm.B) W j n hj hn]
      have := set2bits_bit (word s.mem (a / dm.B) W) v I (8 * j + n) hI16 hv
      rw [show bmShift (a - a / dm.B * dm.B) = UInt32.ofNat (I * 2) by rw [bmShift, hI]]
      exact this
    have hx4 : x = 4 * (P + j) + x % 4 := by omega
    have ha4 : a = 4 * (P + I / 4) + a % 4 := by omega
    by_cases hxa : x = a
    · rw [if_pos hxa]
      have hjI : j = I / 4 := by omega
      have h4 : 8 * j + 2 * (x % 4) = 2 * I := by subst hxa; omega
      have := fld_eq v.toNat 0
      rw [Nat.pow_zero, Nat.div_one, Nat.mod_eq_of_lt hv] at this
      rw [this, fld_eq, hbit _ (by omega), hbit _ (by omega), if_pos h4, if_neg (by omega),
        if_pos (by omega)]
    · rw [if_neg hxa]
      have h4 : 8 * j + 2 * (x % 4) ≠ 2 * I := by omega
      rw [fld_eq, fld_eq, hbit _ (by omega), hbit _ (by omega), if_neg h4, if_neg (by omega),
        if_neg (by omega), if_neg (by omega)]
  · have hxa : x ≠ a := by
      rintro rfl; omega
    rw [if_neg hxa, putw_other _ _ _ _ _ (by omega)]

theorem u32_ext {v w : UInt32} (h : v.toNat = w.toNat) : v = w := UInt32.toNat_inj.mp h

/-- One byte write: exactly that byte changes. -/
theorem setByte_at {s : St} {info : Info} {a : Nat}
    (h : fetch s info a = (a / dm.B, s.ex (a / dm.B))) (ha : a < top) {v : UInt32} (hv : v.toNat < 4) :
    ∃ s' al, setByte s info a v = .ok (s', some (a / dm.B, al)) ∧
      al = s'.ex (a / dm.B) ∧ (al = false → v = UNADDRESSABLE ∧ s' = s) ∧
      ∀ x, st s' x = if x = a then v.toNat else st s x := by
  unfold setByte
  rw [h]
  dsimp only
  by_cases he : s.ex (a / dm.B) = true
  · rw [if_pos he]
    refine ⟨_, true, rfl, he.symm, by simp, st_putWord hv he⟩
  · have he' : s.ex (a / dm.B) = false := by simpa using he
    rw [if_neg he]
    have hg := getByte_ok (s := s) (info := some (a / dm.B, s.ex (a / dm.B)))
      (by intro k al hk; simp only [Option.some.injEq, Prod.mk.injEq] at hk
          rw [← hk.1, ← hk.2]) a
    by_cases hn : v = (getByte s (some (a / dm.B, s.ex (a / dm.B))) a).2
    · rw [if_pos hn]
      refine ⟨s, s.ex (a / dm.B), rfl, rfl, fun _ => ⟨?_, rfl⟩, fun x => ?_⟩
      · rw [hn]; simp [getByte, fetch, he']
      · split
        · rename_i hx; rw [hx, ← hg.1, ← hn]
        · rfl
    · rw [if_neg hn]
      have hk : (a / dm.B + 1) * dm.B ≤ top := by
        rw [top] at ha; rw [dmB, top]; omega
      obtain ⟨s1, e1, hex, hmem⟩ := create_block dm_valid s dm.dflt (by decide) hk
      have he1 : s1.ex (a / dm.B) = true := by rw [hex]; simp
      have hst : ∀ x, st s1 x = st s x := by
        intro x
        unfold st
        rw [view_blk, view_blk, hex, hmem]
        have hb : x / 4 / (dm.B * dm.m / dm.g) = x / dm.B := by
          show x / 4 / 65536 = x / 262144
          omega
        rw [hb]
        by_cases hx : x / dm.B = a / dm.B
        · rw [hx, he']; simp [dm]
        · simp [hx]
      simp only [e1, bind, Except.bind, pure, Except.pure]
      refine ⟨_, s1.ex (a / dm.B), rfl, rfl, ?_, fun x => ?_⟩
      · rw [he1]; simp
      · rw [st_putWord hv he1, hst]

theorem setByte_ok {s : St} {info : Info} (h : InfoOk s info) {a : Nat} (ha : a < top)
    {v : UInt32} (hv : v.toNat < 4) :
    ∃ s' al, setByte s info a v = .ok (s', some (a / dm.B, al)) ∧
      al = s'.ex (a / dm.B) ∧ (al = false → v = UNADDRESSABLE ∧ s' = s) ∧
      ∀ x, st s' x = if x = a then v.toNat else st s x :=
  setByte_at (fetch_ok h a) ha hv

/-! ## C08 -/

/-- A history of byte writes; each write may use its own fresh info (`true`) or keep the info left
by the previous write (`false`). -/
def run : List (Bool × Nat × UInt32) → St → Info → Res (St × Info)
  | [], s, info => .ok (s, info)
  | (fresh, a, v) :: ops, s, info =>
    match setByte s (if fresh then none else info) a v with
    | .ok (s, info) => run ops s info
    | .error e => .error e

/-- The value last written to `x`, if any (spec). -/
def lastWrite (ops : List (Bool × Nat × UInt32)) (x : Nat) : Option UInt32 :=
  (ops.reverse.find? fun op => op.2.1 == x).map fun op => op.2.2

theorem infoOk_none (s : St) : InfoOk s none := by intro k al h; cases h

theorem infoOk_some {s : St} {k : Nat} {al : Bool} (h : al = s.ex k) :
    InfoOk s (some (k, al)) := by
  intro k' al' e
  simp only [Option.some.injEq, Prod.mk.injEq] at e
  rw [← e.1, ← e.2, h]

/-- C08: after any history of byte writes, reading any byte (with a fresh or with the current
info) gives the value last written to it, or its old state. -/
theorem C08_read_last_write (ops : List (Bool × Nat × UInt32))
    (hops : ∀ op ∈ ops, op.2.1 < top ∧ op.2.2.toNat < 4) :
    ∀ (s : St) (info : Info), InfoOk s info →
    ∃ s' info', run ops s info = .ok (s', info') ∧ ∀ x,
      (getByte s' info' x).2 = (lastWrite ops x).getD ((getByte s none x).2) ∧
      (getByte s' none x).2 = (lastWrite ops x).getD ((getByte s none x).2) := by
  have key : ∀ (ops : List (Bool × Nat × UInt32)),
      (∀ op ∈ ops, op.2.1 < top ∧ op.2.2.toNat < 4) → ∀ (s : St) (info : Info), InfoOk s info →
      ∃ s' info', run ops s info = .ok (s', info') ∧ InfoOk s' info' ∧ ∀ x,
        st s' x = ((lastWrite ops x).map UInt32.toNat).getD (st s x) := by
    intro ops
    induction ops with
    | nil => intro _ s info hi; exact ⟨s, info, rfl, hi, fun x => rfl⟩
    | cons op ops ih =>
      intro hops s info hi
      obtain ⟨fresh, a, v⟩ := op
      have hop := hops (fresh, a, v) (by simp)
      have hi' : InfoOk s (if fresh then none else info) := by
        cases fresh
        · exact hi
        · exact infoOk_none s
      obtain ⟨s1, al, e1, h1, -, h2⟩ := setByte_ok hi' hop.1 hop.2
      obtain ⟨s2, info2, e2, h3, h4⟩ := ih (fun o ho => hops o (by simp [ho])) s1 _
        (infoOk_some h1)
      refine ⟨s2, info2, ?_, h3, fun x => ?_⟩
      · simp only [run, e1, e2]
      · rw [h4, h2]
        unfold lastWrite
        rw [List.reverse_cons, List.find?_append]
        cases hf : ops.reverse.find? (fun op => op.2.1 == x) with
        | some o => simp
        | none =>
          by_cases hx : x = a
          · subst hx; simp
          · simp [hx, Ne.symm hx]
  intro s info hi
  obtain ⟨s', info', e, h1, h2⟩ := key ops hops s info hi
  refine ⟨s', info', e, fun x => ?_⟩
  have hs := (getByte_ok (infoOk_none s) x).1
  have hm : ((lastWrite ops x).map UInt32.toNat).getD (st s x) =
      ((lastWrite ops x).getD ((getByte s none x).2)).toNat := by
    cases lastWrite ops x with
    | none => simp [hs]
    | some v => simp
  constructor
  · apply u32_ext; rw [(getByte_ok h1 x).1, h2, hm]
  · apply u32_ext; rw [(getByte_ok (infoOk_none s') x).1, h2, hm]

/-- A history over neighbouring bytes of one shadow byte and of a second block. -/
example : ∀ op ∈ [(true, 5, 3), (false, 6, 1), (false, 262144, 2), (true, 5, (0 : UInt32))],
    op.2.1 < top ∧ op.2.2.toNat < 4 := by decide

/-! ## Runs of bytes -/

theorem getBytes_ok (s : St) : ∀ n pc info, InfoOk s info →
    (getBytes s n pc info).2.map UInt32.toNat = (List.range n).map (fun i => st s (pc + i)) ∧
    InfoOk s (getBytes s n pc info).1 := by
  intro n
  induction n with
  | zero => intro pc info h; exact ⟨rfl, h⟩
  | succ n ih =>
    intro pc info h
    obtain ⟨h1, h2⟩ := getByte_ok h pc
    have h3 : InfoOk s (getByte s info pc).1 := by rw [h2]; exact infoOk_some rfl
    obtain ⟨h4, h5⟩ := ih (pc + 1) _ h3
    refine ⟨?_, h5⟩
    simp only [getBytes, List.map_cons, h1, h4, List.range_succ_eq_map, List.map_map]
    congr 1
    exact List.map_congr_left fun i _ => by simp only [Function.comp]; congr 1; omega

theorem getBytes_length (s : St) : ∀ n pc info, (getBytes s n pc info).2.length = n := by
  intro n
  induction n with
  | zero => intros; rfl
  | succ n ih => intros; simp [getBytes, ih]

theorem putBytes_ok : ∀ (vs : List UInt32) (pc : Nat) (s : St) (info : Info), InfoOk s info →
    pc + vs.length ≤ top → (∀ v ∈ vs, v.toNat < 4) →
    ∃ s' info', putBytes vs pc s info = .ok (s', info') ∧ InfoOk s' info' ∧
      ∀ x, st s' x = if pc ≤ x ∧ x < pc + vs.length then ((vs.map UInt32.toNat).getD (x - pc) 0)
        else st s x := by
  intro vs
  induction vs with
  | nil => intro pc s info h _ _; exact ⟨s, info, rfl, h, fun x => by simp; omega⟩
  | cons v vs ih =>
    intro pc s info h hle hv
    simp only [List.length_cons] at hle
    obtain ⟨s1, al, e1, h1, -, h2⟩ := setByte_ok h (a := pc) (by omega) (hv v (by simp))
    obtain ⟨s2, i2, e2, h3, h4⟩ := ih (pc + 1) s1 _ (infoOk_some h1) (by omega)
      (fun w hw => hv w (by simp [hw]))
    refine ⟨s2, i2, ?_, h3, fun x => ?_⟩
    · simp only [putBytes, e1, bind, Except.bind, e2]
    · rw [h4, h2]
      simp only [List.length_cons, List.map_cons]
      by_cases hx : x = pc
      · subst hx
        rw [if_neg (by omega), if_pos rfl, if_pos (by omega)]; simp
      · by_cases hr : pc + 1 ≤ x ∧ x < pc + 1 + vs.length
        · rw [if_pos hr, if_pos (by omega), show x - pc = (x - (pc + 1)) + 1 by omega]
          simp
        · rw [if_neg hr, if_neg hx, if_neg (by omega)]

/-- Saving a region's shadow and restoring it later, whatever happened in between, gives back the
saved state of every byte of the region and leaves every other byte alone. -/
theorem C08_save_restore (s s2 : St) (start size : Nat) (h : start + size ≤ top) :
    ∃ s', restoreRegion s2 start (saveRegion s start size) = .ok s' ∧
      ∀ x, st s' x = if start ≤ x ∧ x < start + size then st s x else st s2 x := by
  have hg := (getBytes_ok s size start none (infoOk_none s)).1
  have hl := getBytes_length s size start none
  obtain ⟨s', i', e, -, h2⟩ := putBytes_ok (saveRegion s start size) start s2 none
    (infoOk_none s2) (by rw [saveRegion, hl]; exact h) (by
      intro v hv
      have : v.toNat ∈ (saveRegion s start size).map UInt32.toNat := List.mem_map_of_mem hv
      rw [saveRegion, hg] at this
      obtain ⟨i, -, hi⟩ := List.mem_map.mp this
      rw [← hi]; exact st_lt ..)
  refine ⟨s', ?_, fun x => ?_⟩
  · simp only [restoreRegion, e, bind, Except.bind, pure, Except.pure]
  · rw [h2, saveRegion, hl, hg]
    split
    · rename_i hx
      rw [List.getD_eq_getElem?_getD, List.getElem?_map, List.getElem?_range (by omega)]
      simp; congr 1; omega
    · rfl

/-- The dword read returns exactly the shadow byte of the four bytes around the address. -/
theorem C08_get_dword (s : St) (a : Nat) : (getDword s a).toNat = (view dm s (a / 4)).toNat := by
  unfold getDword
  dsimp only
  rw [view_blk]
  by_cases he : s.ex (a / dm.B) = true
  · rw [if_pos he, if_pos he]
    have hlt : ∀ x : UInt32, (x &&& 0xff).toNat < 2 ^ 8 := by
      intro x
      rw [UInt32.toNat_and]
      exact Nat.lt_of_le_of_lt Nat.and_le_right (by decide)
    apply Nat.eq_of_testBit_eq
    intro n
    have h1 : dm.B = 262144 := rfl
    by_cases hn : n < 8
    · have hsc : scale dm (a / dm.B * dm.B) = a / dm.B * 262144 * 1 / 4 := rfl
      have hg := getw s.mem (a / dm.B) ((alignBack4 a - a / dm.B * dm.B) / 16)
        ((alignBack4 a - a / dm.B * dm.B) % 16 / 4) n (by omega) hn
      have hidx : scale dm (a / dm.B * dm.B) + 4 * ((alignBack4 a - a / dm.B * dm.B) / 16) +
          (alignBack4 a - a / dm.B * dm.B) % 16 / 4 = a / 4 := by
        rw [hsc, alignBack4, h1]; omega
      rw [hidx] at hg
      rw [← hg, UInt32.toNat_and, UInt32.toNat_shiftRight, Nat.testBit_and,
        Nat.testBit_shiftRight]
      have hs : (bmShift (alignBack4 a - a / dm.B * dm.B)).toNat % 32 =
          8 * ((alignBack4 a - a / dm.B * dm.B) % 16 / 4) := by
        rw [bmShift, UInt32.toNat_ofNat', alignBack4, h1]; omega
      rw [hs]
      have : (255 : UInt32).toNat.testBit n = true := by
        rw [show (255 : UInt32).toNat = 2 ^ 8 - 1 by rfl, Nat.testBit_two_pow_sub_one]
        simpa using hn
      rw [this, Bool.and_true]
    · rw [Nat.testBit_lt_two_pow (Nat.lt_of_lt_of_le (hlt _)
          (Nat.pow_le_pow_right (by omega) (by omega : 8 ≤ n))),
        Nat.testBit_lt_two_pow (Nat.lt_of_lt_of_le (s.mem (a / 4)).toNat_lt
          (Nat.pow_le_pow_right (by omega) (by omega : 8 ≤ n)))]
  · rw [if_neg he, if_neg he]; rfl

/-- The pointer-sized read of a never-allocated block returns the dword pattern 0x55, which is not
the shadow of eight unaddressable bytes, 0x5555 (drmemory/shadow.c:426-429). -/
theorem C08_qword_unallocated (s : St) (a : Nat) (h : s.ex (a / dm.B) = false) :
    getQword s a = 0x55 ∧ view dm s (a / 8 * 2) = 0x55 ∧ view dm s (a / 8 * 2 + 1) = 0x55 := by
  have hb : ∀ d, d < 2 → (a / 8 * 2 + d) / (dm.B * dm.m / dm.g) = a / dm.B := by
    intro d hd
    show (a / 8 * 2 + d) / 65536 = a / 262144
    omega
  refine ⟨by simp [getQword, h], ?_, ?_⟩
  · have := hb 0 (by omega)
    rw [Nat.add_zero] at this
    simp only [view, this, h]; rfl
  · simp only [view, hb 1 (by omega), h]; rfl

/-- `shadow_set_non_matching_range` changes exactly the bytes of the range whose state is not
`valNot`. -/
theorem C09_set_non_matching {val valNot : UInt32} (hv : val.toNat < 4) :
    ∀ (n pc : Nat) (s : St) (info : Info), InfoOk s info → pc + n ≤ top →
    ∃ s' info', setNonMatching val valNot n pc s info = .ok (s', info') ∧
      ∀ x, st s' x = if pc ≤ x ∧ x < pc + n ∧ st s x ≠ valNot.toNat then val.toNat
        else st s x := by
  intro n
  induction n with
  | zero => intro pc s info _ _; exact ⟨s, info, rfl, fun x => by rw [if_neg (by omega)]⟩
  | succ n ih =>
    intro pc s info hi hle
    obtain ⟨h1, h2⟩ := getByte_ok hi pc
    have hi' : InfoOk s (getByte s info pc).1 := by rw [h2]; exact infoOk_some rfl
    simp only [setNonMatching]
    by_cases hne : (getByte s info pc).2 ≠ valNot
    · have hst : st s pc ≠ valNot.toNat := by rw [← h1]; exact fun h => hne (u32_ext h)
      obtain ⟨s1, al, e1, g1, -, g2⟩ := setByte_ok hi' (a := pc) (by omega) hv
      obtain ⟨s2, i2, e2, g3⟩ := ih (pc + 1) s1 _ (infoOk_some g1) (by omega)
      refine ⟨s2, i2, ?_, fun x => ?_⟩
      · simp only [hne, if_true, ne_eq, not_false_eq_true, e1, bind, Except.bind, e2]
      · rw [g3, g2]
        by_cases hx : x = pc
        · subst hx
          rw [if_neg (by omega), if_pos rfl, if_pos ⟨by omega, by omega, hst⟩]
        · rw [if_neg hx]
          by_cases hr : pc + 1 ≤ x ∧ x < pc + 1 + n ∧ st s x ≠ valNot.toNat
          · rw [if_pos hr, if_pos ⟨by omega, by omega, hr.2.2⟩]
          · rw [if_neg hr, if_neg]
            rintro ⟨ha, hb, hc⟩
            exact hr ⟨by omega, by omega, hc⟩
    · have hst : st s pc = valNot.toNat := by
        rw [← h1]; simp only [ne_eq, Decidable.not_not] at hne; rw [hne]
      obtain ⟨s2, i2, e2, g3⟩ := ih (pc + 1) s _ hi' (by omega)
      refine ⟨s2, i2, ?_, fun x => ?_⟩
      · simp only [hne, if_false, bind, Except.bind, pure, Except.pure, e2]
      · rw [g3]
        by_cases hx : x = pc
        · subst hx
          rw [if_neg (by omega), if_neg (by intro h; exact h.2.2 hst)]
        · by_cases hr : pc + 1 ≤ x ∧ x < pc + 1 + n ∧ st s x ≠ valNot.toNat
          · rw [if_pos hr, if_pos ⟨by omega, by omega, hr.2.2⟩]
          · rw [if_neg hr, if_neg]
            rintro ⟨ha, hb, hc⟩
            exact hr ⟨by omega, by omega, hc⟩

/-! ## C09 -/

theorem setBytes_ok {v : UInt32} (hv : v.toNat < 4) : ∀ (n pc : Nat) (s : St) (info : Info),
    (0 < n → fetch s info pc = (pc / dm.B, s.ex (pc / dm.B))) → pc + n ≤ top →
    ∃ s' info', setBytes v n pc s info = .ok (s', info') ∧
      (n = 0 → info' = info) ∧
      (0 < n → ∃ k al, info' = some (k, al) ∧ al = s'.ex k ∧ (al = false → v = UNADDRESSABLE)) ∧
      ∀ x, st s' x = if pc ≤ x ∧ x < pc + n then v.toNat else st s x := by
  intro n
  induction n with
  | zero => intro pc s info _ _; exact ⟨s, info, rfl, fun _ => rfl, by omega, fun x => by
      rw [if_neg (by omega)]⟩
  | succ n ih =>
    intro pc s info h hle
    obtain ⟨s1, al, e1, h1, h1', h2⟩ := setByte_at (h (by omega)) (by omega) hv
    obtain ⟨s2, i2, e2, h3, h4, h5⟩ := ih (pc + 1) s1 (some (pc / dm.B, al))
      (fun _ => fetch_ok (infoOk_some h1) _) (by omega)
    refine ⟨s2, i2, ?_, by omega, fun _ => ?_, fun x => ?_⟩
    · simp only [setBytes, e1, bind, Except.bind, e2]
    · rcases Nat.eq_zero_or_pos n with hn | hn
      · subst hn
        have hs : s2 = s1 := by
          simp only [setBytes, pure, Except.pure, Except.ok.injEq, Prod.mk.injEq] at e2
          exact e2.1.symm
        rw [h3 rfl, hs]
        exact ⟨_, _, rfl, h1, fun hf => (h1' hf).1⟩
      · exact h4 hn
    · rw [h5, h2]
      split <;> split <;> (try split) <;> first | rfl | (exfalso; omega)

theorem byte2dword_digit {v : UInt32} (hv : v.toNat < 4) (r : Nat) (hr : r < 4) :
    (byte2dword v).toNat / 4 ^ r % 4 = v.toNat := by
  have h : v = 0 ∨ v = 1 ∨ v = 2 ∨ v = 3 := by
    have : v.toNat = 0 ∨ v.toNat = 1 ∨ v.toNat = 2 ∨ v.toNat = 3 := by omega
    rcases this with h | h | h | h
    · exact .inl (u32_ext h)
    · exact .inr (.inl (u32_ext h))
    · exact .inr (.inr (.inl (u32_ext h)))
    · exact .inr (.inr (.inr (u32_ext h)))
  have hr : r = 0 ∨ r = 1 ∨ r = 2 ∨ r = 3 := by omega
  rcases h with rfl | rfl | rfl | rfl <;> rcases hr with rfl | rfl | rfl | rfl <;> decide

/-- The dword-aligned middle part. -/
theorem mid_ok {v : UInt32} (hv : v.toNat < 4) {a b : Nat} (ha : a % 4 = 0) (hb : b % 4 = 0)
    (hab : a < b) (hbt : b ≤ top) (s : St) :
    ∃ s' n, Umbra.setRange dm a (b - a) (byte2dword v) s = .ok (s', n) ∧
      (∀ k, s.ex k = true → s'.ex k = true) ∧
      ∀ x, st s' x = if a ≤ x ∧ x < b then v.toNat else st s x := by
  have hok : Ok dm a (b - a) := Ok.of_granule dm_valid (by decide)
    (Nat.dvd_of_mod_eq_zero ha) (Nat.dvd_of_mod_eq_zero (by show (b - a) % 4 = 0; omega))
    (by omega) (by omega)
  obtain ⟨s', e, hm, hvw⟩ := setRange_full dm_valid rfl (by decide) hok (byte2dword v) s
  refine ⟨s', _, e, hm, fun x => ?_⟩
  unfold st
  rw [hvw]
  have h1 : scale dm a = a * 1 / 4 := rfl
  have h2 : scale dm (b - a) = (b - a) * 1 / 4 := rfl
  rw [h1, h2]
  by_cases hx : a ≤ x ∧ x < b
  · rw [if_pos (by omega), if_pos hx, byte2dword_digit hv _ (by omega)]
  · rw [if_neg (by omega), if_neg hx]

theorem setByte_nop {s : St} {k a : Nat} (hk : a / dm.B = k) :
    setByte s (some (k, false)) a UNADDRESSABLE = .ok (s, some (k, false)) := by
  have hf : fetch s (some (k, false)) a = (k, false) := by
    unfold fetch
    dsimp only
    rw [if_pos]
    rw [dmB] at *; omega
  unfold setByte
  rw [hf]
  simp [getByte, hf, pure, Except.pure, bind, Except.bind]

theorem setBytes_nop {s : St} {k : Nat} : ∀ n a, (∀ i, i < n → (a + i) / dm.B = k) →
    setBytes UNADDRESSABLE n a s (some (k, false)) = .ok (s, some (k, false)) := by
  intro n
  induction n with
  | zero => intro a _; rfl
  | succ n ih =>
    intro a h
    have h0 : a / dm.B = k := h 0 (by omega)
    simp only [setBytes, setByte_nop h0, bind, Except.bind]
    exact ih (a + 1) fun i hi => by rw [Nat.add_assoc, Nat.add_comm 1]; exact h (i + 1) (by omega)

/-- C09: `shadow_set_range` gives every byte of `[start,stop)` the value and leaves every other
byte unchanged.  `stop` is a pointer value, and the range does not start in the last three bytes
of the address space (where `ALIGN_FORWARD` wraps to 0). -/
theorem C09_set_range (s : St) {start stop : Nat} {v : UInt32} (hv : v.toNat < 4)
    (hstop : stop < top) (hstart : start + 3 < top) :
    ∃ s', setRange s start stop v = .ok s' ∧
      ∀ x, st s' x = if start ≤ x ∧ x < stop then v.toNat else st s x := by
  unfold setRange
  by_cases hge : start ≥ stop
  · rw [if_pos hge]
    exact ⟨s, rfl, fun x => by rw [if_neg (by omega)]⟩
  rw [if_neg hge]
  have hA : alignFwd4 start = (start + 3) / 4 * 4 := by
    unfold alignFwd4; rw [Nat.mod_eq_of_lt hstart]
  have hE : alignBack4 stop = stop / 4 * 4 := rfl
  obtain ⟨s1, i1, e1, hi0, hi1, h1⟩ := setBytes_ok hv (min (alignFwd4 start) stop - start) start s
    none (fun _ => fetch_ok (infoOk_none s) _) (by omega)
  simp only [e1, bind, Except.bind]
  by_cases hmid : alignBack4 stop > alignFwd4 start
  · obtain ⟨s2, n2, e2, hm2, h2⟩ := mid_ok hv (a := alignFwd4 start) (b := alignBack4 stop)
      (by omega) (by omega) hmid (by omega) s1
    simp only [hmid, if_true, e2, pure, Except.pure]
    rw [if_pos (by omega)]
    -- is the info left by the head stale?
    have htail : ∃ s3 i3, setBytes v (stop - alignBack4 stop) (alignBack4 stop) s2 i1 =
        .ok (s3, i3) ∧ ∀ x, st s3 x =
          if alignBack4 stop ≤ x ∧ x < alignBack4 stop + (stop - alignBack4 stop) then v.toNat
          else st s2 x := by
      by_cases hstale : 0 < stop - alignBack4 stop ∧ fetch s2 i1 (alignBack4 stop) ≠
          (alignBack4 stop / dm.B, s2.ex (alignBack4 stop / dm.B))
      · obtain ⟨hpos, hne⟩ := hstale
        have hn0 : 0 < min (alignFwd4 start) stop - start := by
          rcases Nat.eq_zero_or_pos (min (alignFwd4 start) stop - start) with h | h
          · rw [hi0 h] at hne
            exact absurd (fetch_ok (infoOk_none s2) _) hne
          · exact h
        obtain ⟨k, al, hi, hal, hfalse⟩ := hi1 hn0
        rw [hi] at hne
        have hkk : alignBack4 stop / dm.B = k := by
          by_cases hr : k * dm.B ≤ alignBack4 stop ∧ alignBack4 stop < k * dm.B + dm.B
          · rw [dmB] at hr ⊢; omega
          · exfalso; apply hne; unfold fetch; dsimp only; rw [if_neg hr]
        have half : al = false := by
          cases hal' : al with
          | false => rfl
          | true =>
            exfalso; apply hne
            have he2 : s2.ex k = true := hm2 k (by rw [← hal, hal'])
            rw [hal']
            exact fetch_ok (infoOk_some he2.symm) _
        have hvu := hfalse half
        subst hvu
        rw [hi, half]
        refine ⟨s2, _, setBytes_nop _ _ (fun i hi => ?_), fun x => ?_⟩
        · rw [dmB] at hkk ⊢; omega
        · split
          · rename_i hx
            rw [h2]
            split
            · rfl
            · have hxk : x / dm.B = k := by rw [dmB] at hkk ⊢; omega
              have hex : s1.ex (x / dm.B) = false := by rw [hxk, ← hal, half]
              unfold st
              rw [view_blk, hex, if_neg (by decide)]
              have : x % 4 = 0 ∨ x % 4 = 1 ∨ x % 4 = 2 ∨ x % 4 = 3 := by omega
              rcases this with h | h | h | h <;> rw [h] <;> rfl
          · rfl
      · obtain ⟨s3, i3, e3, -, -, h3⟩ := setBytes_ok hv (stop - alignBack4 stop)
          (alignBack4 stop) s2 i1 (fun hp => by
            by_cases hf : fetch s2 i1 (alignBack4 stop) =
              (alignBack4 stop / dm.B, s2.ex (alignBack4 stop / dm.B))
            · exact hf
            · exact absurd ⟨hp, hf⟩ hstale) (by omega)
        exact ⟨s3, i3, e3, h3⟩
    obtain ⟨s3, i3, e3, h3⟩ := htail
    rw [e3]
    refine ⟨s3, rfl, fun x => ?_⟩
    rw [h3, h2, h1]
    split <;> split <;> (try split) <;> (try split) <;> first | rfl | (exfalso; omega)
  · simp only [hmid, if_false, pure, Except.pure]
    by_cases hge2 : alignBack4 stop ≥ alignFwd4 start
    · rw [if_pos hge2]
      have hok1 : 0 < stop - alignBack4 stop → fetch s1 i1 (alignBack4 stop) =
          (alignBack4 stop / dm.B, s1.ex (alignBack4 stop / dm.B)) := by
        intro _
        rcases Nat.eq_zero_or_pos (min (alignFwd4 start) stop - start) with h | h
        · rw [hi0 h]; exact fetch_ok (infoOk_none s1) _
        · obtain ⟨k, al, hi, hal, -⟩ := hi1 h
          rw [hi]; exact fetch_ok (infoOk_some hal) _
      obtain ⟨s3, i3, e3, -, -, h3⟩ := setBytes_ok hv (stop - alignBack4 stop)
        (alignBack4 stop) s1 i1 hok1 (by omega)
      rw [e3]
      refine ⟨s3, rfl, fun x => ?_⟩
      rw [h3, h1]
      split <;> split <;> (try split) <;> first | rfl | (exfalso; omega)
    · rw [if_neg hge2]
      refine ⟨s1, rfl, fun x => ?_⟩
      rw [h1]
      split <;> split <;> first | rfl | (exfalso; omega)

example : (UNDEFINED).toNat < 4 ∧ 0x7ffff003 < top ∧ 0x7fffeffd + 3 < top := by decide

/-! ## C11 -/

theorem midCopy_ok {old new n : Nat} (ho : old % 4 = 0) (hn : new % 4 = 0) (hs : n % 4 = 0)
    (hpos : 0 < n) (h1 : old + n ≤ top) (h2 : new + n ≤ top)
    (hdis : new ≤ old ∨ old + n ≤ new) (s : St) :
    ∃ s' z, Umbra.copy dm old new n s = .ok (s', z) ∧
      ∀ x, st s' x = if new ≤ x ∧ x < new + n then st s (old + (x - new)) else st s x := by
  obtain ⟨s', e, hv⟩ := C14_copy_partial dm_valid (by decide) rfl (by decide)
    (Nat.dvd_of_mod_eq_zero ho) (Nat.dvd_of_mod_eq_zero hn) (Nat.dvd_of_mod_eq_zero hs) hpos h1 h2
    hdis s
  refine ⟨s', _, e, fun x => ?_⟩
  unfold st
  rw [hv]
  have e1 : scale dm old = old * 1 / 4 := rfl
  have e2 : scale dm new = new * 1 / 4 := rfl
  have e3 : scale dm n = n * 1 / 4 := rfl
  rw [e1, e2, e3]
  by_cases hx : new ≤ x ∧ x < new + n
  · rw [if_pos (by omega), if_pos hx,
      show old * 1 / 4 + (x / 4 - new * 1 / 4) = (old + (x - new)) / 4 by omega,
      show (old + (x - new)) % 4 = x % 4 by omega]
  · rw [if_neg (by omega), if_neg hx]

theorem getBytes_vals (s : St) (n pc : Nat) {info : Info} (h : InfoOk s info) :
    ∀ v ∈ (getBytes s n pc info).2, v.toNat < 4 := by
  intro v hv
  have : v.toNat ∈ (getBytes s n pc info).2.map UInt32.toNat := List.mem_map_of_mem hv
  rw [(getBytes_ok s n pc info h).1] at this
  obtain ⟨i, -, hi⟩ := List.mem_map.mp this
  rw [← hi]; exact st_lt ..

/-- Reading `n` bytes at `old` in state `s` and writing them at `new` in state `s2`. -/
theorem put_get (s s2 : St) (n old new : Nat) {info info2 : Info} (h : InfoOk s info)
    (h2 : InfoOk s2 info2) (hle : new + n ≤ top) :
    ∃ s' info', putBytes (getBytes s n old info).2 new s2 info2 = .ok (s', info') ∧
      InfoOk s' info' ∧
      ∀ x, st s' x = if new ≤ x ∧ x < new + n then st s (old + (x - new)) else st s2 x := by
  have hl := getBytes_length s n old info
  obtain ⟨s', i', e, hi, hst⟩ := putBytes_ok (getBytes s n old info).2 new s2 info2 h2
    (by rw [hl]; exact hle) (getBytes_vals s n old h)
  refine ⟨s', i', e, hi, fun x => ?_⟩
  rw [hst, hl, (getBytes_ok s n old info h).1]
  split
  · rw [List.getD_eq_getElem?_getD, List.getElem?_map, List.getElem?_range (by omega)]
    simp
  · rfl

/-- C11: `shadow_copy_range` gives every destination byte the state its source byte had and changes
nothing else, (a) whenever the two addresses differ modulo 4, for any overlap; (b) when they agree
modulo 4, the range reaches the next dword boundary, and the destination does not start inside
the source.

Full statement: the same for all `old`, `new`, `size`.  It is false when the range stays inside
one dword (`C11_short_unaligned`) and when an equally aligned destination starts inside the source
(`C11_forward_overlap`). -/
theorem C11_copy_range_partial (s : St) {old new size : Nat} (ho : old + size + 3 < top)
    (hn : new + size + 3 < top)
    (hcase : old % 4 ≠ new % 4 ∨
      ((old % 4 = 0 ∨ 4 - old % 4 ≤ size) ∧ (new ≤ old ∨ old + size ≤ new))) :
    ∃ s', copyRange s old new size = .ok s' ∧
      ∀ x, st s' x = if new ≤ x ∧ x < new + size then st s (old + (x - new)) else st s x := by
  unfold copyRange
  by_cases hmod : old % 4 ≠ new % 4
  · simp only [hmod, if_true, ne_eq, not_false_eq_true]
    obtain ⟨s', i', e, -, h⟩ := put_get s s size old new (infoOk_none s) (infoOk_none s)
      (by omega)
    simp only [e, bind, Except.bind, pure, Except.pure]
    exact ⟨s', rfl, h⟩
  · have hmod' : old % 4 = new % 4 := by simpa using hmod
    obtain ⟨hshort, hdis⟩ := hcase.resolve_left hmod
    simp only [hmod, if_false]
    have hA : alignFwd4 old = (old + 3) / 4 * 4 := by
      unfold alignFwd4; rw [Nat.mod_eq_of_lt (by omega)]
    have hA' : alignFwd4 new = (new + 3) / 4 * 4 := by
      unfold alignFwd4; rw [Nat.mod_eq_of_lt (by omega)]
    have hOE : (if (old + size) % 4 ≠ 0 then alignBack4 (old + size) else old + size) =
        (old + size) / 4 * 4 := by
      split
      · rfl
      · omega
    have hNE : alignBack4 (new + size) = (new + size) / 4 * 4 := rfl
    have hH : (if old % 4 ≠ 0 then 4 - old % 4 else 0) = (old + 3) / 4 * 4 - old := by
      split <;> omega
    rw [hOE, hNE, hH, hA, hA']
    -- the middle part
    have hmid : ∃ s1, (if (old + size) / 4 * 4 > (old + 3) / 4 * 4 then do
          let x ← Umbra.copy dm ((old + 3) / 4 * 4) ((new + 3) / 4 * 4)
            ((old + size) / 4 * 4 - (old + 3) / 4 * 4) s
          match x with | (s, _) => pure s
        else pure s : Res St) = .ok s1 ∧
        ∀ x, st s1 x = if (new + 3) / 4 * 4 ≤ x ∧ x < (new + size) / 4 * 4
          then st s (old + (x - new)) else st s x := by
      by_cases hgt : (old + size) / 4 * 4 > (old + 3) / 4 * 4
      · obtain ⟨s1, z, e, h⟩ := midCopy_ok (old := (old + 3) / 4 * 4) (new := (new + 3) / 4 * 4)
          (n := (old + size) / 4 * 4 - (old + 3) / 4 * 4) (by omega) (by omega) (by omega)
          (by omega) (by omega) (by omega) (by omega) s
        refine ⟨s1, by rw [if_pos hgt, e]; rfl, fun x => ?_⟩
        rw [h]
        by_cases hx : (new + 3) / 4 * 4 ≤ x ∧ x < (new + size) / 4 * 4
        · rw [if_pos (by omega), if_pos hx]; congr 1; omega
        · rw [if_neg (by omega), if_neg hx]
      · refine ⟨s, by rw [if_neg hgt]; rfl, fun x => ?_⟩
        rw [if_neg (by omega)]
    obtain ⟨s1, e1, h1⟩ := hmid
    have hi := (getBytes_ok s ((old + 3) / 4 * 4 - old) old none (infoOk_none s)).2
    obtain ⟨s2, i2, e2, hi2, h2⟩ := put_get s s1 ((old + 3) / 4 * 4 - old) old new
      (infoOk_none s) (infoOk_none s1) (by omega)
    obtain ⟨s3, i3, e3, -, h3⟩ := put_get s s2 ((old + size) % 4) ((old + size) / 4 * 4)
      ((new + size) / 4 * 4) hi hi2 (by omega)
    refine ⟨s3, ?_, fun x => ?_⟩
    · simp only [bind, Except.bind, pure, Except.pure] at e1 ⊢
      split at e1
      · rename_i hgt
        rw [if_pos hgt]
        split at e1
        · cases e1
        · rename_i v hv
          simp only [Except.ok.injEq] at e1
          rw [e1, e2]
          dsimp only
          rw [e3]
      · rename_i hgt
        rw [if_neg hgt]
        simp only [Except.ok.injEq] at e1
        subst e1
        rw [e2]
        dsimp only
        rw [e3]
    · rw [h3, h2, h1]
      by_cases ht : (new + size) / 4 * 4 ≤ x ∧ x < (new + size) / 4 * 4 + (old + size) % 4
      · rw [if_pos ht, if_pos (by omega)]; congr 1; omega
      · rw [if_neg ht]
        by_cases hh : new ≤ x ∧ x < new + ((old + 3) / 4 * 4 - old)
        · rw [if_pos hh, if_pos (by omega)]
        · rw [if_neg hh]
          by_cases hm : (new + 3) / 4 * 4 ≤ x ∧ x < (new + size) / 4 * 4
          · rw [if_pos hm, if_pos (by omega)]
          · rw [if_neg hm, if_neg (by omega)]

/-- Both cases of the hypothesis occur. -/
example : (0x1003 % 4 ≠ 0x1001 % 4) ∧ (4 - 0x1003 % 4 ≤ 9 ∧ 0x1003 + 9 ≤ 0x200b) := by decide

/-- Four bytes `c` `c+1` `c+2` `c+3` of state digits as one shadow byte, everything else
unaddressable; all blocks present (used by the witnesses). -/
def wSh (f : Nat → UInt8) : St := { ex := fun _ => true, mem := f }

/-- C11 fails for a short range inside one dword: copying the single byte 0x1001 to 0x2001 also
overwrites the states of 0x2000, 0x2002 and 0x2003 (drmemory/shadow.c:703-728: the head loop
ignores `size`, and the tail is aligned back below the start). -/
theorem C11_short_unaligned :
    ∃ s s', copyRange s 0x1001 0x2001 1 = .ok s' ∧
      st s 0x2000 = 1 ∧ st s' 0x2000 = 0 ∧ st s 0x2002 = 1 ∧ st s' 0x2002 = 0 ∧
      st s 0x2003 = 1 ∧ st s' 0x2003 = 0 :=
  ⟨wSh fun t => if t = 0x400 then 0 else 0x55, _, rfl, by decide, by decide, by decide, by decide,
    by decide, by decide⟩

/-- C11 fails when an equally aligned destination starts inside the source: moving the three
dwords at 0x1000 up by one dword loses the third (it is written elsewhere, see
`C14_copy_overlap`). -/
theorem C11_forward_overlap :
    ∃ s s', copyRange s 0x1000 0x1004 12 = .ok s' ∧
      st s 0x1008 = 3 ∧ st s' 0x100c = 1 :=
  ⟨wSh fun t => if t = 0x402 then 0xff else 0x55, _, rfl, by decide, by decide⟩

/-! ## C10 -/

theorem dqword_val : ∀ v : Nat, v < 4 →
    dqwordToVal (UInt32.ofNat v) = if v = 0 then some 0 else none := by decide

theorem checkVal_ok {s : St} {info : Info} (h : InfoOk s info) (pc : Nat) :
    ∃ info' v, checkVal s info pc = (info', v, if pc % 16 = 0 ∧ st s pc = 0 then 16 else 1) ∧
      InfoOk s info' ∧ v.toNat = st s pc := by
  obtain ⟨h1, h2⟩ := getByte_ok h pc
  have hi2 : InfoOk s (getByte s info pc).1 := by rw [h2]; exact infoOk_some rfl
  obtain ⟨h3, h4⟩ := getByte_ok hi2 pc
  have hi4 : InfoOk s (getByte s (getByte s info pc).1 pc).1 := by rw [h4]; exact infoOk_some rfl
  obtain ⟨h5, h6⟩ := getByte_ok hi4 pc
  have hi6 : InfoOk s (getByte s (getByte s (getByte s info pc).1 pc).1 pc).1 := by
    rw [h6]; exact infoOk_some rfl
  unfold checkVal
  by_cases hm : pc % 16 = 0
  · have hq := dqword_val _ (st_lt s pc)
    have hv : (getByte s (getByte s info pc).1 pc).2 = UInt32.ofNat (st s pc) := by
      rw [← h3]; simp
    by_cases hz : st s pc = 0
    · rw [if_pos hz] at hq
      refine ⟨_, 0, ?_, hi4, by rw [hz]; rfl⟩
      simp only [hm, ne_eq, not_true, if_false]
      rw [hv, hq]
      simp [hz]
    · rw [if_neg hz] at hq
      refine ⟨_, _, ?_, hi6, h5⟩
      simp only [hm, ne_eq, not_true, if_false]
      rw [hv, hq]
      simp [hz]
  · refine ⟨_, _, ?_, hi2, h1⟩
    simp [hm]

/-- After a bad byte was found. -/
theorem checkGo_bad {s : St} {stop : Nat} {expect : UInt32} {wantEnd : Bool} {b : Nat}
    {bv : UInt32} : ∀ (f pc : Nat) (info : Info) (last : UInt32), InfoOk s info →
    0 < f → stop < pc + f → b < pc → b < stop → last = bv →
    (bv.toNat ≠ 0 → pc ≤ stop ∧ ∀ x, b ≤ x → x < pc → st s x = bv.toNat) →
    ∃ e, checkGo s stop expect wantEnd f pc info (some (b, bv)) last =
        some { res := false, badStart := some b, badState := some bv, badEnd := e } ∧
      (wantEnd = false → e = none) ∧
      (wantEnd = true → bv.toNat ≠ 0 → ∃ q, e = some q ∧ b < q ∧ q ≤ stop ∧
        (∀ x, b ≤ x → x < q → st s x = bv.toNat) ∧ (q = stop ∨ st s q ≠ bv.toNat)) := by
  intro f
  induction f with
  | zero => intro pc info last hi hf; omega
  | succ f ih =>
    intro pc info last hi hf hf2 hb hbs hl hrun
    unfold checkGo
    by_cases hpc : pc < stop
    · rw [if_pos hpc]
      obtain ⟨info', v, ec, hi', hv⟩ := checkVal_ok hi pc
      rw [ec]
      dsimp only
      by_cases hbr : v ≠ bv ∨ ¬ wantEnd = true
      · rw [if_pos hbr]
        refine ⟨_, rfl, ?_, ?_⟩
        · intro hw; simp [hw]
        · intro hw hnz
          obtain ⟨h1, h2⟩ := hrun hnz
          refine ⟨pc, by simp [hw], hb, h1, h2, .inr ?_⟩
          have : v ≠ bv := hbr.resolve_right (by simp [hw])
          rw [← hv]
          exact fun he => this (u32_ext he)
      · rw [if_neg hbr]
        have hveq : v = bv := by
          by_cases h : v = bv
          · exact h
          · exact absurd (.inl h) hbr
        refine ih _ info' v hi' (by omega) (by split <;> omega) (by split <;> omega) hbs hveq ?_
        intro hnz
        obtain ⟨h1, h2⟩ := hrun hnz
        have hst : st s pc = bv.toNat := by rw [← hv, hveq]
        rw [if_neg (by omega)]
        refine ⟨by omega, fun x hx1 hx2 => ?_⟩
        by_cases hxp : x = pc
        · rw [hxp, hst]
        · exact h2 x hx1 (by omega)
    · rw [if_neg hpc]
      refine ⟨_, rfl, ?_, ?_⟩
      · intro hw; simp [hw]
      · intro hw hnz
        obtain ⟨h1, h2⟩ := hrun hnz
        exact ⟨pc, by simp [hw, hl], hb, h1, h2, .inl (by omega)⟩

theorem checkGo_none {s : St} {start stop : Nat} {expect : UInt32} {wantEnd : Bool} :
    ∀ (f pc : Nat) (info : Info) (last : UInt32), InfoOk s info →
    0 < f → stop < pc + f → start ≤ pc →
    ∃ c, checkGo s stop expect wantEnd f pc info none last = some c ∧
      (c.res = true → c.badStart = none ∧ c.badEnd = none) ∧
      (c.res = false → ∃ b v, c.badStart = some b ∧ c.badState = some v ∧ pc ≤ b ∧ b < stop ∧
        v.toNat = st s b ∧ v ≠ expect ∧
        (wantEnd = true → v.toNat ≠ 0 → ∃ q, c.badEnd = some q ∧ b < q ∧ q ≤ stop ∧
          (∀ x, b ≤ x → x < q → st s x = v.toNat) ∧ (q = stop ∨ st s q ≠ v.toNat))) ∧
      ((expect.toNat ≠ 0 ∨ ∀ p, start ≤ p → p % 16 = 0 → st s p = 0 →
          ∀ i, i < 16 → p + i < stop → st s (p + i) = 0) →
        (c.res = true → ∀ x, pc ≤ x → x < stop → st s x = expect.toNat) ∧
        (c.res = false → ∀ b, c.badStart = some b →
          ∀ x, pc ≤ x → x < b → st s x = expect.toNat)) := by
  intro f
  induction f with
  | zero => intro pc info last hi hf; omega
  | succ f ih =>
    intro pc info last hi hf hf2 hsp
    unfold checkGo
    by_cases hpc : pc < stop
    · rw [if_pos hpc]
      obtain ⟨info', v, ec, hi', hv⟩ := checkVal_ok hi pc
      rw [ec]
      dsimp only
      by_cases hne : v ≠ expect
      · rw [if_pos hne]
        obtain ⟨e, h1, h2, h3⟩ := checkGo_bad (s := s) (stop := stop) (expect := expect)
          (wantEnd := wantEnd) (b := pc) (bv := v) f
          (pc + if pc % 16 = 0 ∧ st s pc = 0 then 16 else 1) info' v hi' (by omega)
          (by split <;> omega) (by split <;> omega) hpc rfl (by
            intro hnz
            rw [hv] at hnz
            rw [if_neg (by omega)]
            exact ⟨by omega, fun x h1 h2 => by rw [hv]; congr 1; omega⟩)
        refine ⟨_, h1, by simp, fun _ => ⟨pc, v, rfl, rfl, Nat.le_refl _, hpc, hv, hne, h3⟩,
          fun _ => ⟨by simp, fun _ b hb x h1 h2 => ?_⟩⟩
        simp only [Option.some.injEq] at hb
        omega
      · rw [if_neg hne]
        have hve : v = expect := by simpa using hne
        obtain ⟨c, h1, h2, h3, h4⟩ := ih
          (pc + if pc % 16 = 0 ∧ st s pc = 0 then 16 else 1) info' v hi' (by omega)
          (by split <;> omega) (by split <;> omega)
        refine ⟨c, h1, h2, ?_, ?_⟩
        · intro hr
          obtain ⟨b, v', g1, g2, g3, g4, g5⟩ := h3 hr
          exact ⟨b, v', g1, g2, by split at g3 <;> omega, g4, g5⟩
        · intro hH
          obtain ⟨k1, k2⟩ := h4 hH
          -- the bytes stepped over match
          have hskip : ∀ x, pc ≤ x → x < stop →
              x < pc + (if pc % 16 = 0 ∧ st s pc = 0 then 16 else 1) →
              st s x = expect.toNat := by
            intro x hx1 hx2 hx3
            split at hx3
            · rename_i hz
              rcases hH with hH | hH
              · exfalso; apply hH; rw [← hve, hv, hz.2]
              · have := hH pc hsp hz.1 hz.2 (x - pc) (by omega) (by omega)
                rw [show pc + (x - pc) = x by omega] at this
                rw [this, ← hve, hv, hz.2]
            · rw [show x = pc by omega, ← hv, hve]
          refine ⟨fun hr x hx1 hx2 => ?_, fun hr b hb x hx1 hx2 => ?_⟩
          · by_cases hlt : x < pc + (if pc % 16 = 0 ∧ st s pc = 0 then 16 else 1)
            · exact hskip x hx1 hx2 hlt
            · exact k1 hr x (by omega) hx2
          · by_cases hlt : x < pc + (if pc % 16 = 0 ∧ st s pc = 0 then 16 else 1)
            · obtain ⟨b', v', g1, g2, g3, g4, g5⟩ := h3 hr
              rw [hb] at g1
              simp only [Option.some.injEq] at g1
              exact hskip x hx1 (by omega) hlt
            · exact k2 hr b hb x (by omega) hx2
    · rw [if_neg hpc]
      exact ⟨_, rfl, by simp, by simp, fun _ => ⟨fun _ x h1 h2 => by omega, by simp⟩⟩

/-- C10 (no false alarm): whatever the shadow contents, when `shadow_check_range` returns false
the reported byte lies in the range, really has the reported state, and that state is not the
expected one; when a bad end is wanted and the bad state is not "defined", the reported end is the
end of the maximal run of that state (cut off at the end of the range). -/
theorem C10_sound (s : St) (start size : Nat) (expect : UInt32) (wantEnd : Bool) :
    ∃ c, checkRange s start size expect wantEnd = some c ∧
      (c.res = false → ∃ b v, c.badStart = some b ∧ c.badState = some v ∧ start ≤ b ∧
        b < start + size ∧ v.toNat = st s b ∧ v ≠ expect ∧
        (wantEnd = true → v.toNat ≠ 0 → ∃ q, c.badEnd = some q ∧ b < q ∧ q ≤ start + size ∧
          (∀ x, b ≤ x → x < q → st s x = v.toNat) ∧
          (q = start + size ∨ st s q ≠ v.toNat))) := by
  obtain ⟨c, h1, -, h3, -⟩ := checkGo_none (s := s) (start := start) (stop := start + size)
    (expect := expect) (wantEnd := wantEnd) (size + 1) start none 0 (infoOk_none s) (by omega)
    (by omega) (Nat.le_refl _)
  exact ⟨c, h1, h3⟩

/-- C10: `shadow_check_range` answers true exactly when every byte of the range has the expected
state and otherwise reports the first byte that differs, provided the expected state is not
"defined", or every 16-byte-aligned group of the range that starts with a defined byte is entirely
defined.

Full statement: without the proviso.  It is false, see `C10_missed_undefined`. -/
theorem C10_exact_partial (s : St) (start size : Nat) (expect : UInt32) (wantEnd : Bool)
    (hH : expect.toNat ≠ 0 ∨ ∀ p, start ≤ p → p % 16 = 0 → st s p = 0 →
      ∀ i, i < 16 → p + i < start + size → st s (p + i) = 0) :
    ∃ c, checkRange s start size expect wantEnd = some c ∧
      (c.res = true ↔ ∀ x, start ≤ x → x < start + size → st s x = expect.toNat) ∧
      (c.res = false → ∃ b, c.badStart = some b ∧ start ≤ b ∧ b < start + size ∧
        st s b ≠ expect.toNat ∧ ∀ x, start ≤ x → x < b → st s x = expect.toNat) := by
  obtain ⟨c, h1, -, h3, h4⟩ := checkGo_none (s := s) (start := start) (stop := start + size)
    (expect := expect) (wantEnd := wantEnd) (size + 1) start none 0 (infoOk_none s) (by omega)
    (by omega) (Nat.le_refl _)
  obtain ⟨k1, k2⟩ := h4 hH
  refine ⟨c, h1, ⟨k1, fun hall => ?_⟩, fun hr => ?_⟩
  · cases hr : c.res with
    | true => rfl
    | false =>
      obtain ⟨b, v, -, -, g1, g2, g3, g4, -⟩ := h3 hr
      exact absurd (u32_ext (by rw [g3, hall b g1 g2])) g4
  · obtain ⟨b, v, g0, -, g1, g2, g3, g4, -⟩ := h3 hr
    exact ⟨b, g0, g1, g2, fun he => g4 (u32_ext (by rw [g3, he])), k2 hr b g0⟩

/-- C10 fails: with byte 0x1000 defined and the following bytes undefined, checking
[0x1000,0x1010) for "defined" answers true: the fast path compares one byte's two-bit value with
the 16-byte pattern constant, so a defined byte at a 16-byte boundary makes the check skip the
next 15 bytes (drmemory/shadow.c:806-816). -/
theorem C10_missed_undefined :
    ∃ s, checkRange s 0x1000 16 DEFINED true =
        some { res := true, badStart := none, badState := none, badEnd := none } ∧
      st s 0x1001 = UNDEFINED.toNat :=
  ⟨wSh fun t => if t = 0x400 then 0xfc else 0xff, by decide, by decide⟩

/-- The proviso of `C10_exact_partial` holds for a non-trivial shadow: 16 defined bytes followed by
undefined ones. -/
example : let s := wSh fun t => if t < 0x404 then 0 else 0xff
    checkRange s 0x1000 0x20 DEFINED true =
      some { res := false, badStart := some 0x1010, badState := some 3, badEnd := some 0x1020 } :=
  by decide

/-- C10, backward walk: `shadow_check_range_backward` answers true exactly when the `size` bytes
`(start-size, start]` all match, and otherwise reports the highest address that does not. -/
theorem C10_backward (s : St) (expect : UInt32) : ∀ (n start : Nat) (info : Info),
    InfoOk s info → n ≤ start →
    (checkBack s expect n start info = none ↔
      ∀ x, start - n < x → x ≤ start → st s x = expect.toNat) ∧
    ∀ b, checkBack s expect n start info = some b →
      start - n < b ∧ b ≤ start ∧ st s b ≠ expect.toNat ∧
      ∀ x, b < x → x ≤ start → st s x = expect.toNat := by
  intro n
  induction n with
  | zero =>
    intro start info _ _
    exact ⟨⟨fun _ x h1 h2 => by omega, fun _ => rfl⟩, fun b hb => by simp [checkBack] at hb⟩
  | succ n ih =>
    intro start info hi hle
    obtain ⟨h1, h2⟩ := getByte_ok hi start
    have hi' : InfoOk s (getByte s info start).1 := by rw [h2]; exact infoOk_some rfl
    unfold checkBack
    by_cases hne : (getByte s info start).2 ≠ expect
    · have hst : st s start ≠ expect.toNat := by
        rw [← h1]; exact fun h => hne (u32_ext h)
      simp only [hne, ne_eq, not_false_eq_true, if_true]
      refine ⟨⟨by simp, fun h => absurd (h start (by omega) (Nat.le_refl _)) hst⟩, ?_⟩
      intro b hb
      simp only [Option.some.injEq] at hb
      subst hb
      exact ⟨by omega, Nat.le_refl _, hst, fun x h1 h2 => by omega⟩
    · have hst : st s start = expect.toNat := by
        rw [← h1]; simp only [ne_eq, Decidable.not_not] at hne; rw [hne]
      simp only [hne, ne_eq, if_false]
      obtain ⟨k1, k2⟩ := ih (start - 1) _ hi' (by omega)
      refine ⟨⟨fun h x hx1 hx2 => ?_, fun h => k1.mpr fun x hx1 hx2 => h x (by omega) (by omega)⟩,
        fun b hb => ?_⟩
      · by_cases hxs : x = start
        · rw [hxs, hst]
        · exact k1.mp h x (by omega) (by omega)
      · obtain ⟨g1, g2, g3, g4⟩ := k2 b hb
        refine ⟨by omega, by omega, g3, fun x hx1 hx2 => ?_⟩
        by_cases hxs : x = start
        · rw [hxs, hst]
        · exact g4 x hx1 (by omega)

end Verif.Shadow
