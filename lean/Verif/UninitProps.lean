import Verif.Uninit

/-
Properties C83 of `Verif.Uninit`: a use of an undefined value is excused only for the listed
reasons, and what is then taken for defined is.
-/

namespace Verif.Uninit

open Verif.Define (Sh)

/-! ### Results that do not depend on the operands: what the instructions compute -/

/-- The `k`-th part of `w` bits. -/
def lane (w k a : Nat) : Nat := a / 2 ^ (w * k) % 2 ^ w

/-- A float minus itself (IEEE 754: an infinity gives the default not-a-number, a not-a-number is
kept and made quiet, everything else gives zero). -/
def floatSelf (x : Nat) : Nat :=
  if x / 2 ^ 23 % 256 = 255 then
    if x % 2 ^ 23 = 0 then 0xffc00000 else x ||| 0x00400000
  else 0

/-- The same for a double. -/
def doubleSelf (x : Nat) : Nat :=
  if x / 2 ^ 52 % 2048 = 2047 then
    if x % 2 ^ 52 = 0 then 0xfff8000000000000 else x ||| 0x0008000000000000
  else 0

/-- The result of an instruction (by parts for packed subtractions); the flags of `and`, `test`,
`or` and `xor` are functions of it.  The floating-point subtractions are only given for equal
operands. -/
def eval : Opc → Nat → Nat → Nat → Nat
  | .and_, a, b, _ => a &&& b
  | .test, a, b, _ => a &&& b
  | .or_, a, b, _ => a ||| b
  | .xor, a, b, _ => a ^^^ b
  | .pxor, a, b, _ => a ^^^ b
  | .xorps, a, b, _ => a ^^^ b
  | .xorpd, a, b, _ => a ^^^ b
  | .psubq, a, b, k => (lane 64 k a + (2 ^ 64 - lane 64 k b)) % 2 ^ 64
  | .subps, a, _, k => floatSelf (lane 32 k a)
  | .subpd, a, _, k => doubleSelf (lane 64 k a)
  | .other, a, b, _ => a + b

/-- The value of an operand of `n` bits when the registers and the memory hold `ρ`. -/
def Src.get (n : Nat) (ρ : Nat → Nat) : Src → Nat
  | .imm v => (v % ((2 ^ n : Nat) : Int)).toNat
  | .loc id => ρ id % 2 ^ n

/-- The result is the same whatever the registers and the memory hold. -/
def Fixed (op : Opc) (s0 s1 : Src) : Prop :=
  ∀ n ρ ρ', eval op (s0.get n ρ) (s1.get n ρ) = eval op (s0.get n ρ') (s1.get n ρ')

theorem or_full (n x : Nat) (h : x < 2 ^ n) : (2 ^ n - 1) ||| x = 2 ^ n - 1 := by
  apply Nat.eq_of_testBit_eq
  intro i
  rw [Nat.testBit_or, Nat.testBit_two_pow_sub_one]
  by_cases hi : i < n
  · simp [hi]
  · have : x.testBit i = false :=
      Nat.testBit_lt_two_pow (Nat.lt_of_lt_of_le h (Nat.pow_le_pow_right (by omega) (by omega)))
    simp [hi, this]

theorem get_zero (n : Nat) (ρ : Nat → Nat) : (Src.imm 0).get n ρ = 0 := by simp [Src.get]

theorem get_ones (n : Nat) (ρ : Nat → Nat) : (Src.imm (-1)).get n ρ = 2 ^ n - 1 := by
  have hp : 0 < 2 ^ n := Nat.pow_pos (by omega)
  have : (-1 : Int) % ((2 ^ n : Nat) : Int) = ((2 ^ n : Nat) : Int) - 1 := by
    rw [Int.emod_eq_iff (by omega)]
    refine ⟨by omega, by omega, ?_⟩
    exact ⟨1, by omega⟩
  show ((-1 : Int) % ((2 ^ n : Nat) : Int)).toNat = _
  rw [this]
  omega

theorem get_lt (n : Nat) (ρ : Nat → Nat) (s : Src) : s.get n ρ < 2 ^ n := by
  have hp : 0 < 2 ^ n := Nat.pow_pos (by omega)
  cases s with
  | imm v =>
    show ((v : Int) % ((2 ^ n : Nat) : Int)).toNat < 2 ^ n
    have h1 := Int.emod_nonneg v (b := ((2 ^ n : Nat) : Int)) (by omega)
    have h2 := Int.emod_lt_of_pos v (b := ((2 ^ n : Nat) : Int)) (by omega)
    omega
  | loc id => exact Nat.mod_lt _ hp

/-- The result of an instruction that is said to be always defined does not depend on what the
registers and the memory hold, floating-point subtractions apart, and outside of the modules for
which option -check_uninit_blocklist asks for it.

Missing: subps and subpd, for which it is wrong, see `C83_result_float`. -/
theorem C83_result_partial (natively : Bool) (op : Opc) (s0 s1 : Src)
    (hf : op ≠ .subps ∧ op ≠ .subpd)
    (h : alwaysDefined natively false op s0 s1 = true) : Fixed op s0 s1 := by
  intro n ρ ρ'
  simp only [alwaysDefined, Bool.and_false, Bool.false_or, Bool.or_eq_true, Bool.and_eq_true,
    decide_eq_true_eq] at h
  funext k
  rcases h with ((⟨rfl, rfl⟩ | ⟨rfl, rfl⟩) | ⟨rfl, rfl⟩) | ⟨hc, rfl⟩
  · simp only [eval, get_zero, Nat.zero_and]
  · simp only [eval, get_zero, Nat.and_zero]
  · simp only [eval, get_ones, or_full _ _ (get_lt _ _ _)]
  · have hl : ∀ a k, lane 64 k a < 2 ^ 64 := fun a k => Nat.mod_lt _ (Nat.pow_pos (by omega))
    have hs : ∀ a k, (lane 64 k a + (2 ^ 64 - lane 64 k a)) % 2 ^ 64 = 0 := by
      intro a k
      have := hl a k
      rw [show lane 64 k a + (2 ^ 64 - lane 64 k a) = 2 ^ 64 by omega, Nat.mod_self]
    cases op with
    | xor => simp only [eval, Nat.xor_self]
    | pxor => simp only [eval, Nat.xor_self]
    | xorps => simp only [eval, Nat.xor_self]
    | xorpd => simp only [eval, Nat.xor_self]
    | psubq => simp only [eval, hs]
    | subps => exact absurd rfl hf.1
    | subpd => exact absurd rfl hf.2
    | _ => cases hc

example : alwaysDefined false false .or_ (.imm (-1)) (.loc 3) = true ∧ Fixed .or_ (.imm (-1)) (.loc 3) :=
  ⟨by decide, C83_result_partial false _ _ _ (by decide) (by decide)⟩

/-- A floating-point subtraction of a register from itself is said to be always defined, but its
result depends on the register: it is not zero for an infinity. -/
theorem C83_result_float :
    (∀ op ∈ [Opc.subps, Opc.subpd], ∀ b i, alwaysDefined b false op (.loc i) (.loc i) = true) ∧
    (∀ op ∈ [Opc.subps, Opc.subpd], ∀ i, ¬ Fixed op (.loc i) (.loc i)) := by
  constructor
  · intro op hop b i
    simp only [List.mem_cons, List.not_mem_nil, or_false] at hop
    rcases hop with rfl | rfl <;> simp [alwaysDefined, Opc.clearsSelf]
  · intro op hop i hf
    simp only [List.mem_cons, List.not_mem_nil, or_false] at hop
    rcases hop with rfl | rfl
    · have := congrFun (hf 32 (fun _ => 0x7f800000) (fun _ => 0)) 0
      revert this
      simp only [eval, Src.get]
      decide +kernel
    · have := congrFun (hf 64 (fun _ => 0x7ff0000000000000) (fun _ => 0)) 0
      revert this
      simp only [eval, Src.get]
      decide +kernel

/-- Which instructions have operands as the decoder gives them: an immediate is the first source
of `and` and `or` and the second of `test`, and packed instructions have none. -/
def Shape (op : Opc) (s0 s1 : Src) : Prop :=
  match op with
  | .test => ∃ i, s0 = .loc i
  | .and_ => ∃ i, s1 = .loc i
  | .or_ => ∃ i, s1 = .loc i
  | .xor => ∃ i, s1 = .loc i
  | .pxor => (∃ i, s0 = .loc i) ∧ ∃ j, s1 = .loc j
  | .xorps => (∃ i, s0 = .loc i) ∧ ∃ j, s1 = .loc j
  | .xorpd => (∃ i, s0 = .loc i) ∧ ∃ j, s1 = .loc j
  | .psubq => (∃ i, s0 = .loc i) ∧ ∃ j, s1 = .loc j
  | _ => False

theorem two_pow_big (m : Nat) : m < 2 ^ (m + 1) :=
  Nat.lt_of_lt_of_le (Nat.lt_two_pow_self) (Nat.pow_le_pow_right (by omega) (by omega))

/-- An immediate other than zero is not zero with enough bits, and one other than minus one is
not all ones. -/
theorem imm_big (v : Int) (ρ : Nat → Nat) :
    (v ≠ 0 → (Src.imm v).get (v.natAbs + 1) ρ ≠ 0) ∧
    (v ≠ -1 → (Src.imm v).get (v.natAbs + 1) ρ ≠ 2 ^ (v.natAbs + 1) - 1) := by
  have hb := two_pow_big v.natAbs
  have h2 : v.natAbs + 1 ≤ 2 ^ v.natAbs := Nat.lt_two_pow_self
  have h3 : 2 ^ (v.natAbs + 1) = 2 ^ v.natAbs * 2 := Nat.pow_succ _ _
  simp only [Src.get]
  generalize hN : 2 ^ (v.natAbs + 1) = N at *
  by_cases hv : 0 ≤ v
  · have : v % (N : Int) = v := Int.emod_eq_of_lt hv (by omega)
    rw [this]
    constructor <;> intro h <;> omega
  · have : v % (N : Int) = v + N := by
      rw [Int.emod_eq_iff (by omega)]
      exact ⟨by omega, by omega, ⟨1, by omega⟩⟩
    rw [this]
    constructor <;> intro h <;> omega

theorem get_loc_zero (n i : Nat) : (Src.loc i).get n (fun _ => 0) = 0 := by simp [Src.get]

theorem get_loc_ones (n i : Nat) : (Src.loc i).get n (fun _ => 2 ^ n - 1) = 2 ^ n - 1 := by
  have hp : 0 < 2 ^ n := Nat.pow_pos (by omega)
  show (2 ^ n - 1) % 2 ^ n = _
  exact Nat.mod_eq_of_lt (by omega)

theorem and_full (n x : Nat) (h : x < 2 ^ n) : x &&& (2 ^ n - 1) = x := by
  rw [Nat.and_two_pow_sub_one_eq_mod, Nat.mod_eq_of_lt h]

/-- Nothing is said to be always defined that could have been left out: an integer instruction
that is not said to be always defined has a result that does depend on what the registers and
the memory hold. -/
theorem C83_result_only (natively : Bool) (op : Opc) (s0 s1 : Src) (hs : Shape op s0 s1)
    (h : alwaysDefined natively false op s0 s1 = false) : ¬ Fixed op s0 s1 := by
  intro hf
  simp only [alwaysDefined, Bool.and_false, Bool.false_or, Bool.or_eq_false_iff] at h
  obtain ⟨⟨⟨h1, h2⟩, h3⟩, h4⟩ := h
  have xorcase : ∀ (i : Nat) (s0 : Src), s0 ≠ .loc i →
      (∀ n ρ ρ', (s0.get n ρ ^^^ (Src.loc i).get n ρ) = (s0.get n ρ' ^^^ (Src.loc i).get n ρ')) →
      False := by
    intro i s0 hne hx
    have := hx 1 (fun _ => 0) (fun j => if j = i then 1 else 0)
    cases s0 with
    | imm v =>
      simp only [Src.get, if_true, Nat.zero_mod, Nat.xor_zero] at this
      have hl := get_lt 1 (fun _ => 0) (.imm v)
      simp only [Src.get] at hl
      generalize (v % ((2 ^ 1 : Nat) : Int)).toNat = y at *
      have : y = 0 ∨ y = 1 := by omega
      rcases this with rfl | rfl <;> simp at this
    | loc j =>
      have hji : j ≠ i := fun e => hne (by rw [e])
      simp [Src.get, hji] at this
  cases op with
  | and_ =>
    obtain ⟨i, rfl⟩ := hs
    cases s0 with
    | imm v =>
      have hv : v ≠ 0 := by intro e; subst e; simp at h1
      have hb := (imm_big v (fun _ => 0)).1 hv
      have := congrFun (hf (v.natAbs + 1) (fun _ => 2 ^ (v.natAbs + 1) - 1) (fun _ => 0)) 0
      simp only [eval, get_loc_zero, get_loc_ones, Nat.and_zero] at this
      rw [and_full _ _ (get_lt _ _ _)] at this
      exact hb this
    | loc j =>
      have := congrFun (hf 1 (fun _ => 1) (fun _ => 0)) 0
      simp [eval, Src.get] at this
  | test =>
    obtain ⟨i, rfl⟩ := hs
    cases s1 with
    | imm v =>
      have hv : v ≠ 0 := by intro e; subst e; simp at h2
      have hb := (imm_big v (fun _ => 0)).1 hv
      have := congrFun (hf (v.natAbs + 1) (fun _ => 2 ^ (v.natAbs + 1) - 1) (fun _ => 0)) 0
      simp only [eval, get_loc_zero, get_loc_ones, Nat.zero_and] at this
      rw [Nat.and_comm, and_full _ _ (get_lt _ _ _)] at this
      exact hb this
    | loc j =>
      have := congrFun (hf 1 (fun _ => 1) (fun _ => 0)) 0
      simp [eval, Src.get] at this
  | or_ =>
    obtain ⟨i, rfl⟩ := hs
    cases s0 with
    | imm v =>
      have hv : v ≠ -1 := by intro e; subst e; simp at h3
      have hb := (imm_big v (fun _ => 0)).2 hv
      have := congrFun (hf (v.natAbs + 1) (fun _ => 0) (fun _ => 2 ^ (v.natAbs + 1) - 1)) 0
      simp only [eval, get_loc_zero, get_loc_ones, Nat.or_zero] at this
      rw [Nat.or_comm, or_full _ _ (get_lt _ _ _)] at this
      exact hb this
    | loc j =>
      have := congrFun (hf 1 (fun _ => 1) (fun _ => 0)) 0
      simp [eval, Src.get] at this
  | xor =>
    obtain ⟨i, rfl⟩ := hs
    refine xorcase i s0 (fun e => by subst e; simp [Opc.clearsSelf] at h4) ?_
    intro n ρ ρ'
    exact congrFun (hf n ρ ρ') 0
  | pxor =>
    obtain ⟨-, i, rfl⟩ := hs
    refine xorcase i s0 (fun e => by subst e; simp [Opc.clearsSelf] at h4) ?_
    intro n ρ ρ'
    exact congrFun (hf n ρ ρ') 0
  | xorps =>
    obtain ⟨-, i, rfl⟩ := hs
    refine xorcase i s0 (fun e => by subst e; simp [Opc.clearsSelf] at h4) ?_
    intro n ρ ρ'
    exact congrFun (hf n ρ ρ') 0
  | xorpd =>
    obtain ⟨-, i, rfl⟩ := hs
    refine xorcase i s0 (fun e => by subst e; simp [Opc.clearsSelf] at h4) ?_
    intro n ρ ρ'
    exact congrFun (hf n ρ ρ') 0
  | psubq =>
    obtain ⟨⟨i, rfl⟩, j, rfl⟩ := hs
    have hij : j ≠ i := fun e => by subst e; simp [Opc.clearsSelf] at h4
    have := congrFun (hf 1 (fun _ => 0) (fun x => if x = i then 1 else 0)) 0
    simp [eval, Src.get, lane, hij] at this
  | _ => exact hs.elim

example : Shape .and_ (.imm 256) (.loc 0) ∧ ¬ Fixed .and_ (.imm 256) (.loc 0) :=
  ⟨⟨0, rfl⟩, C83_result_only false _ _ _ ⟨0, rfl⟩ (by decide)⟩

/-- In the modules of option -check_uninit_blocklist every result is taken for defined, except
when it is asked what the processor does. -/
theorem C83_result_listed (op : Opc) (s0 s1 : Src) :
    alwaysDefined false true op s0 s1 = true ∧
    alwaysDefined true true op s0 s1 = alwaysDefined true false op s0 s1 := by
  constructor <;> simp [alwaysDefined]

/-! ### Registers -/

/-- The code just before an address ends in these bytes. -/
def Ends (e : Env) (pc : Nat) (bs : List Nat) : Prop :=
  ∃ a, a + bs.length = pc ∧ ∀ (k : Nat) (b : Nat), bs[k]? = some b → e.code (a + k) = some b

/-- The code of a glibc string routine that looks for the end of a string a word at a time, at
the place where the undefined bytes beyond the end are used, with the lowest byte of the word
defined. -/
inductive Glibc (e : Env) (s : Regs) (pc : Nat) : Reg → Use → Prop
  /-- `mov $0xfefefeff -> %edi`, then the xor. -/
  | rawXor (h : e.isUnix = true) (hm : e.nonMoves = true)
      (hb : Ends e pc [0xbf, 0xff, 0xfe, 0xfe, 0xfe]) : Glibc e s pc .ecx .xor
  /-- The same with `xor %edx %ecx -> %ecx` and `add %ecx %edi -> %edi`, then the branch. -/
  | rawJnb (h : e.isUnix = true) (hm : e.nonMoves = false)
      (hb : Ends e pc [0xbf, 0xff, 0xfe, 0xfe, 0xfe, 0x31, 0xd1, 0x01, 0xcf])
      (hl : s .ecx % 4 = 0) : Glibc e s pc .flags .jnb
  /-- An addition of the word to 0xfefefeff, then the branch. -/
  | add (q : Nat) (r : Reg) (h : e.isUnix = true) (hq : q + 1 = pc)
      (hb : Ends e q [0xff, 0xfe, 0xfe, 0xfe, 0x01])
      (hr : e.src0 (pc - 2) = some r) (hl : s r % 4 = 0) : Glibc e s pc .flags .jnb
  /-- `or $0xfefefeff %edi -> %edi` and `inc %edi`, then a branch. -/
  | orEdi (u : Use) (h : e.isUnix = true) (hu : u = .jnb ∨ u = .jz ∨ u = .cbr)
      (hb : Ends e pc [0x81, 0xcf, 0xff, 0xfe, 0xfe, 0xfe, 0x47])
      (hl : s .edi % 4 = 0) : Glibc e s pc .flags u
  /-- The same with `%edx`. -/
  | orEdx (u : Use) (h : e.isUnix = true) (hu : u = .jnb ∨ u = .jz ∨ u = .cbr)
      (hb : Ends e pc [0x81, 0xca, 0xff, 0xfe, 0xfe, 0xfe, 0x42])
      (hl : s .edx % 4 = 0) : Glibc e s pc .flags u

/-- The inlined strlen of mingw. -/
def Mingw (e : Env) (pc : Nat) (reg : Reg) (u : Use) : Prop :=
  reg = .flags ∧ u = .jz ∧
  Ends e pc [0xfe, 0xfe, 0xfe, 0xf7, 0xd2, 0x21, 0xd0, 0x25, 0x80, 0x80, 0x80, 0x80]

theorem bytesAt_iff (code : Nat → Option Nat) (bs : List Nat) : ∀ a,
    bytesAt code a bs = true ↔ ∀ (k : Nat) (b : Nat), bs[k]? = some b → code (a + k) = some b := by
  induction bs with
  | nil => intro a; simp [bytesAt]
  | cons c cs ih =>
    intro a
    simp only [bytesAt, Bool.and_eq_true, decide_eq_true_eq, ih]
    constructor
    · rintro ⟨h1, h2⟩ k b hk
      cases k with
      | zero =>
        simp only [List.getElem?_cons_zero, Option.some.injEq] at hk
        subst hk
        exact h1
      | succ k =>
        have := h2 k b (by simpa using hk)
        rw [← this]
        congr 1
        omega
    · intro h
      refine ⟨h 0 c rfl, ?_⟩
      intro k b hk
      have := h (k + 1) b (by simpa using hk)
      rw [← this]
      congr 1
      omega

theorem before_iff (e : Env) (pc skip : Nat) (bs : List Nat) :
    e.before pc skip bs = true ↔ ∃ q, q + skip = pc ∧ Ends e q bs := by
  simp only [Env.before, Bool.and_eq_true, decide_eq_true_eq, bytesAt_iff]
  constructor
  · rintro ⟨h1, h2⟩
    exact ⟨pc - skip, by omega, pc - skip - bs.length, by omega, h2⟩
  · rintro ⟨q, hq, a, ha, h⟩
    refine ⟨by omega, ?_⟩
    rw [show pc - skip - bs.length = a by omega]
    exact h

theorem before_zero (e : Env) (pc : Nat) (bs : List Nat) :
    e.before pc 0 bs = true ↔ Ends e pc bs := by
  rw [before_iff]
  constructor
  · rintro ⟨q, hq, h⟩
    rw [show pc = q by omega]
    exact h
  · intro h
    exact ⟨pc, by omega, h⟩

theorem ends_differ (e : Env) (pc : Nat) (h1 : Ends e pc strrchr1) (h2 : Ends e pc strrchr2) :
    False := by
  obtain ⟨a, ha, h⟩ := h1
  obtain ⟨b, hb, g⟩ := h2
  have hab : a = b := by
    have l1 : strrchr1.length = 7 := rfl
    have l2 : strrchr2.length = 7 := rfl
    omega
  subst hab
  have e1 := h 1 0xcf rfl
  have e2 := g 1 0xca rfl
  rw [e1] at e2
  simp at e2

theorem isCbr_iff (u : Use) : u.isCbr = true ↔ (u = .jnb ∨ u = .jz ∨ u = .cbr) := by
  cases u <;> simp [Use.isCbr]

/-- What `is_rawmemchr_uninit` and `is_strrchr_uninit` do together. -/
theorem glibc_run (e : Env) (s : Regs) (pc : Nat) (reg : Reg) (u : Use) (hx : e.isUnix = true) :
    (Glibc e s pc reg u ∧
      ((e.rawmemchr s pc reg u = (true, define s reg)) ∨
       (e.rawmemchr s pc reg u = (false, s) ∧ e.strrchr s pc reg u = (true, define s reg)))) ∨
    (¬ Glibc e s pc reg u ∧ e.rawmemchr s pc reg u = (false, s) ∧
      e.strrchr s pc reg u = (false, s)) := by
  have dd : define (define s .flags) .flags = define s .flags := by
    funext x; simp only [define]; split <;> rfl
  by_cases hraw : (e.rawmemchr s pc reg u).1 = true
  · left
    unfold Env.rawmemchr at hraw ⊢
    by_cases hm : e.nonMoves = true
    · rw [if_pos hm] at hraw ⊢
      by_cases hc : reg = .ecx ∧ u = .xor ∧ e.before pc 0 rawShort
      · obtain ⟨rfl, rfl, hb⟩ := hc
        rw [if_pos ⟨rfl, rfl, hb⟩]
        exact ⟨.rawXor hx hm ((before_zero _ _ _).1 hb), Or.inl rfl⟩
      · rw [if_neg hc] at hraw
        cases hraw
    · rw [if_neg hm] at hraw ⊢
      by_cases hc : reg = .flags ∧ u = .jnb ∧ e.before pc 0 rawLong ∧ lowDefined (s .ecx)
      · obtain ⟨rfl, rfl, hb, hl⟩ := hc
        rw [if_pos ⟨rfl, rfl, hb, hl⟩]
        refine ⟨.rawJnb hx (by simpa using hm) ((before_zero _ _ _).1 hb) ?_, Or.inl rfl⟩
        simpa [lowDefined] using hl
      · rw [if_neg hc] at hraw
        cases hraw
  · have hr : e.rawmemchr s pc reg u = (false, s) := by
      unfold Env.rawmemchr at hraw ⊢
      split
      · rename_i hm
        rw [if_pos hm] at hraw
        split
        · rename_i hc; rw [if_pos hc] at hraw; exact absurd rfl hraw
        · rfl
      · rename_i hm
        rw [if_neg hm] at hraw
        split
        · rename_i hc; rw [if_pos hc] at hraw; exact absurd rfl hraw
        · rfl
    have nraw : ∀ (h : e.nonMoves = true), ¬ (reg = .ecx ∧ u = .xor ∧ Ends e pc rawShort) := by
      rintro hm ⟨h1, h2, h3⟩
      apply hraw
      unfold Env.rawmemchr
      rw [if_pos hm, if_pos ⟨h1, h2, (before_zero _ _ _).2 h3⟩]
    have nraw2 : ∀ (h : e.nonMoves = false),
        ¬ (reg = .flags ∧ u = .jnb ∧ Ends e pc rawLong ∧ s .ecx % 4 = 0) := by
      rintro hm ⟨h1, h2, h3, h4⟩
      apply hraw
      unfold Env.rawmemchr
      rw [if_neg (by simp [hm]), if_pos ⟨h1, h2, (before_zero _ _ _).2 h3, by simp [lowDefined, h4]⟩]
    -- the first half of strrchr
    have hadd : ((∃ q r, reg = .flags ∧ u = .jnb ∧ q + 1 = pc ∧ Ends e q strRoutine ∧
          e.src0 (pc - 2) = some r ∧ s r % 4 = 0) ∧ e.strAdd s pc reg u = (true, define s .flags)) ∨
        ((¬ ∃ q r, reg = .flags ∧ u = .jnb ∧ q + 1 = pc ∧ Ends e q strRoutine ∧
          e.src0 (pc - 2) = some r ∧ s r % 4 = 0) ∧ e.strAdd s pc reg u = (false, s)) := by
      unfold Env.strAdd
      by_cases hc : reg = .flags ∧ u = .jnb ∧ e.before pc 1 strRoutine
      · rw [if_pos hc]
        obtain ⟨h1, h2, h3⟩ := hc
        obtain ⟨q, hq, he⟩ := (before_iff _ _ _ _).1 h3
        cases hs : e.src0 (pc - 2) with
        | none =>
          right
          refine ⟨?_, rfl⟩
          rintro ⟨q', r, -, -, -, -, h, -⟩
          cases h
        | some r =>
          dsimp only
          by_cases hl : lowDefined (s r) = true
          · left
            rw [if_pos hl]
            exact ⟨⟨q, r, h1, h2, hq, he, rfl, by simpa [lowDefined] using hl⟩, rfl⟩
          · right
            rw [if_neg hl]
            refine ⟨?_, rfl⟩
            rintro ⟨q', r', -, -, -, -, h, hl'⟩
            cases h
            exact hl (by simp [lowDefined, hl'])
      · right
        rw [if_neg hc]
        refine ⟨?_, rfl⟩
        rintro ⟨q, r, h1, h2, hq, he, -, -⟩
        exact hc ⟨h1, h2, (before_iff _ _ _ _).2 ⟨q, hq, he⟩⟩
    -- the second half
    have hor : ∀ (b : Bool) (s' : Regs), s' .edx = s .edx → s' .edi = s .edi →
        ((reg = .flags ∧ (u = .jnb ∨ u = .jz ∨ u = .cbr) ∧
          ((Ends e pc strrchr1 ∧ s .edi % 4 = 0) ∨ (Ends e pc strrchr2 ∧ s .edx % 4 = 0))) ∧
          e.strOr b s' pc reg u = (true, define s' .flags)) ∨
        ((¬ (reg = .flags ∧ (u = .jnb ∨ u = .jz ∨ u = .cbr) ∧
          ((Ends e pc strrchr1 ∧ s .edi % 4 = 0) ∨ (Ends e pc strrchr2 ∧ s .edx % 4 = 0)))) ∧
          e.strOr b s' pc reg u = (b, s')) := by
      intro b s' hdx hdi
      unfold Env.strOr
      by_cases hc : reg = .flags ∧ u.isCbr ∧ (e.before pc 0 strrchr1 ∨ e.before pc 0 strrchr2)
      · rw [if_pos hc]
        obtain ⟨h1, h2, h3⟩ := hc
        rw [isCbr_iff] at h2
        dsimp only
        by_cases h4 : e.before pc 0 strrchr2 = true
        · rw [if_pos h4, hdx]
          have h5 := (before_zero _ _ _).1 h4
          by_cases hl : lowDefined (s .edx) = true
          · left
            rw [if_pos hl]
            exact ⟨⟨h1, h2, Or.inr ⟨h5, by simpa [lowDefined] using hl⟩⟩, rfl⟩
          · right
            rw [if_neg hl]
            refine ⟨?_, rfl⟩
            rintro ⟨-, -, ⟨h6, -⟩ | ⟨-, h6⟩⟩
            · exact ends_differ e pc h6 h5
            · exact hl (by simp [lowDefined, h6])
        · rw [if_neg h4, hdi]
          have h5 : e.before pc 0 strrchr1 = true := h3.resolve_right h4
          by_cases hl : lowDefined (s .edi) = true
          · left
            rw [if_pos hl]
            exact ⟨⟨h1, h2, Or.inl ⟨(before_zero _ _ _).1 h5, by simpa [lowDefined] using hl⟩⟩, rfl⟩
          · right
            rw [if_neg hl]
            refine ⟨?_, rfl⟩
            rintro ⟨-, -, ⟨-, h6⟩ | ⟨h6, -⟩⟩
            · exact hl (by simp [lowDefined, h6])
            · exact h4 ((before_zero _ _ _).2 h6)
      · right
        rw [if_neg hc]
        refine ⟨?_, rfl⟩
        rintro ⟨h1, h2, h3⟩
        apply hc
        refine ⟨h1, (isCbr_iff u).2 h2, ?_⟩
        rcases h3 with ⟨h3, -⟩ | ⟨h3, -⟩
        · exact Or.inl ((before_zero _ _ _).2 h3)
        · exact Or.inr ((before_zero _ _ _).2 h3)
    have hfl : (define s .flags) .edx = s .edx ∧ (define s .flags) .edi = s .edi := by
      constructor <;> simp [define]
    rcases hadd with ⟨⟨q, r, h1, h2, hq, he, hs, hl⟩, ha⟩ | ⟨hna, ha⟩
    · left
      subst h1; subst h2
      refine ⟨.add q r hx hq he hs hl, Or.inr ⟨hr, ?_⟩⟩
      unfold Env.strrchr
      rw [ha]
      rcases hor true (define s .flags) hfl.1 hfl.2 with ⟨-, ho⟩ | ⟨-, ho⟩
      · dsimp only
        rw [ho, dd]
      · exact ho
    · rcases hor false s rfl rfl with ⟨⟨h1, h2, h3⟩, ho⟩ | ⟨hno, ho⟩
      · left
        subst h1
        refine ⟨?_, Or.inr ⟨hr, ?_⟩⟩
        · rcases h3 with ⟨h3, h4⟩ | ⟨h3, h4⟩
          · exact .orEdi u hx h2 h3 h4
          · exact .orEdx u hx h2 h3 h4
        · unfold Env.strrchr
          rw [ha]
          exact ho
      · right
        refine ⟨?_, hr, ?_⟩
        · intro hg
          cases hg with
          | rawXor _ hm hb => exact nraw hm ⟨rfl, rfl, hb⟩
          | rawJnb _ hm hb hl => exact nraw2 hm ⟨rfl, rfl, hb, hl⟩
          | add q r _ hq hb hs hl => exact hna ⟨q, r, rfl, rfl, hq, hb, hs, hl⟩
          | orEdi _ _ hu hb hl => exact hno ⟨rfl, hu, Or.inl ⟨hb, hl⟩⟩
          | orEdx _ _ hu hb hl => exact hno ⟨rfl, hu, Or.inr ⟨hb, hl⟩⟩
        · unfold Env.strrchr
          rw [ha]
          exact ho

theorem strlen_iff (e : Env) (pc : Nat) (reg : Reg) (u : Use) :
    e.strlen pc reg u = true ↔ Mingw e pc reg u := by
  simp only [Env.strlen, Bool.and_eq_true, decide_eq_true_eq, before_zero, Mingw, and_assoc]
  exact Iff.rfl

/-- The use of an undefined register or of undefined flags is excused exactly in the listed
string routines, and the register then counts as defined from there on (for the routine of mingw
nothing changes); when it is not excused, nothing changes. -/
theorem C83_reg (e : Env) (s : Regs) (pc : Nat) (reg : Reg) (u : Use) :
    ((e.checkReg s (some pc) reg u).1 = true ↔ Glibc e s pc reg u ∨ Mingw e pc reg u) ∧
    (Glibc e s pc reg u → (e.checkReg s (some pc) reg u).2 = define s reg) ∧
    (¬ Glibc e s pc reg u → (e.checkReg s (some pc) reg u).2 = s) := by
  simp only [Env.checkReg]
  by_cases hx : e.isUnix = true
  · rw [if_pos hx]
    rcases glibc_run e s pc reg u hx with ⟨hg, h | ⟨h, h'⟩⟩ | ⟨hg, h, h'⟩
    · rw [h]
      simp [hg]
    · rw [h]
      simp [h', hg]
    · rw [h]
      simp [h', hg, strlen_iff]
  · rw [if_neg hx]
    have hg : ¬ Glibc e s pc reg u := by
      intro hg
      cases hg <;> exact hx ‹_›
    simp [hg, strlen_iff]

/-- A system call is never excused. -/
theorem C83_reg_syscall (e : Env) (s : Regs) (reg : Reg) (u : Use) :
    e.checkReg s none reg u = (false, s) := rfl

/-- Code bytes for the examples. -/
def codeOf (base : Nat) (bs : List Nat) : Nat → Option Nat :=
  fun a => if base ≤ a then bs[a - base]? else none

theorem ends_codeOf (base : Nat) (bs : List Nat) (e : Env) (h : e.code = codeOf base bs) :
    Ends e (base + bs.length) bs := by
  refine ⟨base, rfl, ?_⟩
  intro k b hk
  rw [h]
  simp only [codeOf]
  rw [if_pos (by omega), show base + k - base = k by omega, hk]

example (s : Regs) (hs : s .ecx = 0xfc) (e : Env) (hx : e.isUnix = true) (hm : e.nonMoves = false)
    (hc : e.code = codeOf 0x1000 [0xbf, 0xff, 0xfe, 0xfe, 0xfe, 0x31, 0xd1, 0x01, 0xcf]) :
    (e.checkReg s (some 0x1009) .flags .jnb).1 = true :=
  (C83_reg e s 0x1009 .flags .jnb).1.2
    (Or.inl (.rawJnb hx hm (ends_codeOf 0x1000 _ e hc) (by rw [hs])))

/-- On Linux, flags are only excused when the lowest byte of some register of the routine is
defined, that is, when the string does not begin with the undefined byte; the register of the
xor is excused whatever is defined. -/
theorem C83_reg_low (e : Env) (s : Regs) (pc : Nat) (u : Use) (h : Glibc e s pc .flags u) :
    ∃ r, s r % 4 = 0 := by
  cases h with
  | rawJnb _ _ _ hl => exact ⟨_, hl⟩
  | add _ r _ _ _ _ hl => exact ⟨r, hl⟩
  | orEdi _ _ _ _ hl => exact ⟨_, hl⟩
  | orEdx _ _ _ _ hl => exact ⟨_, hl⟩

/-- The inlined strlen of mingw is excused even when every byte of every register is undefined,
so the use of a string that was never written is not reported. -/
theorem C83_reg_strlen (e : Env) (s : Regs) (pc : Nat) (hall : ∀ r, s r = 0xff)
    (h : Ends e pc [0xfe, 0xfe, 0xfe, 0xf7, 0xd2, 0x21, 0xd0, 0x25, 0x80, 0x80, 0x80, 0x80]) :
    e.checkReg s (some pc) .flags .jz = (true, s) := by
  have h1 := (C83_reg e s pc .flags .jz).1.2 (Or.inr ⟨rfl, rfl, h⟩)
  have h2 := (C83_reg e s pc .flags .jz).2.2 (by
    intro hg
    obtain ⟨r, hr⟩ := C83_reg_low e s pc .jz hg
    rw [hall r] at hr
    simp at hr)
  exact Prod.ext h1 h2

example (e : Env) (hc : e.code = codeOf 0x1000
    [0xfe, 0xfe, 0xfe, 0xf7, 0xd2, 0x21, 0xd0, 0x25, 0x80, 0x80, 0x80, 0x80]) :
    e.checkReg (fun _ => 0xff) (some 0x100c) .flags .jz = (true, fun _ => 0xff) :=
  C83_reg_strlen e _ _ (fun _ => rfl) (ends_codeOf 0x1000 _ e hc)

/-- Only conditional branches and the xor are ever excused, and only for the flags and `ecx`. -/
theorem C83_reg_other (e : Env) (s : Regs) (pc : Nat) (reg : Reg) (u : Use)
    (h : (e.checkReg s (some pc) reg u).1 = true) :
    (reg = .flags ∧ (u = .jnb ∨ u = .jz ∨ u = .cbr)) ∨
    (reg = .ecx ∧ u = .xor ∧ e.isUnix = true ∧ e.nonMoves = true) := by
  rcases (C83_reg e s pc reg u).1.1 h with hg | ⟨h1, h2, -⟩
  · cases hg with
    | rawXor hx hm hb => exact Or.inr ⟨rfl, rfl, hx, hm⟩
    | rawJnb => exact Or.inl ⟨rfl, Or.inl rfl⟩
    | add => exact Or.inl ⟨rfl, Or.inl rfl⟩
    | orEdi _ _ hu => exact Or.inl ⟨rfl, hu⟩
    | orEdx _ _ hu => exact Or.inl ⟨rfl, hu⟩
  · exact Or.inl ⟨h1, Or.inr (Or.inl h2)⟩

/-! ### Copies through floating-point registers -/

/-- An instruction that the search passes over or stops at with success. -/
def Plain (i : Ins) : Prop := i.cti = false ∧ i.sys = false ∧ i.valid = true

/-- The total length. -/
def lens (is : List Ins) : Nat := (is.map (·.len)).sum

theorem plain_iff (i : Ins) : ¬ (i.cti ∨ i.sys ∨ ¬ i.valid) ↔ Plain i := by
  unfold Plain
  cases i.cti <;> cases i.sys <;> cases i.valid <;> simp

theorem findStore_iff (x : Reg) (is : List Ins) : ∀ (pc : Nat) (pre : List Ins) (r : List Ins × Mem × Nat),
    findStore x is pc pre = some r ↔
      ∃ mid i rest m, is = mid ++ i :: rest ∧
        (∀ j ∈ mid, Plain j ∧ (∀ m', j.fstp ≠ some (x, m')) ∧ j.len < 128) ∧
        Plain i ∧ i.fstp = some (x, m) ∧ r = (pre ++ mid, m, pc + lens mid) := by
  induction is with
  | nil =>
    intro pc pre r
    simp [findStore]
  | cons i rest ih =>
    intro pc pre r
    simp only [findStore]
    by_cases hp : i.cti ∨ i.sys ∨ ¬ i.valid
    · rw [if_pos hp]
      constructor
      · intro h; cases h
      · rintro ⟨mid, j, rest', m, he, hm, hj, -, -⟩
        exfalso
        cases mid with
        | nil =>
          simp only [List.nil_append, List.cons.injEq] at he
          exact (plain_iff i).2 (he.1 ▸ hj) hp
        | cons k mid' =>
          simp only [List.cons_append, List.cons.injEq] at he
          exact (plain_iff i).2 (he.1 ▸ (hm k (List.mem_cons_self ..)).1) hp
    · rw [if_neg hp]
      have hpl := (plain_iff i).1 hp
      have hcont : (¬ ∃ m', i.fstp = some (x, m')) →
          ((if pc + i.len < pc + maxDistance then findStore x rest (pc + i.len) (pre ++ [i]) else none)
            = some r ↔
          ∃ mid j rest' m, i :: rest = mid ++ j :: rest' ∧
            (∀ k ∈ mid, Plain k ∧ (∀ m', k.fstp ≠ some (x, m')) ∧ k.len < 128) ∧
            Plain j ∧ j.fstp = some (x, m) ∧ r = (pre ++ mid, m, pc + lens mid)) := by
        intro hns
        have hmd : maxDistance = 128 := rfl
        constructor
        · intro h
          by_cases hl : pc + i.len < pc + maxDistance
          · rw [if_pos hl] at h
            obtain ⟨mid, j, rest', m, he, hm, hj, hf, hr⟩ := (ih _ _ _).1 h
            refine ⟨i :: mid, j, rest', m, by rw [he]; rfl, ?_, hj, hf, ?_⟩
            · intro k hk
              rcases List.mem_cons.1 hk with rfl | hk
              · exact ⟨hpl, fun m' hm' => hns ⟨m', hm'⟩, by omega⟩
              · exact hm k hk
            · rw [hr]
              simp only [List.append_assoc, List.singleton_append, lens, List.map_cons,
                List.sum_cons, Nat.add_assoc]
          · rw [if_neg hl] at h; cases h
        · rintro ⟨mid, j, rest', m, he, hm, hj, hf, hr⟩
          cases mid with
          | nil =>
            simp only [List.nil_append, List.cons.injEq] at he
            exact absurd ⟨m, he.1 ▸ hf⟩ hns
          | cons k mid' =>
            simp only [List.cons_append, List.cons.injEq] at he
            obtain ⟨rfl, he⟩ := he
            have hk := hm i (List.mem_cons_self ..)
            rw [if_pos (by have := hk.2.2; omega)]
            refine (ih _ _ _).2 ⟨mid', j, rest', m, he, fun k hk' => hm k (List.mem_cons_of_mem _ hk'),
              hj, hf, ?_⟩
            rw [hr]
            simp only [List.append_assoc, List.singleton_append, lens, List.map_cons,
              List.sum_cons, Nat.add_assoc]
      cases hf : i.fstp with
      | none =>
        dsimp only
        exact hcont (by rintro ⟨m', h⟩; rw [hf] at h; cases h)
      | some q =>
        obtain ⟨y, m⟩ := q
        dsimp only
        by_cases hy : y = x
        · subst hy
          rw [if_pos rfl]
          constructor
          · intro h
            cases h
            exact ⟨[], i, rest, m, rfl, by simp, hpl, hf, by simp [lens]⟩
          · rintro ⟨mid, j, rest', m', he, hm, hj, hf', hr⟩
            cases mid with
            | nil =>
              simp only [List.nil_append, List.cons.injEq] at he
              obtain ⟨rfl, -⟩ := he
              rw [hf] at hf'
              cases hf'
              rw [hr]
              simp [lens]
            | cons k mid' =>
              simp only [List.cons_append, List.cons.injEq] at he
              exact absurd hf (he.1 ▸ (hm k (List.mem_cons_self ..)).2.1 m)
        · rw [if_neg hy]
          exact hcont (by rintro ⟨m', h⟩; rw [hf] at h; cases h; exact hy rfl)

theorem scanRegs_free (m : Mem) (i : Ins) (ov : Option Opnd) : ∀ rs,
    (∀ r ∈ rs, r ∉ i.writes) → scanRegs m i rs ov = some ov := by
  intro rs
  induction rs with
  | nil => intro _; rfl
  | cons r rs ih =>
    intro h
    rw [scanRegs, if_neg (h r (List.mem_cons_self ..))]
    exact ih fun q hq => h q (List.mem_cons_of_mem _ hq)

theorem overlapOf_iff (m : Mem) (i : Ins) (ov : Option Opnd) (s : Opnd) :
    overlapOf m i ov = some s ↔
      ov = none ∧ ∃ b, m.allowBase = true ∧ m.base = some b ∧ i.srcs = [s] ∧ i.dsts = [.reg b] := by
  unfold overlapOf
  split
  · rename_i s' d hs hd
    by_cases hc : m.allowBase ∧ some d = m.base
    · rw [if_pos hc]
      constructor
      · intro h; cases h; exact ⟨rfl, d, hc.1, hc.2.symm, hs, hd⟩
      · rintro ⟨-, b, -, -, h, -⟩
        rw [hs] at h
        cases h
        rfl
    · rw [if_neg hc]
      constructor
      · intro h; cases h
      · rintro ⟨-, b, h1, h2, -, h3⟩
        rw [hd] at h3
        cases h3
        exact absurd ⟨h1, h2.symm⟩ hc
  · rename_i hn
    constructor
    · intro h; cases h
    · rintro ⟨h1, b, -, -, h2, h3⟩
      exact absurd h3 (hn s b h1 h2)

/-- The instruction loads the base register of the operand, the only register of it, from one
source. -/
def Loads (m : Mem) (i : Ins) (s : Opnd) : Prop :=
  ∃ b, m.base = some b ∧ m.index = none ∧ b ∈ i.writes ∧ i.srcs = [s] ∧ i.dsts = [.reg b]

/-- The instruction leaves the registers of the operand alone. -/
def Leaves (m : Mem) (i : Ins) : Prop := ∀ r ∈ m.regs, r ∉ i.writes

theorem scanRegs_iff (m : Mem) (i : Ins) (ov ov' : Option Opnd) :
    scanRegs m i m.regs ov = some ov' ↔
      (Leaves m i ∧ ov' = ov) ∨ (ov = none ∧ ∃ s, Loads m i s ∧ ov' = some s) := by
  by_cases hl : Leaves m i
  · rw [scanRegs_free m i ov m.regs hl]
    constructor
    · intro h; cases h; exact Or.inl ⟨hl, rfl⟩
    · rintro (⟨-, rfl⟩ | ⟨-, s, ⟨b, hb, -, hw, -⟩, -⟩)
      · rfl
      · exact absurd hw (hl b (by simp [Mem.regs, hb]))
  · have key : scanRegs m i m.regs ov = some ov' → ov = none ∧ ∃ s, Loads m i s ∧ ov' = some s := by
      have gen : ∀ rs ov, (∃ r ∈ rs, r ∈ i.writes) → scanRegs m i rs ov = some ov' →
          ov = none ∧ ∃ s b, m.allowBase = true ∧ m.base = some b ∧ i.srcs = [s] ∧
            i.dsts = [.reg b] ∧ ov' = some s := by
        intro rs
        induction rs with
        | nil => rintro ov ⟨r, hr, -⟩; cases hr
        | cons r rs ih =>
          rintro ov ⟨q, hq, hqw⟩ h
          rw [scanRegs] at h
          by_cases hr : r ∈ i.writes
          · rw [if_pos hr] at h
            cases ho : overlapOf m i ov with
            | none => rw [ho] at h; cases h
            | some s =>
              rw [ho] at h
              dsimp only at h
              obtain ⟨hov, b, ha, hb, hs, hd⟩ := (overlapOf_iff m i ov s).1 ho
              by_cases hmore : ∃ r ∈ rs, r ∈ i.writes
              · have := (ih _ hmore h).1
                cases this
              · rw [scanRegs_free m i _ rs (fun r hr hw => hmore ⟨r, hr, hw⟩)] at h
                cases h
                exact ⟨hov, s, b, ha, hb, hs, hd, rfl⟩
          · rw [if_neg hr] at h
            refine ih ov ?_ h
            rcases List.mem_cons.1 hq with rfl | hq
            · exact absurd hqw hr
            · exact ⟨q, hq, hqw⟩
      intro h
      have hex : ∃ r ∈ m.regs, r ∈ i.writes := by
        apply Classical.byContradiction
        intro hn
        exact hl fun r hr hw => hn ⟨r, hr, hw⟩
      obtain ⟨h1, s, b, ha, hb, hs, hd, hov⟩ := gen m.regs ov hex h
      refine ⟨h1, s, ⟨b, hb, ?_, ?_, hs, hd⟩, hov⟩
      · simp only [Mem.allowBase, Mem.regs, hb, Option.toList, decide_eq_true_eq] at ha
        cases hi : m.index with
        | none => rfl
        | some j => rw [hi] at ha; simp at ha
      · obtain ⟨r, hr, hw⟩ := hex
        have : r = b := by
          simp only [Mem.allowBase, Mem.regs, hb, Option.toList, decide_eq_true_eq] at ha hr
          cases hi : m.index with
          | none => rw [hi] at hr; simpa using hr
          | some j => rw [hi] at ha; simp at ha
        exact this ▸ hw
    constructor
    · intro h; exact Or.inr (key h)
    · rintro (⟨h, -⟩ | ⟨rfl, s, ⟨b, hb, hi, hw, hs, hd⟩, rfl⟩)
      · exact absurd h hl
      · have hr : m.regs = [b] := by simp [Mem.regs, hb, hi]
        rw [hr, scanRegs, if_pos hw,
          (overlapOf_iff m i none s).2 ⟨rfl, b, by simp [Mem.allowBase, hr], hb, hs, hd⟩]
        rfl

/-- Some instruction writes the frame pointer. -/
def anyEbp (is : List Ins) : Bool := is.any fun i => decide (Reg.ebp ∈ i.writes)

theorem scan_iff (m : Mem) : ∀ (pre : List Ins) (ov ov' : Option Opnd) (eb eb' : Bool),
    scan m pre ov eb = some (ov', eb') ↔
      eb' = (eb || anyEbp pre) ∧
      (((∀ i ∈ pre, Leaves m i) ∧ ov' = ov) ∨
       (ov = none ∧ ∃ p i q s, pre = p ++ i :: q ∧ Loads m i s ∧ (∀ j ∈ p ++ q, Leaves m j) ∧
         ov' = some s)) := by
  intro pre
  induction pre with
  | nil =>
    intro ov ov' eb eb'
    simp only [scan, anyEbp, List.any_nil, Bool.or_false, Option.some.injEq, Prod.mk.injEq]
    constructor
    · rintro ⟨h1, h2⟩
      exact ⟨h2.symm, Or.inl ⟨by simp, h1.symm⟩⟩
    · rintro ⟨h2, ⟨-, h1⟩ | ⟨-, p, i, q, s, he, -⟩⟩
      · exact ⟨h1.symm, h2.symm⟩
      · simp at he
  | cons i rest ih =>
    intro ov ov' eb eb'
    have hany : (eb || decide (Reg.ebp ∈ i.writes) || anyEbp rest) = (eb || anyEbp (i :: rest)) := by
      simp [anyEbp, Bool.or_assoc]
    constructor
    · intro h
      simp only [scan] at h
      cases hs : scanRegs m i m.regs ov with
      | none => rw [hs] at h; cases h
      | some o =>
        rw [hs] at h
        dsimp only at h
        obtain ⟨he, h1⟩ := (ih _ _ _ _).1 h
        refine ⟨he.trans hany, ?_⟩
        rcases (scanRegs_iff m i ov o).1 hs with ⟨hl, rfl⟩ | ⟨rfl, s, hl, rfl⟩
        · rcases h1 with ⟨h1, h2⟩ | ⟨h0, p, j, q, s, h1, h2, h3, h4⟩
          · refine Or.inl ⟨?_, h2⟩
            intro j hj
            rcases List.mem_cons.1 hj with rfl | hj
            · exact hl
            · exact h1 j hj
          · refine Or.inr ⟨h0, i :: p, j, q, s, by rw [h1]; rfl, h2, ?_, h4⟩
            intro k hk
            rcases List.mem_cons.1 hk with rfl | hk
            · exact hl
            · exact h3 k hk
        · rcases h1 with ⟨h1, h2⟩ | ⟨h0, -⟩
          · exact Or.inr ⟨rfl, [], i, rest, s, rfl, hl, by simpa using h1, h2⟩
          · cases h0
    · rintro ⟨he, h1⟩
      simp only [scan]
      rcases h1 with ⟨h1, rfl⟩ | ⟨rfl, p, j, q, s, h1, h2, h3, rfl⟩
      · rw [(scanRegs_iff m i ov' ov').2 (Or.inl ⟨h1 i (List.mem_cons_self ..), rfl⟩)]
        dsimp only
        exact (ih _ _ _ _).2 ⟨he.trans hany.symm,
          Or.inl ⟨fun j hj => h1 j (List.mem_cons_of_mem _ hj), rfl⟩⟩
      · cases p with
        | nil =>
          simp only [List.nil_append, List.cons.injEq] at h1
          obtain ⟨rfl, rfl⟩ := h1
          rw [(scanRegs_iff m i none (some s)).2 (Or.inr ⟨rfl, s, h2, rfl⟩)]
          dsimp only
          exact (ih _ _ _ _).2 ⟨he.trans hany.symm, Or.inl ⟨by simpa using h3, rfl⟩⟩
        | cons k p' =>
          simp only [List.cons_append, List.cons.injEq] at h1
          obtain ⟨rfl, rfl⟩ := h1
          rw [(scanRegs_iff m i none none).2 (Or.inl ⟨h3 i (by simp), rfl⟩)]
          dsimp only
          exact (ih _ _ _ _).2 ⟨he.trans hany.symm,
            Or.inr ⟨rfl, p', j, q, s, rfl, h2, fun k hk => h3 k (List.mem_cons_of_mem _ hk), rfl⟩⟩

/-- The code from a load on: the load into a floating-point register, what comes in between, the
first store of that register, and the rest. -/
structure Parts (t : Site) where
  l : Ins
  mid : List Ins
  i : Ins
  rest : List Ins
  x : Reg
  m : Mem
  is_eq : t.is = l :: (mid ++ i :: rest)
  load : l.fld = some x
  store : i.fstp = some (x, m)
  plain : Plain i
  mids : ∀ j ∈ mid, Plain j ∧ (∀ m', j.fstp ≠ some (x, m')) ∧ j.len < 128

/-- The destination that is expected for the store: its operand as of the load, when nothing up
to the store changes the registers in it; or with the base register taken from a stack slot,
when one instruction has this slot for its source and writes the base register, and the frame
pointer stays. -/
inductive Dest (t : Site) (m : Mem) (pre : List Ins) : Nat → Prop
  | same (h : ∀ i ∈ pre, Leaves m i) : Dest t m pre (addrOf t.w t.ρ m)
  | slot (p : List Ins) (j : Ins) (q : List Ins) (s : Mem) (b v : Nat) (r : Reg)
      (hp : pre = p ++ j :: q) (hl : Loads m j (.mem s)) (ho : ∀ k ∈ p ++ q, Leaves m k)
      (hb : s.base = some .ebp) (hi : s.index = none) (he : anyEbp pre = false)
      (hr : m.base = some r) (hv : t.rd (addrOf t.w t.ρ s) = some v)
      (ha : b = addrOf t.w (setReg t.ρ r v) m) : Dest t m pre b

/-- A copy is recognised exactly when the instruction is a load into a floating-point register,
the same register is stored later without a branch, system call or unknown opcode in between, the
two have the same size, and the destination of the store can be told.  There is no limit on the
distance: each instruction in between may be almost as long as the limit. -/
theorem C83_target (t : Site) (pc sz spc a : Nat) :
    t.target pc sz = some (spc, a) ↔
      ∃ P : Parts t, spc = pc + P.l.len + lens P.mid ∧ P.m.size = sz ∧ a ≠ 0 ∧
        Dest t P.m (P.l :: P.mid) a := by
  constructor
  · intro h
    unfold Site.target at h
    split at h
    · cases h
    · rename_i l rest hl
      split at h
      · cases h
      · rename_i x hx
        split at h
        · cases h
        · rename_i pre m spc' hf
          obtain ⟨mid, i, rest', m', h1, h2, h3, h4, h5⟩ := (findStore_iff _ _ _ _ _).1 hf
          simp only [Prod.mk.injEq] at h5
          obtain ⟨rfl, rfl, rfl⟩ := h5
          split at h
          · cases h
          · rename_i ov eb hs
            dsimp only at h
            split at h
            · cases h
            · rename_i hc
              simp only [Option.some.injEq, Prod.mk.injEq] at h
              obtain ⟨rfl, rfl⟩ := h
              refine ⟨⟨l, mid, i, rest', x, m, by rw [hl, h1], hx, h4, h3, h2⟩, rfl, ?_, ?_, ?_⟩
              · apply Classical.byContradiction
                intro hn
                exact hc (Or.inr hn)
              · intro hn
                exact hc (Or.inl hn)
              · have hne : predict t.w t.ρ t.rd m ov eb ≠ 0 := fun hn => hc (Or.inl hn)
                obtain ⟨heb, h6⟩ := (scan_iff _ _ _ _ _ _).1 hs
                simp only [Bool.false_or] at heb
                rcases h6 with ⟨h6, rfl⟩ | ⟨-, p, j, q, s, h6, h7, h8, rfl⟩
                · exact .same h6
                · revert hne
                  simp only [predict]
                  split
                  · rename_i heq; cases heq
                  · rename_i s' heq
                    cases heq
                    split
                    · rename_i hcond
                      split
                      · rename_i v r hv hr
                        intro _
                        exact .slot p j q s' _ v r h6 h7 h8 hcond.1 hcond.2.1
                          (by have h9 := hcond.2.2; rw [heb] at h9; simpa using h9) hr hv rfl
                      · intro hn; exact absurd rfl hn
                    · intro hn; exact absurd rfl hn
                  · intro hn; exact absurd rfl hn
  · rintro ⟨⟨l, mid, i, rest, x, m, h1, h2, h3, h4, h5⟩, rfl, rfl, ha, hd⟩
    dsimp only at hd ⊢
    have hf : findStore x (mid ++ i :: rest) (pc + l.len) [l] =
        some (l :: mid, m, pc + l.len + lens mid) :=
      (findStore_iff _ _ _ _ _).2 ⟨mid, i, rest, m, rfl, h5, h4, h3, rfl⟩
    unfold Site.target
    rw [h1]
    dsimp only
    rw [h2]
    dsimp only
    rw [hf]
    dsimp only
    cases hd with
    | same h =>
      rw [(scan_iff m (l :: mid) none none false (anyEbp (l :: mid))).2 ⟨by simp, Or.inl ⟨h, rfl⟩⟩]
      dsimp only
      have hpr : predict t.w t.ρ t.rd m none (anyEbp (l :: mid)) = addrOf t.w t.ρ m := rfl
      rw [hpr, if_neg (fun h => h.elim (fun h => ha h) (fun h => h rfl))]
    | slot p j q s b v r hp hl ho hb hi he hr hv hab =>
      rw [(scan_iff m (l :: mid) none (some (.mem s)) false false).2
        ⟨by simp [he], Or.inr ⟨rfl, p, j, q, .mem s, hp, hl, ho, rfl⟩⟩]
      have hpr : predict t.w t.ρ t.rd m (some (.mem s)) false = a := by
        simp only [predict]
        rw [if_pos ⟨hb, hi, by simp⟩, hv, hr]
        exact hab.symm
      dsimp only
      rw [hpr, if_neg (fun h => h.elim (fun h => ha h) (fun h => h rfl))]

/-- An undefined read is excused exactly when a copy is under way or a new one is recognised;
pushes, pops, writes and system calls never are (system calls when no copy is under way). -/
theorem C83_mem (t : Site) (s : St) (pushpop write : Bool) (pc : Option Nat) (addr sz idx : Nat) :
    (t.checkMem s pushpop write pc addr sz idx).1 = true ↔
      pushpop = false ∧ write = false ∧
      (s.cpt.source ≠ 0 ∨
       (t.prop = true ∧ addr ≠ 0 ∧ ∃ p, pc = some p ∧
        ∃ P : Parts t, P.m.size = sz ∧ ∃ a, a ≠ 0 ∧ Dest t P.m (P.l :: P.mid) a)) := by
  unfold Site.checkMem
  by_cases hw : pushpop = false ∧ write = false
  · rw [if_pos hw]
    unfold Site.copy
    by_cases h0 : s.cpt.source ≠ 0
    · rw [if_pos h0]
      exact ⟨fun _ => ⟨hw.1, hw.2, Or.inl h0⟩, fun _ => rfl⟩
    · rw [if_neg h0]
      by_cases hp : t.prop = false
      · rw [if_pos hp]
        constructor
        · intro h; cases h
        · rintro ⟨-, -, h | ⟨h, -⟩⟩
          · exact absurd h h0
          · rw [hp] at h; cases h
      · rw [if_neg hp]
        cases pc with
        | none =>
          constructor
          · intro h; cases h
          · rintro ⟨-, -, h | ⟨-, -, p, h, -⟩⟩
            · exact absurd h h0
            · cases h
        | some p =>
          dsimp only
          by_cases ha : addr = 0
          · rw [if_pos ha]
            constructor
            · intro h; cases h
            · rintro ⟨-, -, h | ⟨-, h, -⟩⟩
              · exact absurd h h0
              · exact absurd ha h
          · rw [if_neg ha]
            cases ht : t.target p sz with
            | none =>
              constructor
              · intro h; cases h
              · rintro ⟨-, -, h | ⟨-, -, p', h, P, hsz, a, ha0, hd⟩⟩
                · exact absurd h h0
                · cases h
                  rw [(C83_target t p sz _ a).2 ⟨P, rfl, hsz, ha0, hd⟩] at ht
                  cases ht
            | some r =>
              obtain ⟨spc, a⟩ := r
              obtain ⟨P, -, hsz, ha0, hd⟩ := (C83_target t p sz spc a).1 ht
              exact ⟨fun _ => ⟨hw.1, hw.2, Or.inr ⟨by simpa using hp, ha, p, rfl, P, hsz, a, ha0, hd⟩⟩,
                fun _ => rfl⟩
  · rw [if_neg hw]
    constructor
    · intro h; cases h
    · rintro ⟨h1, h2, -⟩
      exact absurd ⟨h1, h2⟩ hw

/-- What it changes: nothing when the read is not excused or a copy is under way; otherwise the
one byte at the expected destination is marked, its shadow is kept, and the start of the
reference and the store are noted. -/
theorem C83_mem_effect (t : Site) (s : St) (pushpop write : Bool) (pc : Option Nat)
    (addr sz idx : Nat) :
    (((t.checkMem s pushpop write pc addr sz idx).1 = false ∨ s.cpt.source ≠ 0) →
      (t.checkMem s pushpop write pc addr sz idx).2 = s) ∧
    (s.cpt.source = 0 → (t.checkMem s pushpop write pc addr sz idx).1 = true →
      ∃ p a, pc = some p ∧ ∃ P : Parts t, a ≠ 0 ∧ Dest t P.m (P.l :: P.mid) a ∧
        (t.checkMem s pushpop write pc addr sz idx).2.cpt =
          ⟨addr - idx, a, s.sh a, p + P.l.len + lens P.mid⟩ ∧
        ∀ x, (t.checkMem s pushpop write pc addr sz idx).2.sh x =
          if x = a then .bitlevel else s.sh x) := by
  unfold Site.checkMem
  by_cases hw : pushpop = false ∧ write = false
  · rw [if_pos hw]
    unfold Site.copy
    by_cases h0 : s.cpt.source ≠ 0
    · rw [if_pos h0]
      exact ⟨fun _ => rfl, fun h => absurd h h0⟩
    · rw [if_neg h0]
      by_cases hp : t.prop = false
      · rw [if_pos hp]
        exact ⟨fun _ => rfl, fun _ h => by cases h⟩
      · rw [if_neg hp]
        cases pc with
        | none => exact ⟨fun _ => rfl, fun _ h => by cases h⟩
        | some p =>
          dsimp only
          by_cases ha : addr = 0
          · rw [if_pos ha]
            exact ⟨fun _ => rfl, fun _ h => by cases h⟩
          · rw [if_neg ha]
            cases ht : t.target p sz with
            | none => exact ⟨fun _ => rfl, fun _ h => by cases h⟩
            | some r =>
              obtain ⟨spc, a⟩ := r
              obtain ⟨P, hspc, hsz, ha0, hd⟩ := (C83_target t p sz spc a).1 ht
              dsimp only
              refine ⟨?_, ?_⟩
              · rintro (h | h)
                · cases h
                · exact absurd h h0
              · intro _ _
                exact ⟨p, a, rfl, P, ha0, hd, by rw [hspc], fun x => rfl⟩
  · rw [if_neg hw]
    exact ⟨fun _ => rfl, fun _ h => by cases h⟩

/-! ### Whether the expected destination is the real one -/

/-- The application: its registers and the words of its memory. -/
structure Mach where
  regs : Reg → Nat
  word : Nat → Option Nat

/-- Some instructions in turn. -/
def run (step : Ins → Mach → Mach) (is : List Ins) (σ : Mach) : Mach :=
  is.foldl (fun σ i => step i σ) σ

theorem run_keeps (step : Ins → Mach → Mach)
    (hw : ∀ i σ r, r ∉ i.writes → (step i σ).regs r = σ.regs r) (r : Reg) :
    ∀ (is : List Ins) (σ : Mach), (∀ i ∈ is, r ∉ i.writes) → (run step is σ).regs r = σ.regs r := by
  intro is
  induction is with
  | nil => intro σ _; rfl
  | cons i is ih =>
    intro σ h
    show (run step is (step i σ)).regs r = _
    rw [ih _ fun j hj => h j (List.mem_cons_of_mem _ hj), hw _ _ _ (h i (List.mem_cons_self ..))]

theorem run_word (step : Ins → Mach → Mach) (x : Nat) :
    ∀ (is : List Ins) (σ : Mach), (∀ i ∈ is, ∀ σ, (step i σ).word x = σ.word x) →
      (run step is σ).word x = σ.word x := by
  intro is
  induction is with
  | nil => intro σ _; rfl
  | cons i is ih =>
    intro σ h
    show (run step is (step i σ)).word x = _
    rw [ih _ fun j hj => h j (List.mem_cons_of_mem _ hj), h i (List.mem_cons_self ..)]

theorem run_append (step : Ins → Mach → Mach) (p q : List Ins) (σ : Mach) :
    run step (p ++ q) σ = run step q (run step p σ) := by
  simp [run, List.foldl_append]

theorem addrOf_congr (w : Nat) (ρ ρ' : Reg → Nat) (m : Mem) (h : ∀ r ∈ m.regs, ρ r = ρ' r) :
    addrOf w ρ m = addrOf w ρ' m := by
  have hb : val ρ m.base = val ρ' m.base := by
    cases hb : m.base with
    | none => rfl
    | some b => exact h b (by simp [Mem.regs, hb])
  have hi : val ρ m.index = val ρ' m.index := by
    cases hi : m.index with
    | none => rfl
    | some b => exact h b (by simp [Mem.regs, hi])
  simp only [addrOf, hb, hi]

/-- The marked byte is at the address that the store will have when it is reached, whatever the
instructions in between do within the registers they are said to write.

Missing: that an instruction with one memory source and one register destination loads the word
there (`hload`), and that nothing in between writes to memory (`hmem`), which is not checked; see
`C83_dest_lea` and `C83_dest_slot`. -/
theorem C83_dest_partial (t : Site) (P : Parts t) (a : Nat) (hd : Dest t P.m (P.l :: P.mid) a)
    (step : Ins → Mach → Mach)
    (hw : ∀ i σ r, r ∉ i.writes → (step i σ).regs r = σ.regs r)
    (hload : ∀ i ∈ P.l :: P.mid, ∀ s b, i.srcs = [.mem s] → i.dsts = [.reg b] → ∀ σ v,
      σ.word (addrOf t.w σ.regs s) = some v → (step i σ).regs b = v)
    (hmem : ∀ i ∈ P.l :: P.mid, ∀ σ x, (step i σ).word x = σ.word x) :
    addrOf t.w (run step (P.l :: P.mid) ⟨t.ρ, t.rd⟩).regs P.m = a := by
  generalize P.l :: P.mid = pre at *
  cases hd with
  | same h =>
    apply addrOf_congr
    intro r hr
    exact run_keeps step hw r pre _ fun i hi => h i hi r hr
  | slot p j q s _ v r hp hl ho hb hi he hr hv ha =>
    obtain ⟨b, hb1, hb2, hb3, hb4, hb5⟩ := hl
    rw [hr] at hb1
    cases hb1
    rw [ha]
    apply addrOf_congr
    intro x hx
    have hxr : x = r := by simpa [Mem.regs, hr, hb2] using hx
    subst hxr
    rw [hp, run_append]
    show (run step q (step j (run step p ⟨t.ρ, t.rd⟩))).regs x = setReg t.ρ x v x
    have hrm : x ∈ P.m.regs := by simp [Mem.regs, hr]
    rw [run_keeps step hw x q _ fun i hi => ho i (by simp [hi]) x hrm]
    have hebp : ∀ i ∈ p, Reg.ebp ∉ i.writes := by
      intro i hi hmem'
      have : anyEbp pre = true := by
        rw [hp]
        simp only [anyEbp, List.any_eq_true, decide_eq_true_eq]
        exact ⟨i, by simp [hi], hmem'⟩
      rw [he] at this
      cases this
    have haddr : addrOf t.w (run step p ⟨t.ρ, t.rd⟩).regs s = addrOf t.w t.ρ s := by
      apply addrOf_congr
      intro y hy
      have : y = .ebp := by simpa [Mem.regs, hb, hi] using hy
      subst this
      exact run_keeps step hw .ebp p _ hebp
    have := hload j (by rw [hp]; simp) s x hb4 hb5 (run step p ⟨t.ρ, t.rd⟩) v (by
      rw [haddr, run_word step _ p _ fun i hi σ => hmem i (by rw [hp]; simp [hi]) σ _]
      exact hv)
    rw [this]
    simp [setReg]

/-- `fld (%esi)`, eight bytes. -/
def fldEsi : Ins :=
  ⟨2, false, false, true, some (.st 0), none, [.st 0], [.mem ⟨some .esi, none, 1, 0, 8⟩],
    [.reg (.st 0)]⟩

/-- `fstp (%eax)`, eight bytes. -/
def fstpEax : Ins :=
  ⟨2, false, false, true, none, some (.st 0, ⟨some .eax, none, 1, 0, 8⟩), [],
    [.reg (.st 0)], [.mem ⟨some .eax, none, 1, 0, 8⟩]⟩

/-- `mov 8(%ebp) -> %eax`, or `lea 8(%ebp) -> %eax`: the code does not ask which. -/
def toEax : Ins :=
  ⟨3, false, false, true, none, none, [.eax], [.mem ⟨some .ebp, none, 1, 8, 4⟩], [.reg .eax]⟩

/-- Registers and memory for the witnesses: the frame pointer is 0x1000, the slot at 0x1008 holds
0x2000. -/
def site (is : List Ins) : Site :=
  { prop := true
    w := 32
    ρ := fun r => if r = .ebp then 0x1000 else if r = .esi then 0x3000 else 0x4000
    rd := fun a => if a = 0x1008 then some 0x2000 else some 0
    is := is }

/-- An effect of the instructions of the witnesses: `toEax` computes the address (as `lea` does).
 -/
def stepLea (i : Ins) (σ : Mach) : Mach :=
  if i = toEax then
    { σ with
      regs := setReg σ.regs .eax ((σ.regs .ebp + 8) % 2 ^ 32) }
  else σ

/-- With a `lea` between load and store the wrong byte is marked: the code takes the word at the
address for the address. -/
theorem C83_dest_lea :
    (site [fldEsi, toEax, fstpEax]).target 0x500 8 = some (0x505, 0x2000) ∧
    addrOf 32 (run stepLea [fldEsi, toEax] ⟨(site []).ρ, (site []).rd⟩).regs
      ⟨some .eax, none, 1, 0, 8⟩ = 0x1008 ∧
    (∀ i σ r, r ∉ i.writes → (stepLea i σ).regs r = σ.regs r) := by
  refine ⟨by decide +kernel, by decide +kernel, ?_⟩
  intro i σ r hr
  unfold stepLea
  split
  · rename_i h
    subst h
    have hne : r ≠ .eax := fun h => hr (by rw [h]; simp [toEax])
    simp [setReg, hne]
  · rfl

/-- `mov %ecx -> 8(%ebp)`. -/
def storeSlot : Ins :=
  ⟨3, false, false, true, none, none, [], [.reg .ecx], [.mem ⟨some .ebp, none, 1, 8, 4⟩]⟩

/-- The effect of `storeSlot` and of `toEax` as a load. -/
def stepMov (i : Ins) (σ : Mach) : Mach :=
  if i = storeSlot then
    { σ with
      word := fun a => if a = σ.regs .ebp + 8 then some (σ.regs .ecx) else σ.word a }
  else if i = toEax then
    { σ with
      regs := setReg σ.regs .eax ((σ.word (σ.regs .ebp + 8)).getD 0) }
  else σ

/-- The same when the slot is written in between. -/
theorem C83_dest_slot :
    (site [fldEsi, storeSlot, toEax, fstpEax]).target 0x500 8 = some (0x508, 0x2000) ∧
    addrOf 32 (run stepMov [fldEsi, storeSlot, toEax] ⟨(site []).ρ, (site []).rd⟩).regs
      ⟨some .eax, none, 1, 0, 8⟩ = 0x4000 := by
  constructor <;> decide +kernel

/-- A load of the base register from the stack is followed rightly (the case that the code was
written for). -/
example : addrOf 32 (run stepMov [fldEsi, toEax] ⟨(site []).ρ, (site []).rd⟩).regs
      ⟨some .eax, none, 1, 0, 8⟩ = 0x2000 ∧
    (site [fldEsi, toEax, fstpEax]).target 0x500 8 = some (0x505, 0x2000) := by
  constructor <;> decide +kernel

/-! ### The end of a copy -/

/-- When the store is reached in the slow path, the marked byte gets its shadow back, everything
else is as it was at the load, and the store takes the definedness of the memory that was
loaded, from its first byte on, also when the undefined byte was found further on. -/
theorem C83_store (t : Site) (s : St) (pushpop write : Bool) (pc : Option Nat)
    (addr sz idx : Nat) (h0 : s.cpt.source = 0) (hi : idx < addr)
    (h : (t.checkMem s pushpop write pc addr sz idx).1 = true) :
    ∃ p, pc = some p ∧ ∃ P : Parts t,
      (atStore (t.checkMem s pushpop write pc addr sz idx).2 (p + P.l.len + lens P.mid)).1 =
        some (addr - idx) ∧
      (atStore (t.checkMem s pushpop write pc addr sz idx).2 (p + P.l.len + lens P.mid)).2.sh =
        s.sh ∧
      (atStore (t.checkMem s pushpop write pc addr sz idx).2
        (p + P.l.len + lens P.mid)).2.cpt.source = 0 := by
  obtain ⟨p, a, hp, P, -, -, hc, hs⟩ := (C83_mem_effect t s pushpop write pc addr sz idx).2 h0 h
  refine ⟨p, hp, P, ?_⟩
  generalize (t.checkMem s pushpop write pc addr sz idx).2 = s' at *
  unfold atStore
  rw [hc]
  dsimp only
  rw [if_pos ⟨by omega, rfl⟩]
  refine ⟨rfl, ?_, rfl⟩
  funext x
  simp only [setSh]
  rw [hs x]
  by_cases hx : x = a
  · rw [if_pos hx, hx]
  · rw [if_neg hx, if_neg hx]

example : ((site [fldEsi, fstpEax]).checkMem ⟨fun _ => .undef, ⟨0, 0, .defined, 0⟩⟩ false false
    (some 0x500) 0x3004 8 4).1 = true := by decide +kernel

/-- Whatever happens to the byte in the meantime is undone: the shadow noted at the load is put
back. -/
theorem C83_store_stale (sh : Nat → Sh) (c : Cpt) (h : c.source ≠ 0) :
    (atStore ⟨sh, c⟩ c.pc).2.sh c.dest = c.prev ∧
    ∀ x, x ≠ c.dest → (atStore ⟨sh, c⟩ c.pc).2.sh x = sh x := by
  unfold atStore
  rw [if_pos ⟨h, rfl⟩]
  refine ⟨by simp [setSh], ?_⟩
  intro x hx
  simp [setSh, hx]

example : (atStore ⟨fun _ => .unaddr, ⟨0x3000, 0x2000, .defined, 0x505⟩⟩ 0x505).2.sh 0x2000 = .defined :=
  (C83_store_stale _ ⟨0x3000, 0x2000, .defined, 0x505⟩ (by decide)).1

/-- What the slow path can be asked while a copy is under way: an undefined byte was read
somewhere, or there is a store. -/
inductive Event where
  | read (t : Site) (pushpop write : Bool) (pc : Option Nat) (addr sz idx : Nat)
  | store (pc : Nat)

/-- The effect of an event. -/
def Event.run (s : St) : Event → St
  | .read t pushpop write pc addr sz idx => (t.checkMem s pushpop write pc addr sz idx).2
  | .store pc => (atStore s pc).2

/-- As long as the slow path does not see the store of the copy, the copy remains under way, and
every undefined byte read by any instruction or system call is excused, pushes and pops apart.
When the wrong byte was marked (`C83_dest_lea`), the store may stay in the fast path, and nothing
is reported any more in this thread. -/
theorem C83_open (evs : List Event) (s : St) (h : s.cpt.source ≠ 0)
    (hs : ∀ pc, Event.store pc ∈ evs → pc ≠ s.cpt.pc) :
    evs.foldl Event.run s = s ∧
    ∀ (t : Site) pc addr sz idx,
      t.checkMem (evs.foldl Event.run s) false false pc addr sz idx = (true, s) := by
  have key : evs.foldl Event.run s = s := by
    induction evs with
    | nil => rfl
    | cons ev evs ih =>
      have h1 : Event.run s ev = s := by
        cases ev with
        | read t pushpop write pc addr sz idx =>
          exact (C83_mem_effect t s pushpop write pc addr sz idx).1 (Or.inr h)
        | store pc =>
          have := hs pc (List.mem_cons_self ..)
          simp only [Event.run, atStore]
          rw [if_neg (fun hc => this hc.2.symm)]
      rw [List.foldl_cons, h1]
      exact ih fun pc hpc => hs pc (List.mem_cons_of_mem _ hpc)
  refine ⟨key, ?_⟩
  intro t pc addr sz idx
  rw [key]
  unfold Site.checkMem Site.copy
  rw [if_pos ⟨rfl, rfl⟩, if_pos h]

example : ∀ (t : Site) pc addr sz idx, t.checkMem ⟨fun _ => .undef, ⟨0x3000, 0x2000, .defined, 0x505⟩⟩
    false false pc addr sz idx = (true, ⟨fun _ => .undef, ⟨0x3000, 0x2000, .defined, 0x505⟩⟩) :=
  (C83_open [.store 0x700] ⟨fun _ => .undef, ⟨0x3000, 0x2000, .defined, 0x505⟩⟩ (by decide) (by
    intro pc h
    simp only [List.mem_cons, Event.store.injEq, List.not_mem_nil, or_false] at h
    subst h
    decide)).2

/-- Every other store leaves a copy alone. -/
theorem C83_store_other (s : St) (pc : Nat) (h : s.cpt.source = 0 ∨ s.cpt.pc ≠ pc) :
    atStore s pc = (none, s) := by
  unfold atStore
  rw [if_neg]
  rintro ⟨h1, h2⟩
  rcases h with h | h
  · exact h1 h
  · exact h h2

/-- When the reference begins at address zero, the byte is marked but no copy is under way, so
the mark stays. -/
theorem C83_zero (t : Site) (s : St) (p addr sz : Nat) (h0 : s.cpt.source = 0)
    (h : (t.checkMem s false false (some p) addr sz addr).1 = true) :
    ∃ a, (∀ pc, atStore (t.checkMem s false false (some p) addr sz addr).2 pc =
        (none, (t.checkMem s false false (some p) addr sz addr).2)) ∧
      (t.checkMem s false false (some p) addr sz addr).2.sh a = .bitlevel := by
  obtain ⟨p, a, -, P, -, -, hc, hs⟩ :=
    (C83_mem_effect t s false false (some p) addr sz addr).2 h0 h
  refine ⟨a, ?_, by rw [hs]; simp⟩
  intro pc
  apply C83_store_other
  left
  rw [hc]
  simp

example : ((site [fldEsi, fstpEax]).checkMem ⟨fun _ => .undef, ⟨0, 0, .defined, 0⟩⟩ false false
    (some 0x500) 4 8 4).1 = true := by decide +kernel

/-- When a thread is moved while a copy is under way, the copy is given up and the byte gets its
shadow back, unless the uninitialised record happens to cover its address. -/
theorem C83_relocate (g n : Nat) (s : St) :
    (s.cpt.source = 0 → relocate g n s = some s) ∧
    (s.cpt.source ≠ 0 → ¬ (g ≤ s.cpt.dest ∧ s.cpt.dest < g + n) →
      ∃ s', relocate g n s = some s' ∧ s'.cpt.source = 0 ∧
        ∀ x, s'.sh x = if x = s.cpt.dest then s.cpt.prev else s.sh x) ∧
    (s.cpt.source ≠ 0 → g ≤ s.cpt.dest → s.cpt.dest < g + n → relocate g n s = none) := by
  refine ⟨?_, ?_, ?_⟩
  · intro h
    simp [relocate, h]
  · intro h hc
    unfold relocate
    rw [if_pos h, if_neg hc]
    exact ⟨_, rfl, rfl, fun x => rfl⟩
  · intro h h1 h2
    unfold relocate
    rw [if_pos h, if_pos ⟨h1, h2⟩]

/-! ### What is matched although it is no copy, or not near -/

/-- `nop`. -/
def nop : Ins := ⟨1, false, false, true, none, none, [], [], []⟩

/-- The store is found however far it is from the load: the limit of 128 bytes is compared with
the length of one instruction. -/
theorem C83_far (n : Nat) :
    (site (fldEsi :: (List.replicate n nop ++ [fstpEax]))).target 0x500 8 =
      some (0x500 + 2 + n, 0x4000) := by
  have hlen : lens (List.replicate n nop) = n := by
    simp [lens, List.map_replicate, List.sum_replicate_nat, nop]
  refine (C83_target _ _ _ _ _).2 ⟨⟨fldEsi, List.replicate n nop, fstpEax, [], .st 0,
    ⟨some .eax, none, 1, 0, 8⟩, rfl, rfl, rfl, ⟨rfl, rfl, rfl⟩, ?_⟩, ?_, rfl, by decide, ?_⟩
  · intro j hj
    rw [List.mem_replicate] at hj
    rw [hj.2]
    refine ⟨⟨rfl, rfl, rfl⟩, ?_, by decide⟩
    intro m' h
    cases h
  · dsimp only
    rw [hlen]
    rfl
  · have : (0x4000 : Nat) = addrOf (site []).w (site []).ρ ⟨some .eax, none, 1, 0, 8⟩ := by
      decide +kernel
    rw [this]
    apply Dest.same
    intro i hi r hr
    have hr' : r = .eax := by simpa [Mem.regs] using hr
    subst hr'
    simp only [List.mem_cons, List.mem_replicate] at hi
    rcases hi with rfl | ⟨-, rfl⟩
    · decide
    · decide

/-- The stack of floating-point registers, each entry the number of the load that pushed it: what
a store of the top stores. -/
def fpStack : List Ins → Nat → List Nat → List Nat
  | [], _, st => st
  | i :: is, n, st =>
    if i.fld.isSome then fpStack is (n + 1) (n :: st)
    else if i.fstp.isSome then fpStack is (n + 1) st.tail
    else fpStack is (n + 1) st

/-- With two loads and then a store, the store is taken for that of the first load, although it
stores what was loaded second. -/
theorem C83_two_loads (l1 l2 st : Ins) (m : Mem) (w : Nat) (ρ : Reg → Nat) (rd : Nat → Option Nat)
    (h1 : l1.fld = some (.st 0)) (h2 : l2.fld = some (.st 0)) (hf : l2.fstp = none)
    (hp : Plain l2) (hl : l2.len < 128) (hs : st.fstp = some (.st 0, m)) (hps : Plain st)
    (hw : Leaves m l1 ∧ Leaves m l2) (ha : addrOf w ρ m ≠ 0) (s : St) (p addr : Nat)
    (h0 : s.cpt.source = 0) (haddr : addr ≠ 0) :
    ((⟨true, w, ρ, rd, [l1, l2, st]⟩ : Site).checkMem s false false (some p) addr m.size 0).2.cpt =
      ⟨addr, addrOf w ρ m, s.sh (addrOf w ρ m), p + l1.len + l2.len⟩ ∧
    (fpStack [l1, l2] 1 []).head? = some 2 := by
  constructor
  · have ht : (⟨true, w, ρ, rd, [l1, l2, st]⟩ : Site).target p m.size =
        some (p + l1.len + l2.len, addrOf w ρ m) := by
      refine (C83_target _ _ _ _ _).2 ⟨⟨l1, [l2], st, [], .st 0, m, rfl, h1, hs, hps, ?_⟩, ?_, rfl, ha, ?_⟩
      · intro j hj
        rw [List.mem_singleton] at hj
        subst hj
        exact ⟨hp, (fun m' h => by rw [hf] at h; cases h), hl⟩
      · simp [lens]
      · apply Dest.same
        intro i hi
        simp only [List.mem_cons, List.not_mem_nil, or_false] at hi
        rcases hi with rfl | rfl
        · exact hw.1
        · exact hw.2
    unfold Site.checkMem Site.copy
    rw [if_pos ⟨rfl, rfl⟩, if_neg (by simp [h0]), if_neg (by simp)]
    dsimp only
    rw [if_neg haddr, ht]
    rfl
  · simp [fpStack, h1, h2]

example : ((site [fldEsi, fldEsi, fstpEax]).checkMem ⟨fun _ => .undef, ⟨0, 0, .defined, 0⟩⟩ false false
    (some 0x500) 0x3000 8 0).2.cpt = ⟨0x3000, 0x4000, .undef, 0x504⟩ := by decide +kernel

/-- **C83**: the address of an operand is its base plus the scaled index plus the displacement, as a
number of `w` bits. -/
theorem C83_addr (w : Nat) (ρ : Reg → Nat) (b i : Reg) (scale sz : Nat) (d : Int) :
    (addrOf w ρ ⟨some b, some i, scale, d, sz⟩ < 2 ^ w ∧
      ((2 ^ w : Nat) : Int) ∣ (addrOf w ρ ⟨some b, some i, scale, d, sz⟩ : Int) -
        ((ρ b : Int) + (ρ i : Int) * (scale : Int) + d)) ∧
    (addrOf w ρ ⟨some b, none, scale, d, sz⟩ < 2 ^ w ∧
      ((2 ^ w : Nat) : Int) ∣ (addrOf w ρ ⟨some b, none, scale, d, sz⟩ : Int) - ((ρ b : Int) + d)) := by
  have hpos : (0 : Int) < ((2 ^ w : Nat) : Int) := by
    have := Nat.pow_pos (n := w) (show 0 < 2 by decide)
    omega
  have key : ∀ x : Int, (x % ((2 ^ w : Nat) : Int)).toNat < 2 ^ w ∧
      ((2 ^ w : Nat) : Int) ∣ ((x % ((2 ^ w : Nat) : Int)).toNat : Int) - x := by
    intro x
    have h0 := Int.emod_nonneg x (Int.ne_of_gt hpos)
    have h1 := Int.emod_lt_of_pos x hpos
    refine ⟨by omega, ?_⟩
    rw [Int.toNat_of_nonneg h0]
    refine ⟨-(x / ((2 ^ w : Nat) : Int)), ?_⟩
    have h2 := Int.emod_add_mul_ediv x ((2 ^ w : Nat) : Int)
    rw [Int.mul_neg]
    omega
  constructor
  · have := key (((ρ b + ρ i * scale : Nat) : Int) + d)
    simpa [addrOf, val] using this
  · have := key (((ρ b + 0 * scale : Nat) : Int) + d)
    simpa [addrOf, val] using this

example : addrOf 32 (fun _ => 16) ⟨some .eax, some .ecx, 4, -8, 8⟩ = 72 := by decide +kernel

end Verif.Uninit
