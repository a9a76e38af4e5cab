import Verif.Except
import Verif.MemRefThms

/-!
# Accesses to unaddressable memory that are excused

C82: which accesses to unaddressable memory are not reported, and what the decision
leaves behind.
-/

namespace Verif.Except

open Verif.Define (Sh)

/-! ## Specification -/

/-- A constant of the program is the number `k` (in a 32-bit build: modulo 2^32). -/
def Const (e : Env) (v : Int) (k : Nat) : Prop :=
  (e.x64 = true ∧ v = (k : Int)) ∨ (e.x64 = false ∧ ∃ q : Int, v = (k : Int) + q * 4294967296)

/-- The instruction at `pc` probes the stack, as the listings in alloc_drmem.c:1768-1869
have it; `next` is the place after it. -/
inductive Probe (e : Env) (pc next : Nat) : Instr → Prop
  | cmp {b n d k m m' x} (h : e.decode next = some (⟨.cmp, .reg .eax m, .imm k, m'⟩, x)) :
      Probe e pc next ⟨.test, .mem b .null 0 0, .reg .eax n, d⟩
  | load {b n d m m' k x} (h : e.decode next = some (⟨.movLd, .reg b m, m', .reg .esp k⟩, x)) :
      Probe e pc next ⟨.test, .mem b .null 0 0, .reg .eax n, d⟩
  | store {b n d m m' k x} (h : e.decode next = some (⟨.movSt, .reg b m, m', .reg .esp k⟩, x)) :
      Probe e pc next ⟨.test, .mem b .null 0 0, .reg .eax n, d⟩
  | xchg {b n d m m' k x} (h : e.decode next = some (⟨.xchg, .reg .esp m, m', k⟩, x)) :
      Probe e pc next ⟨.test, .mem b .null 0 0, .reg .eax n, d⟩
  | jmp {b n d i x} (h : e.decode next = some (i, x)) (hi : i.op = .jmp ∨ i.op = .jmpShort) :
      Probe e pc next ⟨.test, .mem b .null 0 0, .reg .eax n, d⟩
  | shift {s n} (h : e.read8 (pc - 1) = some 0x94) :
      Probe e pc next ⟨.movLd, .mem .eax .null 0 0, s, .reg .eax n⟩
  | cygwin {s} : Probe e pc next ⟨.or, .imm 0, s, .mem .ecx .null 0 0⟩
  | win64 {s} (hx : e.x64 = true) (h : e.read8 (pc - 1) = some 0xff) :
      Probe e pc next ⟨.movSt, .imm 0, s, .mem .r11 .null 0 0⟩

/-- The instructions `strchr` puts between the load and the constant. -/
inductive Xor (e : Env) : Instr → Prop
  | mk {r n q s} : Xor e ⟨.xor, .reg r n, s, .reg q e.ptr⟩

/-- The addition of a constant to a register. -/
inductive AddConst (e : Env) : Instr → Prop
  | mk {k q s} : AddConst e ⟨.add, .imm k, s, .reg q e.ptr⟩

/-- The subtraction of one register from another. -/
inductive SubReg (e : Env) : Instr → Prop
  | mk {r n q s} : SubReg e ⟨.sub, .reg r n, s, .reg q e.ptr⟩

/-- The instructions from `a` on, up to the one the constant is looked for in: at most an
exclusive or, and an addition with at most a subtraction after it. -/
inductive Chain (e : Env) (a : Nat) : Instr → Prop
  | plain {i x} (h : e.decode a = some (i, x)) (hx : ¬ Xor e i) (ha : ¬ AddConst e i) : Chain e a i
  | xor {i j x y} (h : e.decode a = some (i, x)) (hx : Xor e i) (h2 : e.decode x = some (j, y))
      (ha : ¬ AddConst e j) : Chain e a j
  | add {i j x y} (h : e.decode a = some (i, x)) (ha : AddConst e i)
      (h2 : e.decode x = some (j, y)) (hs : ¬ SubReg e j) : Chain e a j
  | addSub {i j k x y z} (h : e.decode a = some (i, x)) (ha : AddConst e i)
      (h2 : e.decode x = some (j, y)) (hs : SubReg e j) (h3 : e.decode y = some (k, z)) : Chain e a k
  | xorAdd {i j k x y z} (h : e.decode a = some (i, x)) (hx : Xor e i)
      (h2 : e.decode x = some (j, y)) (ha : AddConst e j) (h3 : e.decode y = some (k, z))
      (hs : ¬ SubReg e k) : Chain e a k
  | xorAddSub {i j k l x y z w} (h : e.decode a = some (i, x)) (hx : Xor e i)
      (h2 : e.decode x = some (j, y)) (ha : AddConst e j) (h3 : e.decode y = some (k, z))
      (hs : SubReg e k) (h4 : e.decode z = some (l, w)) : Chain e a l

/-- The instruction at `pc` is a load of one of the string routines, as the listings in
alloc_drmem.c:1668-1704, 1979-2007 and 2084-2113 have it. -/
inductive StringLoad (e : Env) (pc next : Nat) : Instr → Prop
  | strlen {d s n i x} (hd : d = 0 ∨ d = -4) (hr : e.read32 next = some 0x3274c084)
      (h : e.decode next = some (i, x)) (hi : i.op ≠ .invalid) :
      StringLoad e pc next ⟨.movLd, .mem .ecx .null 0 d, s, .reg .eax n⟩
  | strlenMagic {d s n v s' m x} (hd : d = 0 ∨ d = -4)
      (h : e.decode next = some (⟨.movImm, .imm v, s', .reg .edx m⟩, x))
      (hv : Const e v 0x7efefeff) :
      StringLoad e pc next ⟨.movLd, .mem .ecx .null 0 d, s, .reg .eax n⟩
  | strlenPrev {s r n w} (hr : r = .eax ∨ r = .edx) (h : e.read32 (pc - 4) = some w)
      (hw : w = 0x7efefeff ∨ w = 0xc233fff0) :
      StringLoad e pc next ⟨.movLd, .mem .esi .null 0 0, s, .reg r n⟩
  | strcpy {s n i x s' d m y} (h : e.decode next = some (i, x)) (hi : i.op ≠ .invalid)
      (h2 : e.decode x = some (⟨.lea, .mem .ecx .null 0 d, s', .reg .eax m⟩, y))
      (hd : ∃ q : Int, d = 0xfefefeff + q * 4294967296) :
      StringLoad e pc next ⟨.movLd, .mem .ebx .null 0 0, s, .reg .ecx n⟩
  | search {s s' r i q m} (h : Chain e next i) (ho : i.op = .movImm ∨ i.op = .add)
      (hv : Const e (e.immed i.src0) 0xfefefeff ∨ Const e (e.immed i.src0) 0x7efefeff)
      (hd : i.dst = .reg q m) :
      StringLoad e pc next ⟨.movLd, s, s', .reg r e.ptr⟩

/-- The address lies in the `k`-th of `n` slots from `base` on. -/
def InSlot (e : Env) (base n addr k : Nat) : Prop :=
  k < n ∧ base + k * e.ptr ≤ addr ∧ addr < base + (k + 1) * e.ptr

/-- Slot `k` is in use according to the bitmap. -/
def Used (bits : Nat → Nat) (k : Nat) : Prop := (bits (k / 32)).testBit (k % 32) = true

/-- The size of a critical section of Windows. -/
def lockSize (e : Env) : Nat := if e.x64 then 40 else 24

/-- In a handler of exceptions, the instruction takes part in the release of the lock of a heap:
the access is to the lock seen before, or the instruction passes such a lock on. -/
def HeapLock (e : Env) (crit next addr : Nat) (i : Instr) : Prop :=
  e.inSeh = true ∧ e.inHeap addr = true ∧
    ((crit ≤ addr ∧ addr < crit + lockSize e) ∨
     (i.op = .push ∧ (∃ c, e.readPtr (e.ea i.src0) = some c) ∧
      ((∃ a, i.src0 = .abs a) ∨ ∃ b x s d, i.src0 = .mem b x s d) ∧
      ∃ n x, e.decode next = some (n, x) ∧ n.op = .call ∧ n.src0 = .pc e.leaveCrit))

/-- The region around the address is one the tool does not know, and may be taken for
defined. -/
def Unknown (e : Env) (addr : Nat) (onStack : Bool) : Prop :=
  e.shadowing = true ∧ e.defineUnknown = true ∧ e.inHeap addr = false ∧
    (e.checkStackBounds = true → onStack = false) ∧ (e.windows = true → addr < e.highUser) ∧
    ∃ b n, e.alloc addr = some (b, n) ∧ n ≠ 0 ∧ b ≠ 0

/-! ## The patterns -/

theorem isTheReg_iff {r : Reg} {o : Opnd} : isTheReg r o = true ↔ ∃ n, o = .reg r n := by
  cases o <;> simp [isTheReg]

theorem isReg_iff {o : Opnd} : isReg o = true ↔ ∃ r n, o = .reg r n := by
  cases o <;> simp [isReg]

theorem isImm_iff {o : Opnd} : isImm o = true ↔ ∃ v, o = .imm v := by
  cases o <;> simp [isImm]

theorem isPtrReg_iff {e : Env} {o : Opnd} : e.isPtrReg o = true ↔ ∃ r, o = .reg r e.ptr := by
  cases o <;> simp [Env.isPtrReg]

theorem isMem_iff {b : Reg} {ds : List Int} {o : Opnd} :
    isMem b ds o = true ↔ ∃ d, d ∈ ds ∧ o = .mem b .null 0 d := by
  cases o with
  | mem base index scale disp =>
    simp only [isMem, Bool.and_eq_true, decide_eq_true_eq, List.contains_iff_mem, Opnd.mem.injEq]
    constructor
    · rintro ⟨⟨⟨rfl, rfl⟩, rfl⟩, h⟩
      exact ⟨disp, h, rfl, rfl, rfl, rfl⟩
    · rintro ⟨d, h, rfl, rfl, rfl, rfl⟩
      exact ⟨⟨⟨rfl, rfl⟩, rfl⟩, h⟩
  | _ => simp [isMem]

theorem isMemory_iff {o : Opnd} :
    isMemory o = true ↔ (∃ a, o = .abs a) ∨ ∃ b x s d, o = .mem b x s d := by
  cases o <;> simp [isMemory]

theorem mod_const {v : Int} {k : Nat} (hk : k < 4294967296) :
    v % 4294967296 = (k : Int) ↔ ∃ q : Int, v = (k : Int) + q * 4294967296 := by
  constructor
  · intro h
    exact ⟨v / 4294967296, by omega⟩
  · rintro ⟨q, rfl⟩
    omega

theorem eqConst_iff {e : Env} {v : Int} {k : Nat} (hk : k < 4294967296) :
    e.eqConst v k = true ↔ Const e v k := by
  unfold Env.eqConst Const
  cases e.x64 with
  | true => simp
  | false => simp only [Bool.false_eq_true, if_false, decide_eq_true_eq, false_and, false_or,
      true_and]; exact mod_const hk

theorem afterProbe_iff {e : Env} {pc next : Nat} {b : Reg} {n : Nat} {d : Opnd} :
    (∃ i x, e.decode next = some (i, x) ∧ afterProbe b i = true) ↔
      Probe e pc next ⟨.test, .mem b .null 0 0, .reg .eax n, d⟩ := by
  constructor
  · rintro ⟨⟨op, s0, s1, dst⟩, x, h, ha⟩
    cases op <;> simp only [afterProbe, Bool.and_eq_true, isTheReg_iff, isImm_iff,
      Bool.false_eq_true] at ha
    case cmp => obtain ⟨⟨m, rfl⟩, k, rfl⟩ := ha; exact .cmp h
    case movLd => obtain ⟨⟨m, rfl⟩, k, rfl⟩ := ha; exact .load h
    case movSt => obtain ⟨⟨m, rfl⟩, k, rfl⟩ := ha; exact .store h
    case xchg => obtain ⟨m, rfl⟩ := ha; exact .xchg h
    case jmp => exact .jmp h (.inl rfl)
    case jmpShort => exact .jmp h (.inr rfl)
  · intro h
    cases h with
    | cmp h => exact ⟨_, _, h, by simp [afterProbe, isTheReg, isImm]⟩
    | load h => exact ⟨_, _, h, by simp [afterProbe, isTheReg]⟩
    | store h => exact ⟨_, _, h, by simp [afterProbe, isTheReg]⟩
    | xchg h => exact ⟨_, _, h, by simp [afterProbe, isTheReg]⟩
    | jmp h hi =>
      refine ⟨_, _, h, ?_⟩
      rcases hi with hi | hi <;> simp [afterProbe, hi]

/-- C82: an instruction is taken for a stack probe exactly if it is one of the listed ones. -/
theorem C82_probe (e : Env) (pc next : Nat) (i : Instr) :
    e.alloca pc next i = true ↔ Probe e pc next i := by
  obtain ⟨op, s0, s1, dst⟩ := i
  by_cases htest : op = .test
  · subst htest
    cases s0 with
    | mem b x sc dp =>
      simp only [Env.alloca]
      constructor
      · intro h
        split at h
        · rename_i hc
          obtain ⟨rfl, rfl, rfl, h4⟩ := hc
          obtain ⟨n, rfl⟩ := isTheReg_iff.1 h4
          refine afterProbe_iff.1 ?_
          revert h
          cases hd : e.decode next with
          | none => simp
          | some p => intro h; exact ⟨p.1, p.2, rfl, h⟩
        · cases h
      · intro h
        have hx : x = .null ∧ sc = 0 ∧ dp = 0 ∧ ∃ n, s1 = .reg .eax n := by
          cases h <;> exact ⟨rfl, rfl, rfl, _, rfl⟩
        obtain ⟨rfl, rfl, rfl, n, rfl⟩ := hx
        obtain ⟨i, y, hd, ha⟩ := afterProbe_iff.2 h
        rw [if_pos ⟨rfl, rfl, rfl, by simp [isTheReg]⟩, hd]
        exact ha
    | _ =>
      simp only [Env.alloca, Bool.false_eq_true, false_iff]
      intro h
      cases h
  · cases op with
    | test => exact absurd rfl htest
    | movLd =>
      simp only [Env.alloca, Bool.and_eq_true, isMem_iff, isTheReg_iff, Env.prevByte,
        decide_eq_true_eq, List.mem_singleton]
      constructor
      · rintro ⟨⟨⟨d, rfl, rfl⟩, n, rfl⟩, h⟩
        exact .shift h
      · rintro ⟨⟩
        exact ⟨⟨⟨0, rfl, rfl⟩, _, rfl⟩, by assumption⟩
    | or =>
      simp only [Env.alloca, Bool.and_eq_true, isMem_iff, isImm_iff,
        decide_eq_true_eq, List.mem_singleton]
      constructor
      · rintro ⟨⟨⟨d, rfl, rfl⟩, n, rfl⟩, h⟩
        simp only [Env.immed] at h
        subst h
        exact .cygwin
      · rintro ⟨⟩
        exact ⟨⟨⟨0, rfl, rfl⟩, _, rfl⟩, rfl⟩
    | movSt =>
      simp only [Env.alloca, Bool.and_eq_true, isMem_iff, isImm_iff, Env.prevByte,
        decide_eq_true_eq, List.mem_singleton]
      constructor
      · rintro ⟨⟨⟨⟨hx, d, rfl, rfl⟩, n, rfl⟩, h⟩, h2⟩
        simp only [Env.immed] at h
        subst h
        exact .win64 hx h2
      · rintro ⟨⟩
        exact ⟨⟨⟨⟨by assumption, 0, rfl, rfl⟩, _, rfl⟩, rfl⟩, by assumption⟩
    | _ =>
      simp only [Env.alloca, Bool.false_eq_true, false_iff]
      intro h
      cases h

theorem xor_iff {e : Env} {i : Instr} :
    (i.op = .xor ∧ isReg i.src0 = true ∧ e.isPtrReg i.dst = true) ↔ Xor e i := by
  obtain ⟨op, s0, s1, dst⟩ := i
  simp only [isReg_iff, isPtrReg_iff]
  constructor
  · rintro ⟨rfl, ⟨r, n, rfl⟩, q, rfl⟩
    exact .mk
  · rintro ⟨⟩
    exact ⟨rfl, ⟨_, _, rfl⟩, _, rfl⟩

theorem addConst_iff {e : Env} {i : Instr} :
    (i.op = .add ∧ isImm i.src0 = true ∧ e.isPtrReg i.dst = true) ↔ AddConst e i := by
  obtain ⟨op, s0, s1, dst⟩ := i
  simp only [isImm_iff, isPtrReg_iff]
  constructor
  · rintro ⟨rfl, ⟨v, rfl⟩, q, rfl⟩
    exact .mk
  · rintro ⟨⟩
    exact ⟨rfl, ⟨_, rfl⟩, _, rfl⟩

theorem subReg_iff {e : Env} {i : Instr} :
    (i.op = .sub ∧ isReg i.src0 = true ∧ e.isPtrReg i.dst = true) ↔ SubReg e i := by
  obtain ⟨op, s0, s1, dst⟩ := i
  simp only [isReg_iff, isPtrReg_iff]
  constructor
  · rintro ⟨rfl, ⟨r, n, rfl⟩, q, rfl⟩
    exact .mk
  · rintro ⟨⟩
    exact ⟨rfl, ⟨_, _, rfl⟩, _, rfl⟩

theorem xor_not_add {e : Env} {i : Instr} (h : Xor e i) : ¬ AddConst e i := by
  intro h2
  cases h
  cases h2

/-- The instruction the constant is looked for in. -/
theorem chain_iff {e : Env} {a : Nat} {i : Instr} :
    (∃ n m x, e.decode a = some n ∧ e.skipXor n = some m ∧ e.skipAddSub m = some (i, x)) ↔
      Chain e a i := by
  classical
  have hX : ∀ n : Instr × Nat, e.skipXor n = if Xor e n.1 then e.decode n.2 else some n := by
    intro n
    unfold Env.skipXor
    by_cases h : Xor e n.1
    · rw [if_pos h, if_pos (xor_iff.2 h)]
    · rw [if_neg h, if_neg (fun h2 => h (xor_iff.1 h2))]
  have hA : ∀ n : Instr × Nat, e.skipAddSub n = if AddConst e n.1 then
      (match e.decode n.2 with
       | none => none
       | some m => if SubReg e m.1 then e.decode m.2 else some m) else some n := by
    intro n
    unfold Env.skipAddSub
    by_cases h : AddConst e n.1
    · rw [if_pos h, if_pos (addConst_iff.2 h)]
      cases e.decode n.2 with
      | none => rfl
      | some m =>
        dsimp only
        by_cases h2 : SubReg e m.1
        · rw [if_pos h2, if_pos (subReg_iff.2 h2)]
        · rw [if_neg h2, if_neg (fun h3 => h2 (subReg_iff.1 h3))]
    · rw [if_neg h, if_neg (fun h2 => h (addConst_iff.1 h2))]
  constructor
  · rintro ⟨⟨n, x1⟩, ⟨m, x2⟩, x3, h1, h2, h3⟩
    rw [hX] at h2
    rw [hA] at h3
    by_cases hx : Xor e n
    · rw [if_pos hx] at h2
      by_cases ha : AddConst e m
      · rw [if_pos ha] at h3
        dsimp only at h2 h3
        cases hd : e.decode x2 with
        | none => rw [hd] at h3; cases h3
        | some k =>
          rw [hd] at h3
          dsimp only at h3
          by_cases hs : SubReg e k.1
          · rw [if_pos hs] at h3
            exact .xorAddSub h1 hx h2 ha hd hs h3
          · rw [if_neg hs] at h3
            cases h3
            exact .xorAdd h1 hx h2 ha hd hs
      · rw [if_neg ha] at h3
        cases h3
        exact .xor h1 hx h2 ha
    · rw [if_neg hx] at h2
      cases h2
      by_cases ha : AddConst e n
      · rw [if_pos ha] at h3
        dsimp only at h3
        cases hd : e.decode x1 with
        | none => rw [hd] at h3; cases h3
        | some k =>
          rw [hd] at h3
          dsimp only at h3
          by_cases hs : SubReg e k.1
          · rw [if_pos hs] at h3
            exact .addSub h1 ha hd hs h3
          · rw [if_neg hs] at h3
            cases h3
            exact .add h1 ha hd hs
      · rw [if_neg ha] at h3
        cases h3
        exact .plain h1 hx ha
  · intro h
    cases h with
    | plain h hx ha =>
      exact ⟨_, _, _, h, by rw [hX, if_neg hx], by rw [hA, if_neg ha]⟩
    | xor h hx h2 ha =>
      exact ⟨_, _, _, h, by rw [hX, if_pos hx]; exact h2, by rw [hA, if_neg ha]⟩
    | add h ha h2 hs =>
      exact ⟨_, _, _, h, by rw [hX, if_neg fun hx => xor_not_add hx ha],
        by rw [hA, if_pos ha, h2]; dsimp only; rw [if_neg hs]⟩
    | addSub h ha h2 hs h3 =>
      exact ⟨_, _, _, h, by rw [hX, if_neg fun hx => xor_not_add hx ha],
        by rw [hA, if_pos ha, h2]; dsimp only; rw [if_pos hs]; exact h3⟩
    | xorAdd h hx h2 ha h3 hs =>
      exact ⟨_, _, _, h, by rw [hX, if_pos hx]; exact h2,
        by rw [hA, if_pos ha, h3]; dsimp only; rw [if_neg hs]⟩
    | xorAddSub h hx h2 ha h3 hs h4 =>
      exact ⟨_, _, _, h, by rw [hX, if_pos hx]; exact h2,
        by rw [hA, if_pos ha, h3]; dsimp only; rw [if_pos hs]; exact h4⟩

theorem isMagic_iff {e : Env} {i : Instr} :
    e.isMagic i = true ↔ (i.op = .movImm ∨ i.op = .add) ∧
      (Const e (e.immed i.src0) 0xfefefeff ∨ Const e (e.immed i.src0) 0x7efefeff) ∧
      ∃ q m, i.dst = .reg q m := by
  unfold Env.isMagic
  rw [Bool.and_eq_true, Bool.and_eq_true, Bool.or_eq_true, Bool.or_eq_true, decide_eq_true_eq,
    decide_eq_true_eq, eqConst_iff (by omega), eqConst_iff (by omega), isReg_iff, and_assoc]

/-- The search of `rawmemchr` and its kin. -/
theorem rawmemchr_iff {e : Env} {next addr : Nat} {i : Instr} :
    e.rawmemchr next addr i = true ↔ addr % 4 ≠ 0 ∧ i.op = .movLd ∧ (∃ r, i.dst = .reg r e.ptr) ∧
      ∃ j q m, Chain e next j ∧ (j.op = .movImm ∨ j.op = .add) ∧
        (Const e (e.immed j.src0) 0xfefefeff ∨ Const e (e.immed j.src0) 0x7efefeff) ∧
        j.dst = .reg q m := by
  constructor
  · intro h
    unfold Env.rawmemchr at h
    cases hd : e.decode next with
    | none => rw [hd] at h; cases h
    | some n =>
      rw [hd] at h
      dsimp only at h
      split at h
      · rename_i hc
        cases hx : e.skipXor n with
        | none => rw [hx] at h; cases h
        | some m =>
          rw [hx] at h
          dsimp only at h
          cases ha : e.skipAddSub m with
          | none => rw [ha] at h; cases h
          | some k =>
            rw [ha] at h
            obtain ⟨g1, g2, q, m', g3⟩ := isMagic_iff.1 h
            exact ⟨hc.1, hc.2.1, isPtrReg_iff.1 hc.2.2, k.1, q, m',
              chain_iff.1 ⟨n, m, k.2, hd, hx, ha⟩, g1, g2, g3⟩
      · cases h
  · rintro ⟨h1, h2, h3, j, q, m, hc, ho, hv, hdst⟩
    obtain ⟨n, k, x, hd, hx, ha⟩ := chain_iff.2 hc
    unfold Env.rawmemchr
    rw [hd]
    dsimp only
    rw [if_pos ⟨h1, h2, isPtrReg_iff.2 h3⟩, hx]
    dsimp only
    rw [ha]
    exact isMagic_iff.2 ⟨ho, hv, q, m, hdst⟩

theorem isMagicLea_iff {i : Instr} :
    isMagicLea i = true ↔ ∃ d s m, i = ⟨.lea, .mem .ecx .null 0 d, s, .reg .eax m⟩ ∧
      ∃ q : Int, d = 0xfefefeff + q * 4294967296 := by
  obtain ⟨op, s0, s1, dst⟩ := i
  have hm := fun d : Int => mod_const (v := d) (k := 0xfefefeff) (by omega)
  cases s0 with
  | mem b x sc d =>
    simp only [isMagicLea, Bool.and_eq_true, decide_eq_true_eq, isTheReg_iff]
    constructor
    · rintro ⟨⟨rfl, m, rfl⟩, ⟨⟨rfl, rfl⟩, rfl⟩, h⟩
      exact ⟨d, s1, m, rfl, (hm d).1 h⟩
    · rintro ⟨d', s, m, h, hq⟩
      cases h
      exact ⟨⟨rfl, m, rfl⟩, ⟨⟨rfl, rfl⟩, rfl⟩, (hm d).2 hq⟩
  | _ =>
    simp only [isMagicLea, Bool.and_false, Bool.false_eq_true, false_iff]
    rintro ⟨d', s, m, h, hq⟩
    cases h

theorem strcpy_iff {e : Env} {next addr : Nat} {i : Instr} :
    e.strcpy next addr i = true ↔ addr % 4 ≠ 0 ∧
      ∃ s n, i = ⟨.movLd, .mem .ebx .null 0 0, s, .reg .ecx n⟩ ∧
        ∃ j x y d s' m, e.decode next = some (j, x) ∧ j.op ≠ .invalid ∧
          e.decode x = some (⟨.lea, .mem .ecx .null 0 d, s', .reg .eax m⟩, y) ∧
          ∃ q : Int, d = 0xfefefeff + q * 4294967296 := by
  obtain ⟨op, s0, s1, dst⟩ := i
  constructor
  · intro h
    unfold Env.strcpy at h
    split at h
    · rename_i hc
      obtain ⟨h1, h2, h3, h4⟩ := hc
      obtain ⟨d0, hd0, g3⟩ := isMem_iff.1 h3
      obtain ⟨n, g4⟩ := isTheReg_iff.1 h4
      simp only [List.mem_singleton] at hd0
      dsimp only at h2 g3 g4
      subst h2 g3 g4 hd0
      refine ⟨h1, s1, n, rfl, ?_⟩
      cases hd : e.decode next with
      | none => rw [hd] at h; cases h
      | some p =>
        rw [hd] at h
        dsimp only at h
        split at h
        · cases h
        · rename_i hv
          cases hd2 : e.decode p.2 with
          | none => rw [hd2] at h; cases h
          | some p2 =>
            rw [hd2] at h
            dsimp only at h
            obtain ⟨d, s, m, h5, hq⟩ := isMagicLea_iff.1 h
            exact ⟨p.1, p.2, p2.2, d, s, m, rfl, hv, by rw [hd2, ← h5], hq⟩
    · cases h
  · rintro ⟨h1, s, n, h, j, x, y, d, s', m, hd, hj, hd2, hq⟩
    cases h
    unfold Env.strcpy
    rw [if_pos ⟨h1, rfl, by simp [isMem], by simp [isTheReg]⟩, hd]
    dsimp only
    rw [if_neg hj, hd2]
    exact isMagicLea_iff.2 ⟨d, s', m, rfl, hq⟩

/-- The two shapes of `strlen`; `none` only if the four bytes after the load cannot be read. -/
theorem strlen_some {e : Env} {pc next addr : Nat} {i : Instr} {b : Bool}
    (h : e.strlen pc next addr i = some b) :
    b = true ↔ addr % 4 ≠ 0 ∧
      ((∃ d s n, i = ⟨.movLd, .mem .ecx .null 0 d, s, .reg .eax n⟩ ∧ (d = 0 ∨ d = -4) ∧
        ((e.read32 next = some 0x3274c084 ∧ ∃ j x, e.decode next = some (j, x) ∧ j.op ≠ .invalid) ∨
          ∃ v s' m x, e.decode next = some (⟨.movImm, .imm v, s', .reg .edx m⟩, x) ∧
            Const e v 0x7efefeff)) ∨
       (∃ s r n w, i = ⟨.movLd, .mem .esi .null 0 0, s, .reg r n⟩ ∧ (r = .eax ∨ r = .edx) ∧
        e.read32 (pc - 4) = some w ∧ (w = 0x7efefeff ∨ w = 0xc233fff0))) := by
  obtain ⟨op, s0, s1, dst⟩ := i
  unfold Env.strlen at h
  split at h
  · rename_i hc
    obtain ⟨h1, h2, h3, h4⟩ := hc
    obtain ⟨d0, hd0, g3⟩ := isMem_iff.1 h3
    obtain ⟨n, g4⟩ := isTheReg_iff.1 h4
    simp only [List.mem_cons, List.not_mem_nil, or_false] at hd0
    dsimp only at h2 g3 g4
    subst h2 g3 g4
    cases hr : e.read32 next with
    | none => rw [hr] at h; cases h
    | some raw =>
      rw [hr] at h
      dsimp only at h
      cases hd : e.decode next with
      | none =>
        rw [hd] at h
        cases h
        constructor
        · intro h; cases h
        · rintro ⟨_, ⟨d, s, n, hi, _, ⟨_, j, x, hj, _⟩ | ⟨v, s', m, x, hj, _⟩⟩ | ⟨s, r, n, w, hi, _⟩⟩
          · cases hj
          · cases hj
          · cases hi
      | some p =>
        obtain ⟨⟨nop, ns0, ns1, ndst⟩, x⟩ := p
        rw [hd] at h
        simp only [Option.some.injEq] at h
        subst h
        simp only [Bool.and_eq_true, Bool.or_eq_true, decide_eq_true_eq, isImm_iff, isTheReg_iff]
        constructor
        · rintro ⟨hv, hraw | ⟨⟨⟨rfl, v, rfl⟩, hc⟩, m, rfl⟩⟩
          · subst hraw
            exact ⟨h1, .inl ⟨d0, s1, n, rfl, hd0, .inl ⟨rfl, _, _, rfl, hv⟩⟩⟩
          · exact ⟨h1, .inl ⟨d0, s1, n, rfl, hd0, .inr ⟨v, ns1, m, x, rfl,
              (eqConst_iff (by omega)).1 hc⟩⟩⟩
        · rintro ⟨_, ⟨d, s, n, hi, _, ⟨hw, j, x, hj, hv⟩ | ⟨v, s', m, x, hj, hv⟩⟩ |
            ⟨s, r, n, w, hi, _⟩⟩
          · cases hj
            cases hw
            exact ⟨hv, .inl rfl⟩
          · cases hj
            exact ⟨by simp, .inr ⟨⟨⟨rfl, v, rfl⟩, (eqConst_iff (by omega)).2 hv⟩, m, rfl⟩⟩
          · cases hi
  · rename_i hn
    split at h
    · rename_i hc
      obtain ⟨h1, h2, h3, h4⟩ := hc
      obtain ⟨d0, hd0, g3⟩ := isMem_iff.1 h3
      simp only [List.mem_singleton] at hd0
      have hr : ∃ r n, dst = .reg r n ∧ (r = .eax ∨ r = .edx) := by
        rcases h4 with h4 | h4
        · obtain ⟨n, h4⟩ := isTheReg_iff.1 h4; exact ⟨_, n, h4, .inl rfl⟩
        · obtain ⟨n, h4⟩ := isTheReg_iff.1 h4; exact ⟨_, n, h4, .inr rfl⟩
      obtain ⟨r, n, hdst, hr⟩ := hr
      dsimp only at h2 g3
      subst h2 g3 hd0 hdst
      cases hw : e.read32 (pc - 4) with
      | none =>
        rw [hw] at h
        cases h
        constructor
        · intro h; cases h
        · rintro ⟨_, ⟨d, s, n, hi, _⟩ | ⟨s, r, n, w, hi, _, hw, _⟩⟩
          · cases hi
          · cases hw
      | some w =>
        rw [hw] at h
        simp only [Option.some.injEq] at h
        subst h
        simp only [Bool.or_eq_true, decide_eq_true_eq]
        constructor
        · intro h
          exact ⟨h1, .inr ⟨s1, r, n, w, rfl, hr, rfl, h⟩⟩
        · rintro ⟨_, ⟨d, s, n, hi, _⟩ | ⟨s, r, n, w, hi, _, hw, hv⟩⟩
          · cases hi
          · cases hw; exact hv
    · rename_i hn2
      cases h
      constructor
      · intro h; cases h
      · rintro ⟨h1, ⟨d, s, n, hi, hd, _⟩ | ⟨s, r, n, w, hi, hr, _⟩⟩
        · cases hi
          exact absurd ⟨h1, rfl, isMem_iff.2 ⟨d, by simpa using hd, rfl⟩, by simp [isTheReg]⟩ hn
        · cases hi
          refine absurd ⟨h1, rfl, isMem_iff.2 ⟨0, by simp, rfl⟩, ?_⟩ hn2
          rcases hr with rfl | rfl <;> simp [isTheReg]

/-- C82: unless the tool faults, the patterns of string routines match exactly the listed
loads, at addresses that are no multiple of four. -/
theorem C82_string {e : Env} {pc next addr : Nat} {i : Instr} {b : Bool}
    (h : e.strlen pc next addr i = some b) :
    (b = true ∨ e.strcpy next addr i = true ∨ e.rawmemchr next addr i = true) ↔
      addr % 4 ≠ 0 ∧ StringLoad e pc next i := by
  rw [strlen_some h, strcpy_iff, rawmemchr_iff]
  constructor
  · rintro (⟨h1, ⟨d, s, n, rfl, hd, ⟨hr, j, x, hj, hv⟩ | ⟨v, s', m, x, hj, hv⟩⟩ |
      ⟨s, r, n, w, rfl, hr, hw, hv⟩⟩ | ⟨h1, s, n, rfl, j, x, y, d, s', m, hj, hv, hj2, hq⟩ |
      ⟨h1, h2, ⟨r, h3⟩, j, q, m, hc, ho, hv, hd⟩)
    · exact ⟨h1, .strlen hd hr hj hv⟩
    · exact ⟨h1, .strlenMagic hd hj hv⟩
    · exact ⟨h1, .strlenPrev hr hw hv⟩
    · exact ⟨h1, .strcpy hj hv hj2 hq⟩
    · obtain ⟨op, s0, s1, dst⟩ := i
      dsimp only at h2 h3
      subst h2 h3
      exact ⟨h1, .search hc ho hv hd⟩
  · rintro ⟨h1, h⟩
    cases h with
    | strlen hd hr hj hv => exact .inl ⟨h1, .inl ⟨_, _, _, rfl, hd, .inl ⟨hr, _, _, hj, hv⟩⟩⟩
    | strlenMagic hd hj hv => exact .inl ⟨h1, .inl ⟨_, _, _, rfl, hd, .inr ⟨_, _, _, _, hj, hv⟩⟩⟩
    | strlenPrev hr hw hv => exact .inl ⟨h1, .inr ⟨_, _, _, _, rfl, hr, hw, hv⟩⟩
    | strcpy hj hv hj2 hq =>
      exact .inr (.inl ⟨h1, _, _, rfl, _, _, _, _, _, _, hj, hv, hj2, hq⟩)
    | search hc ho hv hd => exact .inr (.inr ⟨h1, rfl, ⟨_, rfl⟩, _, _, _, hc, ho, hv, hd⟩)

/-- C82: the tool faults in the string patterns exactly if the load looks like the one of `strlen` and the
four bytes after it cannot be read. -/
theorem C82_fault (e : Env) (pc next addr : Nat) (i : Instr) :
    e.strlen pc next addr i = none ↔ addr % 4 ≠ 0 ∧ e.read32 next = none ∧
      ∃ d s n, i = ⟨.movLd, .mem .ecx .null 0 d, s, .reg .eax n⟩ ∧ (d = 0 ∨ d = -4) := by
  obtain ⟨op, s0, s1, dst⟩ := i
  constructor
  · intro h
    unfold Env.strlen at h
    split at h
    · rename_i hc
      obtain ⟨h1, h2, h3, h4⟩ := hc
      obtain ⟨d0, hd0, g3⟩ := isMem_iff.1 h3
      obtain ⟨n, g4⟩ := isTheReg_iff.1 h4
      simp only [List.mem_cons, List.not_mem_nil, or_false] at hd0
      dsimp only at h2 g3 g4
      subst h2 g3 g4
      refine ⟨h1, ?_, d0, s1, n, rfl, hd0⟩
      cases hr : e.read32 next with
      | none => rfl
      | some raw =>
        rw [hr] at h
        dsimp only at h
        cases hd : e.decode next with
        | none => rw [hd] at h; cases h
        | some p => rw [hd] at h; cases h
    · split at h
      · cases hw : e.read32 (pc - 4) with
        | none => rw [hw] at h; cases h
        | some w => rw [hw] at h; cases h
      · cases h
  · rintro ⟨h1, hr, d, s, n, hi, hd⟩
    cases hi
    unfold Env.strlen
    rw [if_pos ⟨h1, rfl, isMem_iff.2 ⟨d, by simpa using hd, rfl⟩, by simp [isTheReg]⟩, hr]

/-! ## The thread's slots -/

theorem bitSet_iff {bits : Nat → Nat} {k : Nat} : bitSet bits k = true ↔ Used bits k := by
  unfold bitSet Used
  rw [Nat.one_shiftLeft, decide_eq_true_eq]
  generalize bits (k / 32) = w
  generalize k % 32 = j
  constructor
  · intro h
    cases hb : w.testBit j with
    | true => rfl
    | false =>
      refine absurd (Nat.eq_of_testBit_eq fun t => ?_) h
      rw [Nat.testBit_and, Nat.testBit_two_pow, Nat.zero_testBit]
      by_cases ht : j = t
      · subst ht; rw [hb]; rfl
      · simp [ht]
  · intro h h0
    have h1 : (w &&& 2 ^ j).testBit j = true := by
      rw [Nat.testBit_and, Nat.testBit_two_pow, h]; simp
    rw [h0, Nat.zero_testBit] at h1
    cases h1

theorem ptr_pos (e : Env) : 0 < e.ptr := by unfold Env.ptr; split <;> omega

/-- In which slot an address lies. -/
theorem inSlot_iff {e : Env} {base n addr : Nat} :
    (base ≤ addr ∧ addr < base + n * e.ptr) ↔ InSlot e base n addr ((addr - base) / e.ptr) := by
  have hp := ptr_pos e
  unfold InSlot
  generalize hq : (addr - base) / e.ptr = q
  have h1 : q * e.ptr ≤ addr - base := by rw [← hq]; exact Nat.div_mul_le_self _ _
  have h2 : addr - base < (q + 1) * e.ptr := by
    rw [← hq, Nat.add_mul, Nat.one_mul]; exact Nat.lt_div_mul_add hp
  constructor
  · rintro ⟨h3, h4⟩
    have : q < n := by rw [← hq]; exact (Nat.div_lt_iff_lt_mul hp).2 (by omega)
    exact ⟨this, by omega, by omega⟩
  · rintro ⟨h3, h4, h5⟩
    have : (q + 1) * e.ptr ≤ n * e.ptr := Nat.mul_le_mul_right _ h3
    have : base ≤ addr := by omega
    exact ⟨this, by omega⟩

theorem inSlot_unique {e : Env} {base n addr k : Nat} (h : InSlot e base n addr k) :
    k = (addr - base) / e.ptr := by
  have hp := ptr_pos e
  obtain ⟨_, h1, h2⟩ := h
  refine (Nat.div_eq_of_lt_le ?_ ?_).symm
  · omega
  · have : k * e.ptr < (k + 1) * e.ptr := by rw [Nat.add_mul]; omega
    omega

theorem exp_slots (e : Env) : expSlots = (if e.x64 then 128 else 256) * e.ptr := by
  unfold expSlots Env.ptr
  cases e.x64 <;> rfl

/-- Surroundings for the examples: 32-bit Windows, nothing known. -/
def env0 : Env :=
  { x64 := false
    windows := true
    decode := fun _ => none
    read8 := fun _ => none
    read32 := fun _ => none
    readPtr := fun _ => none
    junk := fun _ => 0
    ea := fun _ => 0
    readable := fun _ => true
    inHeap := fun _ => false
    inHeapRoutine := false
    inSeh := false
    leaveCrit := 0
    inTool := fun _ => false
    modName := fun _ => none
    tlsSlots := 5000
    tlsExp := some 7000
    tlsBits := fun _ => 32
    expBits := fun _ => 0
    checkPrefetch := true
    shadowing := true
    defineUnknown := true
    checkStackBounds := true
    highUser := 100000
    alloc := fun _ => none
    mark := fun _ _ sh => sh }

/-- The state of the examples. -/
def st0 : St :=
  { sh := fun _ => .unaddr
    table := []
    crit := 0
    warned := [] }

/-- C82 (Windows): an address in one of the 64 slots of the thread block is excused exactly if the
bitmap has the slot in use, whatever the instruction. -/
theorem C82_tls_slot {e : Env} (hw : e.windows = true) {s : St} {loc : Loc} {addr k : Nat}
    {onStack : Bool} (hh : ¬ (e.inHeap addr = true ∧ e.inHeapRoutine = true))
    (hk : InSlot e e.tlsSlots 64 addr k) :
    ∃ b, e.check s loc addr onStack = some (b, s) ∧ (b = true ↔ Used e.tlsBits k) := by
  have hk' := inSlot_unique hk
  subst hk'
  refine ⟨bitSet e.tlsBits ((addr - e.tlsSlots) / e.ptr), ?_, bitSet_iff⟩
  simp only [Env.check]
  rw [if_neg hh, if_pos hw]
  have : e.tls addr = some (bitSet e.tlsBits ((addr - e.tlsSlots) / e.ptr)) := by
    unfold Env.tls
    rw [if_pos (inSlot_iff.2 hk)]
  rw [this]

example : InSlot env0 env0.tlsSlots 64 5021 5 ∧ Used env0.tlsBits 5 ∧ ¬ Used env0.tlsBits 6 :=
  ⟨⟨by decide, by decide, by decide⟩, by unfold Used; decide, by unfold Used; decide⟩

/-- C82 (Windows): likewise for the expansion slots, but only for the first 128 (64-bit) or 256
of the 1024. -/
theorem C82_tls_exp_partial {e : Env} (hw : e.windows = true) {s : St} {loc : Loc} {addr k x : Nat}
    {onStack : Bool} (hh : ¬ (e.inHeap addr = true ∧ e.inHeapRoutine = true))
    (hx : e.tlsExp = some x) (hn : ∀ j, ¬ InSlot e e.tlsSlots 64 addr j)
    (hk : InSlot e x (if e.x64 then 128 else 256) addr k) :
    ∃ b, e.check s loc addr onStack = some (b, s) ∧ (b = true ↔ Used e.expBits k) := by
  have hk' := inSlot_unique hk
  subst hk'
  refine ⟨bitSet e.expBits ((addr - x) / e.ptr), ?_, bitSet_iff⟩
  simp only [Env.check]
  rw [if_neg hh, if_pos hw]
  have : e.tls addr = some (bitSet e.expBits ((addr - x) / e.ptr)) := by
    unfold Env.tls
    rw [if_neg (fun h => hn _ (inSlot_iff.1 h)), hx]
    dsimp only
    rw [if_pos]
    rw [exp_slots e]
    exact inSlot_iff.2 hk
  rw [this]

example : InSlot env0 7000 256 7400 100 ∧ ∀ j, ¬ InSlot env0 env0.tlsSlots 64 7400 j := by
  refine ⟨⟨by decide, by decide, by decide⟩, ?_⟩
  rintro j ⟨h1, h2, h3⟩
  simp only [env0, Env.ptr] at h3
  simp at h3
  omega

/-- The addresses the slots are looked for at. -/
def TlsArea (e : Env) (addr : Nat) : Prop :=
  (∃ k, InSlot e e.tlsSlots 64 addr k) ∨
    ∃ x, e.tlsExp = some x ∧ ∃ k, InSlot e x (if e.x64 then 128 else 256) addr k

theorem tls_none {e : Env} {addr : Nat} : e.tls addr = none ↔ ¬ TlsArea e addr := by
  unfold TlsArea Env.tls
  by_cases h1 : e.tlsSlots ≤ addr ∧ addr < e.tlsSlots + 64 * e.ptr
  · rw [if_pos h1]
    simp only [reduceCtorEq, false_iff, Classical.not_not]
    exact .inl ⟨_, inSlot_iff.1 h1⟩
  · rw [if_neg h1]
    have h1' : ¬ ∃ k, InSlot e e.tlsSlots 64 addr k := by
      rintro ⟨k, hk⟩
      have := inSlot_unique hk
      subst this
      exact h1 (inSlot_iff.2 hk)
    cases hx : e.tlsExp with
    | none =>
      dsimp only
      refine ⟨fun _ => ?_, fun _ => rfl⟩
      rintro (h | ⟨x, h, _⟩)
      · exact h1' h
      · cases h
    | some x =>
      dsimp only
      have he := exp_slots e
      by_cases h2 : x ≤ addr ∧ addr < x + expSlots
      · rw [if_pos h2]
        simp only [reduceCtorEq, false_iff, Classical.not_not]
        rw [he] at h2
        exact .inr ⟨x, rfl, _, inSlot_iff.1 h2⟩
      · rw [if_neg h2]
        refine ⟨fun _ => ?_, fun _ => rfl⟩
        rintro (h | ⟨y, hy, k, hk⟩)
        · exact h1' h
        · cases hy
          have := inSlot_unique hk
          subst this
          rw [he] at h2
          exact h2 (inSlot_iff.2 hk)

/-- C82 (Windows): the later expansion slots are not recognised at all: the bitmap plays no part in
the decision. -/
theorem C82_tls_exp_high {e : Env} (hw : e.windows = true) {s : St} {loc : Loc} {addr k x : Nat}
    {onStack : Bool} (hx : e.tlsExp = some x) (hn : ∀ j, ¬ InSlot e e.tlsSlots 64 addr j)
    (hk : InSlot e x 1024 addr k) (hl : (if e.x64 then 128 else 256) ≤ k) :
    ∀ bits, ({ e with expBits := bits }).check s loc addr onStack = e.check s loc addr onStack := by
  intro bits
  have ht : ∀ e' : Env, e'.x64 = e.x64 → e'.tlsSlots = e.tlsSlots → e'.tlsExp = e.tlsExp →
      e'.tls addr = none := by
    intro e' h1 h2 h3
    have hpp : e'.ptr = e.ptr := by unfold Env.ptr; rw [h1]
    rw [tls_none]
    rintro (⟨j, hj⟩ | ⟨y, hy, j, hj⟩)
    · unfold InSlot at hj hn
      rw [hpp, h2] at hj
      exact hn j hj
    · rw [h3, hx] at hy
      cases hy
      unfold InSlot at hj
      rw [hpp, h1] at hj
      have h4 := inSlot_unique (e := e) hj
      have h5 := inSlot_unique hk
      have := hj.1
      omega
  have g1 := ht e rfl rfl rfl
  have g2 := ht { e with expBits := bits } rfl rfl rfl
  simp only [Env.check]
  by_cases hh : e.inHeap addr = true ∧ e.inHeapRoutine = true
  · rw [if_pos hh, if_pos hh]
  · rw [if_neg hh, if_neg hh, if_pos hw, if_pos hw, g1, g2]
    rfl

example : InSlot env0 7000 1024 8100 275 ∧ (if env0.x64 then 128 else 256) ≤ 275 :=
  ⟨⟨by decide, by decide, by decide⟩, by decide⟩

/-! ## The whole decision -/

theorem heapSeh_iff {e : Env} {crit next addr : Nat} {i : Instr} :
    (e.heapSeh crit next addr i).1 = true ↔ HeapLock e crit next addr i := by
  unfold Env.heapSeh HeapLock
  by_cases h1 : ¬ e.inSeh = true ∨ ¬ e.inHeap addr = true
  · rw [if_pos h1]
    simp only [Bool.false_eq_true, false_iff]
    rintro ⟨g1, g2, _⟩
    rcases h1 with h | h
    · exact h g1
    · exact h g2
  · rw [if_neg h1]
    have hs : e.inSeh = true := Classical.not_not.1 fun h => h1 (.inl h)
    have hp : e.inHeap addr = true := Classical.not_not.1 fun h => h1 (.inr h)
    by_cases h2 : crit ≤ addr ∧ addr < crit + e.critSize
    · rw [if_pos h2]
      exact ⟨fun _ => ⟨hs, hp, .inl h2⟩, fun _ => rfl⟩
    · rw [if_neg h2]
      by_cases h3 : i.op = .push ∧ isMemory i.src0 = true
      · rw [if_pos h3]
        cases hd : e.decode next with
        | none =>
          dsimp only
          simp only [Bool.false_eq_true, false_iff]
          rintro ⟨_, _, h | ⟨_, _, _, n, x, h, _⟩⟩
          · exact h2 h
          · cases h
        | some p =>
          obtain ⟨n, x⟩ := p
          dsimp only
          by_cases h4 : n.op = .call ∧ n.src0 = .pc e.leaveCrit
          · rw [if_pos h4]
            cases hr : e.readPtr (e.ea i.src0) with
            | none =>
              dsimp only
              simp only [Bool.false_eq_true, false_iff]
              rintro ⟨_, _, h | ⟨_, ⟨c, h⟩, _⟩⟩
              · exact h2 h
              · cases h
            | some c =>
              refine ⟨fun _ => ⟨hs, hp, .inr ⟨h3.1, ⟨c, rfl⟩, isMemory_iff.1 h3.2, n, x, rfl, h4⟩⟩,
                fun _ => rfl⟩
          · rw [if_neg h4]
            simp only [Bool.false_eq_true, false_iff]
            rintro ⟨_, _, h | ⟨_, _, _, n', x', h, h5⟩⟩
            · exact h2 h
            · cases h; exact h4 h5
      · rw [if_neg h3]
        simp only [Bool.false_eq_true, false_iff]
        rintro ⟨_, _, h | ⟨h5, _, h6, _⟩⟩
        · exact h2 h
        · exact h3 ⟨h5, isMemory_iff.2 h6⟩

/-- The reasons that lie in the instruction making the access. -/
def CodeReason (e : Env) (crit : Nat) (loc : Loc) (addr : Nat) : Prop :=
  ∃ pc i next, loc = .pc pc ∧ e.decode pc = some (i, next) ∧
    (Probe e pc next i ∨ i.op = .prefetch ∨
      (e.readable addr = true ∧ ((addr % 4 ≠ 0 ∧ StringLoad e pc next i) ∨
        (e.windows = true ∧ HeapLock e crit next addr i))))

theorem prefetch_not_string {e : Env} {pc next : Nat} {i : Instr} (h : StringLoad e pc next i) :
    i.op ≠ .prefetch := by
  cases h <;> simp

theorem okPattern_iff {e : Env} {s s' : St} {loc : Loc} {addr : Nat} {b : Bool}
    (h : e.okPattern s loc addr = some (b, s')) : b = true ↔ CodeReason e s.crit loc addr := by
  unfold Env.okPattern at h
  cases loc with
  | syscall =>
    cases h
    simp only [Bool.false_eq_true, false_iff]
    rintro ⟨pc, i, next, hl, _⟩
    cases hl
  | pc pc =>
    dsimp only at h
    cases hd : e.decode pc with
    | none =>
      rw [hd] at h
      cases h
      simp only [Bool.false_eq_true, false_iff]
      rintro ⟨pc', i, next, hl, h2, _⟩
      cases hl
      rw [hd] at h2
      cases h2
    | some p =>
      obtain ⟨i, next⟩ := p
      rw [hd] at h
      dsimp only at h
      have hgoal : CodeReason e s.crit (.pc pc) addr ↔
          (Probe e pc next i ∨ i.op = .prefetch ∨
            (e.readable addr = true ∧ ((addr % 4 ≠ 0 ∧ StringLoad e pc next i) ∨
              (e.windows = true ∧ HeapLock e s.crit next addr i)))) := by
        constructor
        · rintro ⟨pc', i', next', hl, h2, h3⟩
          cases hl
          rw [hd] at h2
          cases h2
          exact h3
        · intro h3
          exact ⟨pc, i, next, rfl, hd, h3⟩
      rw [hgoal]
      unfold Env.patterns at h
      by_cases ha : e.alloca pc next i = true
      · rw [if_pos ha] at h
        simp only [not_true_eq_false, false_and, and_false, if_false, Option.some.injEq,
          Prod.mk.injEq] at h
        rw [← h.1]
        exact ⟨fun _ => .inl ((C82_probe e pc next i).1 ha), fun _ => rfl⟩
      · rw [if_neg ha] at h
        have hnp : ¬ Probe e pc next i := fun hp => ha ((C82_probe e pc next i).2 hp)
        cases hs : e.strlen pc next addr i with
        | none => rw [hs] at h; cases h
        | some sb =>
          have hstr := C82_string hs
          rw [hs] at h
          -- a match of the string patterns
          have hmatch : addr % 4 ≠ 0 ∧ StringLoad e pc next i →
              (e.readable addr = true ↔
                (Probe e pc next i ∨ i.op = .prefetch ∨
                (e.readable addr = true ∧ ((addr % 4 ≠ 0 ∧ StringLoad e pc next i) ∨
                  (e.windows = true ∧ HeapLock e s.crit next addr i))))) := by
            intro hm
            constructor
            · intro hr; exact .inr (.inr ⟨hr, .inl hm⟩)
            · rintro (h | h | h)
              · exact absurd h hnp
              · exact absurd h (prefetch_not_string hm.2)
              · exact h.1
          have hread : ∀ {st : St}, (if True ∧ ¬ False ∧ ¬ e.readable addr = true then
              some (false, st) else some (true, st)) = some (b, s') →
              (b = true ↔ e.readable addr = true) := by
            intro st h
            by_cases hr : e.readable addr = true
            · rw [if_neg (fun h => h.2.2 hr)] at h
              cases h
              exact ⟨fun _ => hr, fun _ => rfl⟩
            · rw [if_pos ⟨trivial, not_false, hr⟩] at h
              cases h
              exact ⟨fun h => (by cases h), fun h => absurd h hr⟩
          cases sb with
          | true =>
            simp only [Bool.false_eq_true] at h
            rw [hread h]
            exact hmatch (hstr.1 (.inl rfl))
          | false =>
            dsimp only at h
            by_cases hc : e.strcpy next addr i = true
            · rw [if_pos hc] at h
              simp only [Bool.false_eq_true] at h
              rw [hread h]
              exact hmatch (hstr.1 (.inr (.inl hc)))
            · rw [if_neg hc] at h
              by_cases hm : e.rawmemchr next addr i = true
              · rw [if_pos hm] at h
                simp only [Bool.false_eq_true] at h
                rw [hread h]
                exact hmatch (hstr.1 (.inr (.inr hm)))
              · rw [if_neg hm] at h
                have hns : ¬ (addr % 4 ≠ 0 ∧ StringLoad e pc next i) := by
                  intro hh
                  rcases hstr.2 hh with h | h | h
                  · cases h
                  · exact hc h
                  · exact hm h
                by_cases hp : i.op = .prefetch
                · rw [if_pos hp] at h
                  simp only [not_true_eq_false, false_and, and_false, if_false, Option.some.injEq,
                    Prod.mk.injEq] at h
                  rw [← h.1]
                  exact ⟨fun _ => .inr (.inl hp), fun _ => rfl⟩
                · rw [if_neg hp] at h
                  by_cases hw : e.windows = true
                  · rw [if_pos hw] at h
                    dsimp only at h
                    have hseh := heapSeh_iff (e := e) (crit := s.crit) (next := next)
                      (addr := addr) (i := i)
                    by_cases hb : (e.heapSeh s.crit next addr i).1 = true
                    · rw [hb] at h
                      simp only [Bool.false_eq_true] at h
                      rw [hread h]
                      constructor
                      · intro hr; exact .inr (.inr ⟨hr, .inr ⟨hw, hseh.1 hb⟩⟩)
                      · rintro (h | h | h)
                        · exact absurd h hnp
                        · exact absurd h hp
                        · exact h.1
                    · have hb' : (e.heapSeh s.crit next addr i).1 = false := by
                        cases hq : (e.heapSeh s.crit next addr i).1 with
                        | true => exact absurd hq hb
                        | false => rfl
                      rw [hb'] at h
                      simp only [Bool.false_eq_true, false_and, if_false, Option.some.injEq,
                        Prod.mk.injEq] at h
                      rw [← h.1]
                      simp only [Bool.false_eq_true, false_iff]
                      rintro (h | h | ⟨_, h | ⟨_, h⟩⟩)
                      · exact hnp h
                      · exact hp h
                      · exact hns h
                      · exact hb (hseh.2 h)
                  · rw [if_neg hw] at h
                    simp only [Bool.false_eq_true, false_and, if_false, Option.some.injEq,
                      Prod.mk.injEq] at h
                    rw [← h.1]
                    simp only [Bool.false_eq_true, false_iff]
                    rintro (h | h | ⟨_, h | ⟨h, _⟩⟩)
                    · exact hnp h
                    · exact hp h
                    · exact hns h
                    · exact hw h

theorem unknown_iff {e : Env} {s : St} {addr : Nat} {onStack : Bool} :
    (e.unknown s addr onStack).1 = true ↔ Unknown e addr onStack := by
  unfold Env.unknown Unknown
  by_cases h : e.shadowing = true ∧ e.defineUnknown = true ∧ ¬ e.inHeap addr = true ∧
      (¬ e.checkStackBounds = true ∨ ¬ onStack = true) ∧ (¬ e.windows = true ∨ addr < e.highUser)
  · rw [if_pos h]
    obtain ⟨h1, h2, h3, h4, h5⟩ := h
    have g3 : e.inHeap addr = false := by simpa using h3
    have g4 : e.checkStackBounds = true → onStack = false := by
      intro hb
      rcases h4 with h4 | h4
      · exact absurd hb h4
      · simpa using h4
    have g5 : e.windows = true → addr < e.highUser := by
      intro hw
      rcases h5 with h5 | h5
      · exact absurd hw h5
      · exact h5
    cases ha : e.alloc addr with
    | none =>
      dsimp only
      simp only [Bool.false_eq_true, false_iff]
      rintro ⟨_, _, _, _, _, b, n, h, _⟩
      cases h
    | some p =>
      obtain ⟨b, n⟩ := p
      dsimp only
      by_cases hc : 0 < n ∧ b ≠ 0
      · rw [if_pos hc]
        exact ⟨fun _ => ⟨h1, h2, g3, g4, g5, b, n, rfl, by omega, hc.2⟩, fun _ => rfl⟩
      · rw [if_neg hc]
        simp only [Bool.false_eq_true, false_iff]
        rintro ⟨_, _, _, _, _, b', n', h, h6, h7⟩
        cases h
        exact hc ⟨by omega, h7⟩
  · rw [if_neg h]
    simp only [Bool.false_eq_true, false_iff]
    rintro ⟨h1, h2, h3, h4, h5, _⟩
    refine h ⟨h1, h2, by simp [h3], ?_, ?_⟩
    · by_cases hb : e.checkStackBounds = true
      · right; simp [h4 hb]
      · exact .inl hb
    · by_cases hw : e.windows = true
      · exact .inr (h5 hw)
      · exact .inl hw

theorem rest_iff {e : Env} {s s' : St} {loc : Loc} {addr : Nat} {onStack b : Bool}
    (h : e.rest s loc addr onStack = some (b, s')) :
    b = true ↔ CodeReason e s.crit loc addr ∨ Unknown e addr onStack := by
  unfold Env.rest at h
  cases ho : e.okPattern s loc addr with
  | none => rw [ho] at h; cases h
  | some p =>
    obtain ⟨c, s1⟩ := p
    have hc := okPattern_iff ho
    rw [ho] at h
    cases c with
    | true =>
      dsimp only at h
      cases h
      exact ⟨fun _ => .inl (hc.1 rfl), fun _ => rfl⟩
    | false =>
      simp only [Option.some.injEq] at h
      have hu := unknown_iff (e := e) (s := s1) (addr := addr) (onStack := onStack)
      rw [h] at hu
      rw [hu]
      constructor
      · exact .inr
      · rintro (h | h)
        · exact absurd (hc.2 h) (by simp)
        · exact h

/-- C82: what a heap routine does to a heap region is excused, and nothing changes. -/
theorem C82_heap_routine {e : Env} (s : St) (loc : Loc) {addr : Nat} (onStack : Bool)
    (h : e.inHeap addr = true) (hr : e.inHeapRoutine = true) :
    e.check s loc addr onStack = some (true, s) := by
  unfold Env.check
  rw [if_pos ⟨h, hr⟩]

example : ({ env0 with inHeap := fun _ => true, inHeapRoutine := true }).check st0 .syscall 12 false =
    some (true, st0) := C82_heap_routine _ _ _ rfl rfl

/-- C82 (Windows): elsewhere than in the slots of the thread an access is excused exactly if the
instruction is one of the listed ones or the region is unknown. -/
theorem C82_windows {e : Env} (hw : e.windows = true) {s s' : St} {loc : Loc} {addr : Nat}
    {onStack b : Bool} (hh : ¬ (e.inHeap addr = true ∧ e.inHeapRoutine = true))
    (ht : ¬ TlsArea e addr) (h : e.check s loc addr onStack = some (b, s')) :
    b = true ↔ CodeReason e s.crit loc addr ∨ Unknown e addr onStack := by
  simp only [Env.check] at h
  rw [if_neg hh, if_pos hw, tls_none.2 ht] at h
  exact rest_iff h

/-- The loader of the system, the library for C++ exceptions or the tool itself looks at the
tool's libraries. -/
def LoaderReason (e : Env) (loc : Loc) (addr : Nat) : Prop :=
  e.inTool addr = true ∧ ∃ pc n, loc = .pc pc ∧ e.modName pc = some (some n) ∧
    (e.inTool pc = true ∨ ∃ r, n = "ld-linux".toList ++ r ∨ n = "libgcc_s.so".toList ++ r)

theorem prefix_iff {p n : List Char} : p.isPrefixOf n = true ↔ ∃ r, n = p ++ r := by
  rw [List.isPrefixOf_iff_prefix]
  exact ⟨fun ⟨r, h⟩ => ⟨r, h.symm⟩, fun ⟨r, h⟩ => ⟨r, h.symm⟩⟩

theorem loader_iff {e : Env} {loc : Loc} {addr : Nat} {b : Bool} (h : e.loader loc addr = some b) :
    b = true ↔ LoaderReason e loc addr := by
  unfold Env.loader at h
  unfold LoaderReason
  by_cases ht : e.inTool addr = true
  · rw [if_pos ht] at h
    cases loc with
    | syscall => cases h
    | pc pc =>
      dsimp only at h
      cases hm : e.modName pc with
      | none =>
        rw [hm] at h
        cases h
        simp only [Bool.false_eq_true, false_iff]
        rintro ⟨_, pc', n, hl, hn, _⟩
        cases hl
        rw [hm] at hn
        cases hn
      | some o =>
        rw [hm] at h
        cases o with
        | none =>
          cases h
          simp only [Bool.false_eq_true, false_iff]
          rintro ⟨_, pc', n, hl, hn, _⟩
          cases hl
          rw [hm] at hn
          cases hn
        | some n =>
          simp only [Option.some.injEq] at h
          rw [← h, Bool.or_eq_true, Bool.or_eq_true, prefix_iff, prefix_iff]
          constructor
          · rintro ((⟨r, h⟩ | h) | ⟨r, h⟩)
            · exact ⟨ht, pc, n, rfl, hm, .inr ⟨r, .inl h⟩⟩
            · exact ⟨ht, pc, n, rfl, hm, .inl h⟩
            · exact ⟨ht, pc, n, rfl, hm, .inr ⟨r, .inr h⟩⟩
          · rintro ⟨_, pc', n', hl, hn, hc⟩
            cases hl
            rw [hm] at hn
            cases hn
            rcases hc with hc | ⟨r, hc | hc⟩
            · exact .inl (.inr hc)
            · exact .inl (.inl ⟨r, hc⟩)
            · exact .inr ⟨r, hc⟩
  · rw [if_neg ht] at h
    cases h
    simp only [Bool.false_eq_true, false_iff]
    rintro ⟨h, _⟩
    exact ht h

/-- C82 (Linux): an access is excused exactly if a heap routine makes it to a heap region, the
loader looks at the tool's libraries, the instruction is one of the listed ones, or the region is
unknown. -/
theorem C82_linux {e : Env} (hw : e.windows = false) {s s' : St} {loc : Loc} {addr : Nat}
    {onStack b : Bool} (h : e.check s loc addr onStack = some (b, s')) :
    b = true ↔ (e.inHeap addr = true ∧ e.inHeapRoutine = true) ∨ LoaderReason e loc addr ∨
      CodeReason e s.crit loc addr ∨ Unknown e addr onStack := by
  simp only [Env.check] at h
  by_cases hh : e.inHeap addr = true ∧ e.inHeapRoutine = true
  · rw [if_pos hh] at h
    cases h
    exact ⟨fun _ => .inl hh, fun _ => rfl⟩
  · rw [if_neg hh, hw] at h
    simp only [Bool.false_eq_true, if_false] at h
    cases hl : e.loader loc addr with
    | none => rw [hl] at h; cases h
    | some l =>
      have hli := loader_iff hl
      rw [hl] at h
      cases l with
      | true =>
        cases h
        exact ⟨fun _ => .inr (.inl (hli.1 rfl)), fun _ => rfl⟩
      | false =>
        rw [rest_iff h]
        constructor
        · exact fun h => .inr (.inr h)
        · rintro (h | h | h)
          · exact absurd h hh
          · exact absurd (hli.2 h) (by simp)
          · exact h

/-- `strlen` of a program whose next page is gone. -/
def FaultReason (e : Env) (loc : Loc) (addr : Nat) : Prop :=
  addr % 4 ≠ 0 ∧ ∃ pc next d s n, loc = .pc pc ∧
    e.decode pc = some (⟨.movLd, .mem .ecx .null 0 d, s, .reg .eax n⟩, next) ∧
    (d = 0 ∨ d = -4) ∧ e.read32 next = none

theorem okPattern_none {e : Env} {s : St} {loc : Loc} {addr : Nat} :
    e.okPattern s loc addr = none ↔ FaultReason e loc addr := by
  unfold Env.okPattern FaultReason
  cases loc with
  | syscall =>
    simp only [reduceCtorEq, false_iff]
    rintro ⟨_, pc, next, d, s, n, hl, _⟩
    cases hl
  | pc pc =>
    dsimp only
    cases hd : e.decode pc with
    | none =>
      simp only [reduceCtorEq, false_iff]
      rintro ⟨_, pc', next, d, s, n, hl, h, _⟩
      cases hl
      rw [hd] at h
      cases h
    | some p =>
      obtain ⟨i, next⟩ := p
      dsimp only
      have hpat : e.patterns s pc next addr i = none ↔ e.strlen pc next addr i = none := by
        unfold Env.patterns
        constructor
        · intro h
          split at h
          · cases h
          · cases hs : e.strlen pc next addr i with
            | none => rfl
            | some b =>
              rw [hs] at h
              cases b with
              | true => cases h
              | false =>
                dsimp only at h
                repeat (first | cases h | (split at h))
        · intro h
          have hf := (C82_fault e pc next addr i).1 h
          obtain ⟨_, _, d, s', n, hi, _⟩ := hf
          have ha : ¬ e.alloca pc next i = true := by
            rw [C82_probe, hi]
            intro hp
            cases hp
          rw [if_neg ha, h]
      constructor
      · intro h
        cases hp : e.patterns s pc next addr i with
        | some q =>
          rw [hp] at h
          dsimp only at h
          split at h <;> cases h
        | none =>
          obtain ⟨h1, h2, d, s', n, hi, h3⟩ := (C82_fault e pc next addr i).1 (hpat.1 hp)
          exact ⟨h1, pc, next, d, s', n, rfl, by rw [hd, hi], h3, h2⟩
      · rintro ⟨h1, pc', next', d, s', n, hl, h2, h3, h4⟩
        cases hl
        rw [hd] at h2
        cases h2
        rw [hpat.2 ((C82_fault e pc next addr _).2 ⟨h1, h4, d, s', n, rfl, h3⟩)]

/-- C82 (Windows): the tool itself goes wrong exactly if the load looks like the one of `strlen` and the bytes
after it cannot be read. -/
theorem C82_windows_fault {e : Env} (hw : e.windows = true) {s : St} {loc : Loc} {addr : Nat}
    {onStack : Bool} :
    e.check s loc addr onStack = none ↔ ¬ (e.inHeap addr = true ∧ e.inHeapRoutine = true) ∧
      ¬ TlsArea e addr ∧ FaultReason e loc addr := by
  simp only [Env.check]
  by_cases hh : e.inHeap addr = true ∧ e.inHeapRoutine = true
  · rw [if_pos hh]
    simp [hh]
  · rw [if_neg hh, if_pos hw]
    cases ht : e.tls addr with
    | some b =>
      have : TlsArea e addr := by
        refine Classical.not_not.1 fun h => ?_
        rw [tls_none.2 h] at ht
        cases ht
      simp [this]
    | none =>
      rw [← okPattern_none (s := s)]
      have := tls_none.1 ht
      simp only [hh, this, not_false_eq_true, true_and]
      unfold Env.rest
      cases ho : e.okPattern s loc addr with
      | none => simp
      | some p =>
        obtain ⟨c, s1⟩ := p
        cases c <;> simp

/-- C82 (Linux): likewise, or a system call is given one of the tool's libraries. -/
theorem C82_linux_fault {e : Env} (hw : e.windows = false) {s : St} {loc : Loc} {addr : Nat}
    {onStack : Bool} :
    e.check s loc addr onStack = none ↔ ¬ (e.inHeap addr = true ∧ e.inHeapRoutine = true) ∧
      ((loc = .syscall ∧ e.inTool addr = true) ∨
        (¬ LoaderReason e loc addr ∧ FaultReason e loc addr)) := by
  simp only [Env.check]
  by_cases hh : e.inHeap addr = true ∧ e.inHeapRoutine = true
  · rw [if_pos hh]
    simp [hh]
  · rw [if_neg hh, hw]
    simp only [Bool.false_eq_true, if_false, hh, not_false_eq_true, true_and]
    cases hl : e.loader loc addr with
    | none =>
      have : loc = .syscall ∧ e.inTool addr = true := by
        unfold Env.loader at hl
        split at hl
        · rename_i ht
          cases loc with
          | syscall => exact ⟨rfl, ht⟩
          | pc pc =>
            dsimp only at hl
            split at hl <;> cases hl
        · cases hl
      simp [this]
    | some l =>
      have hli := loader_iff hl
      have hns : ¬ (loc = .syscall ∧ e.inTool addr = true) := by
        rintro ⟨rfl, ht⟩
        unfold Env.loader at hl
        rw [if_pos ht] at hl
        cases hl
      cases l with
      | true =>
        have := hli.1 rfl
        simp only [reduceCtorEq, false_iff]
        rintro (h | ⟨h, _⟩)
        · exact hns h
        · exact h this
      | false =>
        have hnl : ¬ LoaderReason e loc addr := fun h => absurd (hli.2 h) (by simp)
        dsimp only
        rw [← okPattern_none (s := s)]
        unfold Env.rest
        cases ho : e.okPattern s loc addr with
        | none => simp [hnl]
        | some p =>
          obtain ⟨c, s1⟩ := p
          cases c <;> simp [hns]

/-! ## What remains -/

/-- The state after the patterns: the shadow memory is not touched; a new entry of the table is a
probe that matched; a new warning is about a prefetch. -/
theorem okPattern_state {e : Env} {s s' : St} {loc : Loc} {addr : Nat} {b : Bool}
    (h : e.okPattern s loc addr = some (b, s')) :
    s'.sh = s.sh ∧
    (s'.table = s.table ∨ ∃ pc i next, loc = .pc pc ∧ e.decode pc = some (i, next) ∧
      Probe e pc next i ∧ b = true ∧ s'.table = pc :: s.table) ∧
    (s'.warned = s.warned ∨ ∃ pc i next, loc = .pc pc ∧ e.decode pc = some (i, next) ∧
      i.op = .prefetch ∧ b = true ∧ e.checkPrefetch = true ∧ s'.warned = s.warned ++ [addr]) := by
  unfold Env.okPattern at h
  cases loc with
  | syscall => cases h; exact ⟨rfl, .inl rfl, .inl rfl⟩
  | pc pc =>
    dsimp only at h
    cases hd : e.decode pc with
    | none => rw [hd] at h; cases h; exact ⟨rfl, .inl rfl, .inl rfl⟩
    | some p =>
      obtain ⟨i, next⟩ := p
      rw [hd] at h
      dsimp only at h
      cases hp : e.patterns s pc next addr i with
      | none => rw [hp] at h; cases h
      | some q =>
        obtain ⟨m, u, s1⟩ := q
        rw [hp] at h
        dsimp only at h
        have hs1 : s' = s1 ∧ (u = true → b = m) := by
          split at h
          · rename_i hc
            cases h
            exact ⟨rfl, fun hu => absurd hu hc.2.1⟩
          · cases h
            exact ⟨rfl, fun _ => rfl⟩
        obtain ⟨rfl, hu⟩ := hs1
        unfold Env.patterns at hp
        split at hp
        · rename_i ha
          simp only [Option.some.injEq, Prod.mk.injEq] at hp
          obtain ⟨rfl, rfl, rfl⟩ := hp
          have hb := hu rfl
          subst hb
          unfold St.addProbe
          split
          · exact ⟨rfl, .inl rfl, .inl rfl⟩
          · exact ⟨rfl, .inr ⟨pc, i, next, rfl, hd, (C82_probe e pc next i).1 ha, rfl, rfl⟩, .inl rfl⟩
        · cases hs : e.strlen pc next addr i with
          | none => rw [hs] at hp; cases hp
          | some sb =>
            rw [hs] at hp
            cases sb with
            | true =>
              dsimp only at hp
              cases hp
              exact ⟨rfl, .inl rfl, .inl rfl⟩
            | false =>
              dsimp only at hp
              split at hp
              · cases hp; exact ⟨rfl, .inl rfl, .inl rfl⟩
              · split at hp
                · cases hp; exact ⟨rfl, .inl rfl, .inl rfl⟩
                · split at hp
                  · rename_i hpf
                    simp only [Option.some.injEq, Prod.mk.injEq] at hp
                    obtain ⟨rfl, rfl, rfl⟩ := hp
                    have hb := hu rfl
                    subst hb
                    by_cases hck : e.checkPrefetch = true
                    · rw [if_pos hck]
                      exact ⟨rfl, .inl rfl, .inr ⟨pc, i, next, rfl, hd, hpf, rfl, hck, rfl⟩⟩
                    · rw [if_neg hck]
                      exact ⟨rfl, .inl rfl, .inl rfl⟩
                  · split at hp
                    · cases hp; exact ⟨rfl, .inl rfl, .inl rfl⟩
                    · cases hp; exact ⟨rfl, .inl rfl, .inl rfl⟩

theorem unknown_state {e : Env} {s : St} {addr : Nat} {onStack : Bool} :
    e.unknown s addr onStack = (false, s) ∨
      ∃ a n, e.alloc addr = some (a, n) ∧ Unknown e addr onStack ∧
        e.unknown s addr onStack = (true, { s with sh := e.mark a n s.sh }) := by
  cases hu : (e.unknown s addr onStack).1 with
  | true =>
    right
    have hU := unknown_iff.1 hu
    obtain ⟨h1, h2, h3, h4, h5, a, n, ha, hn, hb⟩ := unknown_iff.1 hu
    refine ⟨a, n, ha, hU, ?_⟩
    unfold Env.unknown at hu ⊢
    split
    · rw [ha]
      dsimp only
      rw [if_pos ⟨by omega, hb⟩]
    · rename_i hc
      rw [if_neg hc] at hu
      cases hu
  | false =>
    left
    unfold Env.unknown at hu ⊢
    split
    · rename_i hc
      rw [if_pos hc] at hu
      cases ha : e.alloc addr with
      | none => rfl
      | some p =>
        rw [ha] at hu
        dsimp only at hu ⊢
        split
        · rename_i hd
          rw [if_pos hd] at hu
          cases hu
        · rfl
    · rfl

/-- C82: the decision changes the shadow memory only for an unknown region, which is then marked;
it adds to the table only a stack probe that it has excused, and warns only of a prefetch that it
has excused. -/
theorem C82_effects {e : Env} {s s' : St} {loc : Loc} {addr : Nat} {onStack b : Bool}
    (h : e.check s loc addr onStack = some (b, s')) :
    (s'.sh = s.sh ∨ ∃ a n, e.alloc addr = some (a, n) ∧ Unknown e addr onStack ∧ b = true ∧
      s'.sh = e.mark a n s.sh) ∧
    (s'.table = s.table ∨ ∃ pc i next, loc = .pc pc ∧ e.decode pc = some (i, next) ∧
      Probe e pc next i ∧ b = true ∧ s'.table = pc :: s.table) ∧
    (s'.warned = s.warned ∨ ∃ pc i next, loc = .pc pc ∧ e.decode pc = some (i, next) ∧
      i.op = .prefetch ∧ b = true ∧ e.checkPrefetch = true ∧ s'.warned = s.warned ++ [addr]) := by
  have hrest : ∀ {b s'}, e.rest s loc addr onStack = some (b, s') →
      (s'.sh = s.sh ∨ ∃ a n, e.alloc addr = some (a, n) ∧ Unknown e addr onStack ∧ b = true ∧
        s'.sh = e.mark a n s.sh) ∧
      (s'.table = s.table ∨ ∃ pc i next, loc = .pc pc ∧ e.decode pc = some (i, next) ∧
        Probe e pc next i ∧ b = true ∧ s'.table = pc :: s.table) ∧
      (s'.warned = s.warned ∨ ∃ pc i next, loc = .pc pc ∧ e.decode pc = some (i, next) ∧
        i.op = .prefetch ∧ b = true ∧ e.checkPrefetch = true ∧ s'.warned = s.warned ++ [addr]) := by
    intro b s' h
    unfold Env.rest at h
    cases ho : e.okPattern s loc addr with
    | none => rw [ho] at h; cases h
    | some p =>
      obtain ⟨c, s1⟩ := p
      obtain ⟨g1, g2, g3⟩ := okPattern_state ho
      rw [ho] at h
      cases c with
      | true => cases h; exact ⟨.inl g1, g2, g3⟩
      | false =>
        simp only [Option.some.injEq] at h
        have g2' : s1.table = s.table := by
          rcases g2 with g2 | ⟨_, _, _, _, _, _, hf, _⟩
          · exact g2
          · cases hf
        have g3' : s1.warned = s.warned := by
          rcases g3 with g3 | ⟨_, _, _, _, _, _, hf, _⟩
          · exact g3
          · cases hf
        rcases unknown_state (e := e) (s := s1) (addr := addr) (onStack := onStack) with
          hu | ⟨a, n, ha, hU, hu⟩
        · rw [hu] at h
          cases h
          exact ⟨.inl g1, .inl g2', .inl g3'⟩
        · rw [hu] at h
          cases h
          exact ⟨.inr ⟨a, n, ha, hU, rfl, by rw [← g1]⟩, .inl g2', .inl g3'⟩
  simp only [Env.check] at h
  split at h
  · cases h; exact ⟨.inl rfl, .inl rfl, .inl rfl⟩
  · split at h
    · cases ht : e.tls addr with
      | some ok => rw [ht] at h; cases h; exact ⟨.inl rfl, .inl rfl, .inl rfl⟩
      | none => rw [ht] at h; exact hrest h
    · cases hl : e.loader loc addr with
      | none => rw [hl] at h; cases h
      | some l =>
        rw [hl] at h
        cases l with
        | true => cases h; exact ⟨.inl rfl, .inl rfl, .inl rfl⟩
        | false => exact hrest h

/-- Nothing else decides before the instruction is looked at. -/
def Plain (e : Env) (addr : Nat) : Prop :=
  ¬ (e.inHeap addr = true ∧ e.inHeapRoutine = true) ∧
    (e.windows = true → ¬ TlsArea e addr) ∧ (e.windows = false → e.inTool addr = false)

theorem check_plain {e : Env} {s : St} {loc : Loc} {addr : Nat} {onStack : Bool}
    (h : Plain e addr) : e.check s loc addr onStack = e.rest s loc addr onStack := by
  obtain ⟨h1, h2, h3⟩ := h
  simp only [Env.check]
  rw [if_neg h1]
  cases hw : e.windows with
  | true =>
    rw [if_pos rfl, tls_none.2 (h2 hw)]
  | false =>
    simp only [Bool.false_eq_true, if_false]
    have : e.loader loc addr = some false := by
      unfold Env.loader
      rw [h3 hw]
      rfl
    rw [this]

/-- C82 (disagreement): a stack probe is excused wherever it points, be it into a freed block, at
nothing or far from the stack, and the instruction is remembered. -/
theorem C82_probe_anywhere {e : Env} {s : St} {pc next addr : Nat} {i : Instr} {onStack : Bool}
    (h : Plain e addr) (hd : e.decode pc = some (i, next)) (hp : Probe e pc next i) :
    ∃ s', e.check s (.pc pc) addr onStack = some (true, s') ∧ pc ∈ s'.table ∧ s'.sh = s.sh := by
  refine ⟨s.addProbe pc, ?_, ?_, ?_⟩
  · rw [check_plain h]
    simp only [Env.rest, Env.okPattern, hd, Env.patterns]
    rw [if_pos ((C82_probe e pc next i).2 hp)]
    simp
  · unfold St.addProbe
    split
    · assumption
    · exact List.mem_cons_self
  · unfold St.addProbe
    split <;> rfl

/-- `test [ecx],eax; jmp` reading a freed block of the heap. -/
def probeEnv : Env :=
  { env0 with
    inHeap := fun _ => true
    readable := fun _ => false
    decode := fun a => if a = 100 then some (⟨.test, .mem .ecx .null 0 0, .reg .eax 4, .none⟩, 102)
      else if a = 102 then some (⟨.jmp, .pc 0, .none, .none⟩, 107) else none }

example : ∃ s', probeEnv.check st0 (.pc 100) 40000 false = some (true, s') ∧ 100 ∈ s'.table ∧
    s'.sh = st0.sh := by
  refine C82_probe_anywhere (next := 102)
    (i := ⟨.test, .mem .ecx .null 0 0, .reg .eax 4, .none⟩) ⟨by simp [probeEnv, env0], ?_, ?_⟩ rfl
    (.jmp (i := ⟨.jmp, .pc 0, .none, .none⟩) (x := 107) rfl (.inl rfl))
  · intro _
    rw [← tls_none]
    decide
  · intro h
    cases h

/-- C82: a prefetch is never an error; there is a warning exactly with -check_prefetch. -/
theorem C82_prefetch {e : Env} {s : St} {pc next addr : Nat} {i : Instr} {onStack : Bool}
    (h : Plain e addr) (hd : e.decode pc = some (i, next)) (hp : i.op = .prefetch) :
    ∃ s', e.check s (.pc pc) addr onStack = some (true, s') ∧ s'.sh = s.sh ∧ s'.table = s.table ∧
      s'.warned = if e.checkPrefetch then s.warned ++ [addr] else s.warned := by
  have ha : ¬ e.alloca pc next i = true := by
    rw [C82_probe]
    intro h
    cases h <;> cases hp
  have hs : e.strlen pc next addr i = some false := by simp [Env.strlen, hp]
  have hc : ¬ e.strcpy next addr i = true := by simp [Env.strcpy, hp]
  have hr : ¬ e.rawmemchr next addr i = true := by
    rw [rawmemchr_iff, hp]
    rintro ⟨_, h, _⟩
    cases h
  rw [check_plain h]
  simp only [Env.rest, Env.okPattern, hd, Env.patterns]
  rw [if_neg ha, hs]
  dsimp only
  rw [if_neg hc, if_neg hr, if_pos hp]
  refine ⟨if e.checkPrefetch then { s with warned := s.warned ++ [addr] } else s, by simp, ?_, ?_, ?_⟩
  all_goals (split <;> rfl)

/-- C82 (Windows): in an exception handler, the instruction that passes the lock of a heap to its
release makes the lock known; the accesses to it that follow are excused. -/
theorem C82_lock {e : Env} (hw : e.windows = true) {s : St} {pc next addr x c : Nat} {i n : Instr}
    {onStack : Bool} (h : Plain e addr) (hd : e.decode pc = some (i, next)) (hp : i.op = .push)
    (hm : ∃ b k z d, i.src0 = .mem b k z d) (hs : e.inSeh = true) (hh : e.inHeap addr = true)
    (hr : e.readable addr = true) (hn : e.decode next = some (n, x)) (hc : n.op = .call)
    (ht : n.src0 = .pc e.leaveCrit) (hv : e.readPtr (e.ea i.src0) = some c)
    (ho : ¬ (s.crit ≤ addr ∧ addr < s.crit + lockSize e)) :
    ∃ s', e.check s (.pc pc) addr onStack = some (true, s') ∧ s'.crit = c ∧ s'.sh = s.sh ∧
      ∀ j < lockSize e, ∀ pc' i' next' b s'', e.decode pc' = some (i', next') →
        Plain e (c + j) → e.inHeap (c + j) = true → e.readable (c + j) = true →
        e.check s' (.pc pc') (c + j) onStack = some (b, s'') → b = true := by
  have ha : ¬ e.alloca pc next i = true := by
    rw [C82_probe]
    intro h
    cases h <;> cases hp
  have hs1 : e.strlen pc next addr i = some false := by simp [Env.strlen, hp]
  have hs2 : ¬ e.strcpy next addr i = true := by simp [Env.strcpy, hp]
  have hs3 : ¬ e.rawmemchr next addr i = true := by
    rw [rawmemchr_iff, hp]
    rintro ⟨_, h, _⟩
    cases h
  have hseh : e.heapSeh s.crit next addr i = (true, c) := by
    unfold Env.heapSeh
    have ho' : ¬ (s.crit ≤ addr ∧ addr < s.crit + e.critSize) := ho
    rw [if_neg (by simp [hs, hh]), if_neg ho', if_pos ⟨hp, isMemory_iff.2 (.inr hm)⟩, hn]
    dsimp only
    rw [if_pos ⟨hc, ht⟩, hv]
  refine ⟨{ s with crit := c }, ?_, rfl, rfl, ?_⟩
  · rw [check_plain h]
    simp only [Env.rest, Env.okPattern, hd, Env.patterns]
    rw [if_neg ha, hs1]
    dsimp only
    rw [if_neg hs2, if_neg hs3, if_neg (by rw [hp]; simp), if_pos hw, hseh]
    simp [hr]
  · intro j hj pc' i' next' b s'' hd' hpl hh' hr' hck
    refine (C82_windows hw hpl.1 (hpl.2.1 hw) hck).2 (.inl ⟨pc', i', next', rfl, hd', .inr (.inr
      ⟨hr', .inr ⟨hw, hs, hh', .inl ⟨Nat.le_add_right c j, Nat.add_lt_add_left hj c⟩⟩⟩)⟩)

/-- `push [edi+0x578]; call RtlLeaveCriticalSection` in an exception handler. -/
def lockEnv : Env :=
  { env0 with
    inHeap := fun _ => true
    inSeh := true
    leaveCrit := 900
    readPtr := fun _ => some 50000
    decode := fun a =>
      if a = 100 then some (⟨.push, .mem (.other 7) .null 0 1400, .none, .none⟩, 106)
      else if a = 106 then some (⟨.call, .pc 900, .none, .none⟩, 111) else none }

example : ∃ s', lockEnv.check st0 (.pc 100) 40000 false = some (true, s') ∧ s'.crit = 50000 := by
  obtain ⟨s', h1, h2, _⟩ := C82_lock (e := lockEnv) (s := st0) (pc := 100) (next := 106)
    (addr := 40000) (x := 111) (c := 50000)
    (i := ⟨.push, .mem (.other 7) .null 0 1400, .none, .none⟩)
    (n := ⟨.call, .pc 900, .none, .none⟩) (onStack := false) rfl
    ⟨by simp [lockEnv, env0], fun _ => by rw [← tls_none]; decide, fun h => by cases h⟩
    rfl rfl ⟨_, _, _, _, rfl⟩ rfl rfl rfl rfl rfl rfl rfl (by decide)
  exact ⟨s', h1, h2⟩

/-- C82: apart from the release of a heap's lock, no other instruction is excused for what it is: neither
a store but the probes nor any other operation on memory, nor a system call. -/
theorem C82_other_code {e : Env} {crit addr : Nat} {loc : Loc} (hs : e.inSeh = false)
    (h : ∀ pc i next, loc = .pc pc → e.decode pc = some (i, next) →
      i.op ≠ .test ∧ i.op ≠ .movLd ∧ i.op ≠ .or ∧ i.op ≠ .prefetch ∧
        (i.op = .movSt → ∀ s t, i ≠ ⟨.movSt, .imm 0, s, .mem .r11 .null 0 t⟩)) :
    ¬ CodeReason e crit loc addr := by
  rintro ⟨pc, i, next, hl, hd, hp | hp | ⟨_, ⟨_, hp⟩ | ⟨_, hp⟩⟩⟩
  · obtain ⟨h1, h2, h3, h4, h5⟩ := h pc i next hl hd
    cases hp with
    | win64 hx h => exact h5 rfl _ _ rfl
    | _ => first | exact h1 rfl | exact h2 rfl | exact h3 rfl
  · exact (h pc i next hl hd).2.2.2.1 hp
  · refine (h pc i next hl hd).2.1 ?_
    cases hp <;> rfl
  · rw [hp.1] at hs
    cases hs

example : ¬ CodeReason { env0 with decode := fun _ => some (⟨.movSt, .reg .eax 4, .none, .mem .ecx .null 0 0⟩, 3) }
    0 (.pc 1) 40001 := by
  refine C82_other_code rfl ?_
  intro pc i next _ h
  cases h
  simp

/-- C82: outside of exception handlers a load at a multiple of four is excused for what it is only
as the return address moved by a probe. -/
theorem C82_aligned_load {e : Env} {crit pc next addr : Nat} {i : Instr} (hs : e.inSeh = false)
    (hd : e.decode pc = some (i, next)) (ho : i.op = .movLd) (ha : addr % 4 = 0) :
    CodeReason e crit (.pc pc) addr ↔
      e.read8 (pc - 1) = some 0x94 ∧ ∃ s n, i = ⟨.movLd, .mem .eax .null 0 0, s, .reg .eax n⟩ := by
  constructor
  · rintro ⟨pc', i', next', hl, hd', hp | hp | ⟨_, ⟨h4, _⟩ | ⟨_, hp⟩⟩⟩
    · cases hl
      rw [hd] at hd'
      cases hd'
      cases hp with
      | shift h => exact ⟨h, _, _, rfl⟩
      | _ => cases ho
    · cases hl
      rw [hd] at hd'
      cases hd'
      rw [ho] at hp
      cases hp
    · exact absurd ha h4
    · rw [hp.1] at hs
      cases hs
  · rintro ⟨h, s, n, rfl⟩
    exact ⟨pc, _, next, rfl, hd, .inl (.shift h)⟩

/-- The load of `strchr`: `mov ecx,[edx]`, then the constant. -/
def strchrEnv (x64 : Bool) : Env :=
  { env0 with
    x64 := x64
    defineUnknown := false
    decode := fun a =>
      if a = 11 then some (⟨.movLd, .mem .edx .null 0 0, .none, .reg .ecx (if x64 then 8 else 4)⟩, 13)
      else if a = 13 then some (⟨.movImm, .imm (-16843009), .none, .reg (.other 7) 4⟩, 18) else none }

example : (strchrEnv false).decode 11 =
      some (⟨.movLd, .mem .edx .null 0 0, .none, .reg .ecx 4⟩, 13) ∧
    ((strchrEnv false).check st0 (.pc 11) 40000 false).map (·.1) = some false ∧
    ((strchrEnv false).check st0 (.pc 11) 40001 false).map (·.1) = some true := by decide

/-- C82: in a 64-bit build the constant of the string routines is not recognised: an immediate of
32 bits is extended with its sign. -/
theorem C82_magic64 {e : Env} {next addr : Nat} {i : Instr} {s : Opnd} {q : Reg} {m x : Nat}
    (ho : i.op = .movLd) (hr : ∃ r, i.dst = .reg r e.ptr) (ha : addr % 4 ≠ 0)
    (hd : e.decode next = some (⟨.movImm, .imm (-16843009), s, .reg q m⟩, x)) :
    e.rawmemchr next addr i = true ↔ e.x64 = false := by
  rw [rawmemchr_iff]
  have hch : Chain e next ⟨.movImm, .imm (-16843009), s, .reg q m⟩ := by
    refine .plain hd ?_ ?_
    · intro h; cases h
    · intro h; cases h
  constructor
  · rintro ⟨_, _, _, j, q', m', hc, hj, hv, _⟩
    have hj : j = ⟨.movImm, .imm (-16843009), s, .reg q m⟩ := by
      cases hc with
      | plain h _ _ => rw [hd] at h; cases h; rfl
      | xor h hx _ _ => rw [hd] at h; cases h; cases hx
      | add h hx _ _ => rw [hd] at h; cases h; cases hx
      | addSub h hx _ _ _ => rw [hd] at h; cases h; cases hx
      | xorAdd h hx _ _ _ _ => rw [hd] at h; cases h; cases hx
      | xorAddSub h hx _ _ _ _ _ => rw [hd] at h; cases h; cases hx
    subst hj
    cases hx : e.x64 with
    | false => rfl
    | true =>
      simp only [Env.immed, Const, hx] at hv
      rcases hv with (⟨_, h⟩ | ⟨h, _⟩) | (⟨_, h⟩ | ⟨h, _⟩)
      · omega
      · cases h
      · omega
      · cases h
  · intro hx
    exact ⟨ha, ho, hr, _, q, m, hch, .inl rfl, .inl (.inr ⟨hx, -1, by simp [Env.immed]⟩), rfl⟩

example : (strchrEnv true).rawmemchr 13 40001 ⟨.movLd, .mem .edx .null 0 0, .none, .reg .ecx 8⟩ = false ∧
    (strchrEnv false).rawmemchr 13 40001 ⟨.movLd, .mem .edx .null 0 0, .none, .reg .ecx 4⟩ = true := by
  decide

/-! ## With the check of a memory reference -/

/-- C82 (with C50): a load of four bytes at a multiple of four all of whose bytes are
unaddressable is reported, but for its first byte only, if the exceptions are those of the string
routines. -/
theorem C82_word_report {f : MemRef.Flags} {c : MemRef.Conf} (hf : f.abort = false)
    (hc : c.map4 = false) (hp : f.pushpop = false) (val : Nat → Sh) {addr : Nat} (h4 : addr % 4 = 0)
    {sh : Shadow} (hsh : ∀ j < 4, sh (addr + j) = .unaddr)
    (he : ∀ j < 4, c.unaddrExc (addr + j) = decide ((addr + j) % 4 ≠ 0)) :
    (MemRef.memRef f c val addr 4 sh).reports = [⟨.unaddr, addr, 1⟩] := by
  refine MemRef.Runs.unique (MemRef.C50_reports_partial hf hc val addr 4 sh) ?_
  have hw : ∀ j < 4, MemRef.wrong f c sh (addr + j) = if j = 0 then some .unaddr else none := by
    intro j hj
    unfold MemRef.wrong
    rw [hsh j hj, he j hj, hp]
    by_cases h0 : j = 0
    · subst h0; simp [h4]
    · have : (addr + j) % 4 ≠ 0 := by omega
      simp [this, h0]
  have hw' : ∀ b, addr ≤ b → b < addr + 4 →
      MemRef.wrong f c sh b = if b = addr then some .unaddr else none := by
    intro b h1 h2
    have := hw (b - addr) (by omega)
    rw [show addr + (b - addr) = b by omega] at this
    rw [this]
    by_cases hb : b = addr
    · simp [hb]
    · rw [if_neg (by omega), if_neg hb]
  refine ⟨?_, ?_, ?_, ?_, ?_, ?_, ?_⟩
  · intro r hr
    rw [List.mem_singleton.1 hr]
    exact Nat.one_pos
  · intro r hr
    rw [List.mem_singleton.1 hr]
    exact ⟨Nat.le_refl _, by dsimp only; omega⟩
  · intro r hr b h1 h2
    rw [List.mem_singleton.1 hr] at h1 h2 ⊢
    dsimp only at h1 h2 ⊢
    rw [hw' b (by omega) (by omega), if_pos (by omega)]
  · intro r hr
    rw [List.mem_singleton.1 hr]
    exact .inl rfl
  · intro r hr
    rw [List.mem_singleton.1 hr]
    right
    dsimp only
    rw [hw' (addr + 1) (by omega) (by omega), if_neg (by omega)]
    simp
  · intro b k h1 h2 hk
    rw [hw' b h1 h2] at hk
    by_cases hb : b = addr
    · rw [if_pos hb] at hk
      cases hk
      exact ⟨_, List.mem_singleton.2 rfl, rfl, by dsimp only; omega, by dsimp only; omega⟩
    · rw [if_neg hb] at hk
      cases hk
  · exact List.pairwise_singleton _ _

/-- C82 (with C50, disagreement): if the first byte of such a load is good nothing is reported,
also when an unaddressable byte lies between good ones. -/
theorem C82_word_hole {f : MemRef.Flags} {c : MemRef.Conf} (hf : f.abort = false)
    (hc : c.map4 = false) (val : Nat → Sh) {addr : Nat} (h4 : addr % 4 = 0)
    {sh : Shadow} (h0 : sh addr = .defined)
    (hsh : ∀ j < 4, sh (addr + j) = .unaddr ∨ sh (addr + j) = .defined)
    (he : ∀ j < 4, c.unaddrExc (addr + j) = decide ((addr + j) % 4 ≠ 0)) :
    (MemRef.memRef f c val addr 4 sh).reports = [] := by
  rw [(MemRef.C50_reports_partial hf hc val addr 4 sh).nil]
  intro b h1 h2
  have e1 := hsh (b - addr) (by omega)
  have e2 := he (b - addr) (by omega)
  rw [show addr + (b - addr) = b by omega] at e1 e2
  unfold MemRef.wrong
  rcases e1 with e1 | e1
  · rw [e1]
    have hb : b ≠ addr := by
      rintro rfl
      rw [h0] at e1
      cases e1
    have : b % 4 ≠ 0 := by omega
    simp [e2, this]
  · rw [e1]

/-- The exceptions of `strchrEnv` as the check of a reference sees them. -/
def strchrConf : MemRef.Conf :=
  { redzone := 0
    leaveUninit := false
    map4 := false
    unaddrExc := fun a => ((strchrEnv false).check st0 (.pc 11) a false).any (·.1)
    undefExc := fun _ => false }

/-- A load of four bytes. -/
def loadFlags : MemRef.Flags :=
  { write := false
    pushpop := false
    checkDef := false
    useValues := true
    checkAddr := false
    abort := false
    single := 0
    movs := none }

example : (MemRef.memRef loadFlags strchrConf (fun _ => .defined) 40000 4 (fun _ => .unaddr)).reports =
    [⟨.unaddr, 40000, 1⟩] := by
  refine C82_word_report rfl rfl rfl _ (by decide) (fun _ _ => rfl) ?_
  decide

example : (MemRef.memRef loadFlags strchrConf (fun _ => .defined) 40000 4
    (fun a => if a = 40001 then .unaddr else .defined)).reports = [] := by
  refine C82_word_hole rfl rfl _ (by decide) (by decide) ?_ ?_
  · decide
  · decide

/-! ## The table of probes -/

/-- C82: a basic block ignores unaddressable accesses of an instruction exactly if it is in the
table and a probe in the code the block is built from; otherwise it is dropped from the table, and
the rest of the table stays. -/
theorem C82_build (e : Env) (t : List Nat) (pc next : Nat) (i : Instr) :
    ((e.build t pc next i).1 = true ↔ pc ∈ t ∧ Probe e pc next i) ∧
    (∀ q, q ∈ (e.build t pc next i).2 ↔ q ∈ t ∧ (q = pc → Probe e pc next i)) := by
  unfold Env.build
  rw [← C82_probe]
  by_cases hp : pc ∈ t
  · rw [if_pos hp]
    by_cases ha : e.alloca pc next i = true
    · rw [if_pos ha]
      simp [hp, ha]
    · rw [if_neg ha]
      simp [ha]
  · rw [if_neg hp]
    refine ⟨by simp [hp], fun q => ⟨fun h => ⟨h, ?_⟩, fun h => h.1⟩⟩
    rintro rfl
    exact absurd h hp

example : (probeEnv.build [100, 7] 100 102 ⟨.test, .mem .ecx .null 0 0, .reg .eax 4, .none⟩) =
    (true, [100, 7]) ∧ (probeEnv.build [100, 7] 100 102 ⟨.test, .mem .ecx .null 0 4, .reg .eax 4, .none⟩) =
    (false, [7]) := by decide

/-! ## Unknown regions -/

/-- The byte belongs to a committed piece of the allocation from `a` on. -/
def Committed : Nat → List Piece → Nat → Prop
  | _, [], _ => False
  | a, p :: ps, x => (p.reserved = false ∧ a ≤ x ∧ x < a + p.size) ∨ Committed (a + p.size) ps x

theorem setRange_def {sh : Shadow} {a b x : Nat} :
    setRange sh a b .defined x = .defined ↔ (a ≤ x ∧ x < b) ∨ sh x = .defined := by
  unfold setRange
  split <;> simp_all

theorem committed_ge {ps : List Piece} : ∀ {a x : Nat}, Committed a ps x → a ≤ x := by
  induction ps with
  | nil => intro a x h; cases h
  | cons p ps ih =>
    intro a x h
    rcases h with h | h
    · exact h.2.1
    · have := ih h
      omega

theorem winLoop_spec {lim : Nat} (ps : List Piece) : ∀ {mb me : Nat} {sh : Shadow}, mb ≤ me →
    (∀ p ∈ ps, 0 < p.size) → me + (ps.map (·.size)).sum ≤ lim → ∀ x,
    (((mb ≤ x ∧ x < me) ∨ Committed me ps x) → winLoop lim ps mb me me sh x = .defined) ∧
    (¬ ((mb ≤ x ∧ x < me) ∨ Committed me ps x) → winLoop lim ps mb me me sh x = sh x) := by
  induction ps with
  | nil =>
    intro mb me sh hm _ _ x
    simp only [Committed, or_false, winLoop]
    split
    · unfold setRange
      exact ⟨fun h => if_pos h, fun h => if_neg h⟩
    · exact ⟨fun h => by omega, fun _ => rfl⟩
  | cons p ps ih =>
    intro mb me sh hm hp hl x
    have hps : ∀ q ∈ ps, 0 < q.size := fun q hq => hp q (List.mem_cons_of_mem _ hq)
    have hpos := hp p List.mem_cons_self
    simp only [List.map_cons, List.sum_cons] at hl
    simp only [winLoop]
    rw [if_pos (by omega)]
    cases hr : p.reserved with
    | true =>
      rw [if_pos rfl]
      obtain ⟨i1, i2⟩ := ih (mb := me + p.size) (me := me + p.size)
        (sh := setRange sh mb me .defined) (Nat.le_refl _) hps (by omega) x
      simp only [Committed, hr]
      constructor
      · rintro (h | h | h)
        · by_cases hc : (me + p.size ≤ x ∧ x < me + p.size) ∨ Committed (me + p.size) ps x
          · exact i1 hc
          · rw [i2 hc]
            unfold setRange
            exact if_pos h
        · cases h.1
        · exact i1 (.inr h)
      · intro h
        have h1 : ¬ (mb ≤ x ∧ x < me) := fun h' => h (.inl h')
        have h2 : ¬ Committed (me + p.size) ps x := fun h' => h (.inr (.inr h'))
        rw [i2 (by rintro (h' | h'); · omega
                   · exact h2 h')]
        unfold setRange
        exact if_neg h1
    | false =>
      simp only [Bool.false_eq_true, if_false]
      obtain ⟨i1, i2⟩ := ih (mb := mb) (me := me + p.size) (sh := sh) (by omega) hps (by omega) x
      simp only [Committed, hr, true_and]
      constructor
      · rintro (h | h | h)
        · exact i1 (.inl (by omega))
        · exact i1 (.inl (by omega))
        · exact i1 (.inr h)
      · intro h
        refine i2 ?_
        rintro (h' | h')
        · by_cases hx : x < me
          · exact h (.inl (by omega))
          · exact h (.inr (.inl (by omega)))
        · exact h (.inr (.inr h'))

/-- C82 (Windows): marking an unknown region makes exactly its committed pieces defined; what is
only reserved, and everything else, stays as it was. -/
theorem C82_region {base size : Nat} {ps : List Piece} (sh : Shadow) (hp : ∀ p ∈ ps, 0 < p.size)
    (hs : (ps.map (·.size)).sum ≤ size) (x : Nat) :
    (Committed base ps x → winWalk base size ps sh x = .defined) ∧
    (¬ Committed base ps x → winWalk base size ps sh x = sh x) := by
  cases ps with
  | nil => exact ⟨fun h => absurd h (by simp [Committed]), fun _ => rfl⟩
  | cons p ps =>
    simp only [winWalk]
    cases hr : p.reserved with
    | true =>
      rw [if_pos rfl]
      obtain ⟨i1, i2⟩ := winLoop_spec (lim := base + size) (p :: ps) (mb := base) (me := base)
        (sh := sh) (Nat.le_refl _) hp (by omega) x
      refine ⟨fun h => i1 (.inr h), fun h => i2 ?_⟩
      rintro (h' | h')
      · omega
      · exact h h'
    | false =>
      simp only [Bool.false_eq_true, if_false]
      simp only [List.map_cons, List.sum_cons] at hs
      obtain ⟨i1, i2⟩ := winLoop_spec (lim := base + size) ps (mb := base) (me := base + p.size)
        (sh := sh) (by omega) (fun q hq => hp q (List.mem_cons_of_mem _ hq)) (by omega) x
      simp only [Committed, hr, true_and]
      exact ⟨i1, i2⟩

example : Committed 4096 [⟨true, 4096⟩, ⟨false, 8192⟩] 9000 ∧
    ¬ Committed 4096 [⟨true, 4096⟩, ⟨false, 8192⟩] 5000 := by
  refine ⟨.inr (.inl ⟨rfl, by decide, by decide⟩), ?_⟩
  rintro (h | h | h)
  · cases h.1
  · have : 4096 + 4096 ≤ 5000 := h.2.1
    omega
  · cases h

/-- C82: an access to a committed byte of an unknown region that nothing else excuses is excused,
and the byte is defined from then on. -/
theorem C82_unknown {e : Env} {s : St} {loc : Loc} {addr base size : Nat} {onStack : Bool}
    {ps : List Piece} (h : Plain e addr) (hf : ¬ FaultReason e loc addr)
    (hc : ¬ CodeReason e s.crit loc addr) (hu : Unknown e addr onStack)
    (ha : e.alloc addr = some (base, size)) (hm : e.mark base size = winWalk base size ps)
    (hp : ∀ p ∈ ps, 0 < p.size) (hs : (ps.map (·.size)).sum ≤ size) (hx : Committed base ps addr) :
    ∃ s', e.check s loc addr onStack = some (true, s') ∧ s'.sh addr = .defined := by
  rw [check_plain h]
  unfold Env.rest
  cases ho : e.okPattern s loc addr with
  | none => exact absurd (okPattern_none.1 ho) hf
  | some p =>
    obtain ⟨c, s1⟩ := p
    cases c with
    | true => exact absurd ((okPattern_iff ho).1 rfl) hc
    | false =>
      dsimp only
      rcases unknown_state (e := e) (s := s1) (addr := addr) (onStack := onStack) with
        h1 | ⟨a, n, h1, _, h2⟩
      · have := (unknown_iff (s := s1)).2 hu
        rw [h1] at this
        cases this
      · rw [ha] at h1
        cases h1
        rw [h2]
        refine ⟨_, rfl, ?_⟩
        dsimp only
        rw [hm]
        exact (C82_region s1.sh hp hs addr).1 hx

/-- An allocation of another process: one page reserved, two committed. -/
def csrssEnv : Env :=
  { env0 with
    alloc := fun _ => some (40960, 12288)
    mark := fun b n => winWalk b n [⟨true, 4096⟩, ⟨false, 8192⟩] }

example : ∃ s', csrssEnv.check st0 .syscall 50000 false = some (true, s') ∧
    s'.sh 50000 = .defined := by
  refine C82_unknown (base := 40960) (size := 12288) (ps := [⟨true, 4096⟩, ⟨false, 8192⟩])
    ⟨by simp [csrssEnv, env0], fun _ => by rw [← tls_none]; decide, fun h => by cases h⟩
    ?_ ?_ ⟨rfl, rfl, rfl, fun _ => rfl, fun _ => by decide, 40960, 12288, rfl, by decide, by decide⟩
    rfl rfl (by decide) (by decide) (.inr (.inl ⟨rfl, by decide, by decide⟩))
  · rintro ⟨_, pc, next, d, s, n, hl, _⟩
    cases hl
  · rintro ⟨pc, i, next, hl, _⟩
    cases hl

/-- C82: a heap address, with -check_stack_bounds an address on the stack, and on Windows an address
of the kernel are never taken for an unknown region; nor is anything without
-define_unknown_regions. -/
theorem C82_known {e : Env} {s s' : St} {loc : Loc} {addr : Nat} {onStack b : Bool}
    (h : e.check s loc addr onStack = some (b, s'))
    (hk : e.inHeap addr = true ∨ (e.checkStackBounds = true ∧ onStack = true) ∨
      (e.windows = true ∧ e.highUser ≤ addr) ∨ e.defineUnknown = false) : s'.sh = s.sh := by
  rcases (C82_effects h).1 with h | ⟨a, n, _, hu, _⟩
  · exact h
  · obtain ⟨h1, h2, h3, h4, h5, _⟩ := hu
    rcases hk with hk | ⟨hk, hk2⟩ | ⟨hk, hk2⟩ | hk
    · rw [hk] at h3; cases h3
    · rw [h4 hk] at hk2; cases hk2
    · have := h5 hk; omega
    · rw [hk] at h2; cases h2

end Verif.Except
