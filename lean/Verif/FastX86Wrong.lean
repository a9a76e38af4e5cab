import Verif.FastX86Thms

/-! The generated fast path for ordinary instructions: instances of the properties, and forms for
which the code does not do what it should. -/

namespace Verif.FastX86

/-- The dword at address `…40` plus `o`, with its shadow at one address and everything else
elsewhere. -/
def env0 (o : BitVec 8) (a : Bool) : Env :=
  ⟨⟨77, 3, 0x40 + o⟩, fun x => if x = ⟨77, 3, 0x40 + o⟩ then ⟨5, 6, 7⟩ else ⟨0, 0, 1⟩, ⟨11, 12, 13⟩, a⟩

/-- The shadow register 0 is `v`, the shadow of the memory operand is `m`, all else is defined. -/
def st0 (v m : BitVec 8) : St :=
  ⟨⟨1, 2, 3⟩, ⟨4, 5, 6⟩, ⟨7, 8, 9⟩, false, fun g => if g = 0 then v else 0, 0,
    fun p => if p = ⟨5, 6, 7⟩ then m else 0x55, false⟩

/-- The end state of the fast path. -/
def endSt (I : App1) (e : Env) (s : St) : Option St :=
  match run e (fastpath I) none s with
  | .done s' => some s'
  | _ => none

theorem endSt_done {I : App1} {e : Env} {s s' : St} (h : endSt I e s = some s') :
    run e (fastpath I) none s = .done s' := by
  unfold endSt at h
  split at h
  · next x hx => simp only [Option.some.injEq] at h; rw [hx, h]
  · simp at h

/-- A run with a property of its end that can be evaluated. -/
theorem endSt_ex {I : App1} {e : Env} {s : St} (P : St → Bool)
    (h : ((endSt I e s).map P) = some true) :
    ∃ s', run e (fastpath I) none s = .done s' ∧ P s' = true := by
  cases hq : endSt I e s with
  | none => simp [hq] at h
  | some s' =>
    rw [hq] at h
    exact ⟨s', endSt_done hq, by simpa using h⟩

/-- movzx (mem8), %ecx. -/
def movzxLoad : App1 :=
  { op := .movzx, s0 := some .mem, s1 := none, s2 := none, d0 := some (.reg 1 false), d1 := none,
    srcSz := 1, dstSz := 4, icd := false, rf := false, wf := false, always := false, bases := [3],
    early := false, andor := false }

/-- add %al, (mem8). -/
def addStore : App1 :=
  { op := .plain, s0 := some .mem, s1 := some (.reg 0 false), s2 := none, d0 := some .mem, d1 := none,
    srcSz := 1, dstSz := 1, icd := false, rf := false, wf := true, always := false, bases := [3],
    early := false, andor := false }

/-- adc %eax, %ecx. -/
def adcReg : App1 :=
  { op := .plain, s0 := some (.reg 0 false), s1 := some (.reg 1 false), s2 := none,
    d0 := some (.reg 1 false), d1 := none,
    srcSz := 4, dstSz := 4, icd := false, rf := true, wf := true, always := false, bases := [],
    early := false, andor := false }

macro "fast_ok" : tactic => `(tactic| (constructor <;> decide))

theorem movzxLoad_ok : Ok movzxLoad := by fast_ok
theorem addStore_ok : Ok addStore := by fast_ok
theorem adcReg_ok : Ok adcReg := by fast_ok

theorem movzxLoad_scope : Scope movzxLoad (env0 2 false) := by constructor <;> decide
theorem addStore_scope : Scope addStore (env0 2 false) := by constructor <;> decide
theorem adcReg_scope : Scope adcReg (env0 0 false) := by constructor <;> decide

/-- An undefined byte between an unaddressable one and defined ones is loaded: `ecx` gets that byte and three defined
ones. -/
example : ∃ s', run (env0 2 false) (fastpath movzxLoad) none (st0 0 0x31) = .done s' ∧
    (s'.slots 1 == 3) = true :=
  endSt_ex (fun s' => s'.slots 1 == 3) (by decide +kernel)

example : ∃ s', run (env0 2 false) (fastpath addStore) none (st0 0x03 0xc4) = .done s' ∧
    (s'.mem ⟨5, 6, 7⟩ == 0xf4 && s'.flags != 0) = true :=
  endSt_ex (fun s' => s'.mem ⟨5, 6, 7⟩ == 0xf4 && s'.flags != 0) (by decide +kernel)

example : ∃ s', run (env0 0 false) (fastpath adcReg) none (st0 0xc0 0) = .done s' ∧
    (s'.slots 1 == 0xc0 && s'.flags != 0) = true :=
  endSt_ex (fun s' => s'.slots 1 == 0xc0 && s'.flags != 0) (by decide +kernel)

example : ∃ s', run (env0 2 false) (fastpath addStore) none (st0 0x03 0x14) = .slow s' := by
  have hn : ¬Clear addStore (env0 2 false) (st0 0x03 0x14) := by
    intro hc
    have := hc.2.2.2 (by decide)
    rw [if_pos (by decide)] at this
    have := this 0 (by decide)
    revert this
    decide
  obtain ⟨s', h, _⟩ := (fast_slow _ _ _ addStore_ok rfl).1 hn
  exact ⟨s', h⟩

/-- mov %ah, (mem8). -/
def movHigh : App1 :=
  { op := .plain, s0 := some (.reg 0 true), s1 := none, s2 := none, d0 := some .mem, d1 := none,
    srcSz := 1, dstSz := 1, icd := false, rf := false, wf := false, always := false, bases := [3],
    early := false, andor := false }

/-- Storing ah, bh, ch or dh at a multiple of 4 takes the state of the low byte: with ah undefined and
al defined the stored byte is marked defined. -/
theorem C61_high_byte_store : Ok movHigh ∧
    operand (env0 0 false) (st0 0x0c 0) (.reg 0 true) 0 = 3 ∧
    ∃ s', run (env0 0 false) (fastpath movHigh) none (st0 0x0c 0) = .done s' ∧
      operand (env0 0 false) s' .mem 0 = 0 := by
  refine ⟨by fast_ok, by decide +kernel, ?_⟩
  obtain ⟨s', h, hp⟩ := endSt_ex (I := movHigh) (e := env0 0 false) (s := st0 0x0c 0)
    (fun s' => operand (env0 0 false) s' .mem 0 == 0) (by decide +kernel)
  exact ⟨s', h, by simpa using hp⟩

/-- orb $1, (mem8). -/
def orByte : App1 :=
  { op := .plain, s0 := some .mem, s1 := none, s2 := none, d0 := some .mem, d1 := none,
    srcSz := 1, dstSz := 1, icd := false, rf := false, wf := true, always := false, bases := [3],
    early := false, andor := true }

/-- A store of one byte for which definedness is checked marks all four bytes of the aligned dword defined,
also those that are unaddressable. -/
theorem C61_checked_part : Ok orByte ∧
    ∃ s', run (env0 0 false) (fastpath orByte) none (st0 0 0x54) = .done s' ∧
      (∀ j, 1 ≤ j → j < 4 → dig ((st0 0 0x54).mem ⟨5, 6, 7⟩) j = 1) ∧
      ∀ j < 4, dig (s'.mem ⟨5, 6, 7⟩) j = 0 := by
  refine ⟨by fast_ok, ?_⟩
  obtain ⟨s', h, hp⟩ := endSt_ex (I := orByte) (e := env0 0 false) (s := st0 0 0x54)
    (fun s' => s'.mem ⟨5, 6, 7⟩ == 0) (by decide +kernel)
  refine ⟨s', h, ?_, fun j hj => ?_⟩
  · intro j h1 h2
    have : j = 1 ∨ j = 2 ∨ j = 3 := by omega
    rcases this with rfl | rfl | rfl <;> decide +kernel
  · rw [show s'.mem ⟨5, 6, 7⟩ = 0 by simpa using hp, dig_zero]

/-- An instruction without operands that writes flags, such as clc or stc. -/
def clc : App1 :=
  { op := .plain, s0 := none, s1 := none, s2 := none, d0 := none, d1 := none,
    srcSz := 1, dstSz := 1, icd := false, rf := false, wf := true, always := false, bases := [],
    early := false, andor := false }

/-- For an instruction without operands that only writes flags, code with a missing operand is
generated. -/
theorem C61_null_operand : Ok clc ∧ Ins.bad ∈ fastpath clc ∧
    ∃ s', run (env0 0 false) (fastpath clc) none (st0 0 0) = .done s' ∧ s'.wild = true := by
  refine ⟨by fast_ok, by decide +kernel, ?_⟩
  exact endSt_ex (I := clc) (e := env0 0 false) (s := st0 0 0) (fun s' => s'.wild) (by decide +kernel)

/-- A shift of an operand by a constant. -/
def shiftBy (op : Op) (a : App) (sz : Nat) : App1 :=
  { op := op, s0 := some a, s1 := none, s2 := none, d0 := some a, d1 := none, srcSz := sz,
    dstSz := sz, icd := false, rf := false, wf := true, always := false, bases := [], early := false,
    andor := false }

/-- Shifts by a multiple of 8 that go wrong.  In order: sar $8, %eax keeps the undefined byte that is
shifted out; shr $8, %ax takes byte 2 of eax for the byte that is shifted in; shl $8, %ah takes al;
shl $32, %eax, which changes nothing, makes the register defined; and for shlw $8, (mem16) no code
that updates the shadow is generated. -/
theorem C61_shift_wrong :
    (Ok (shiftBy (.sar 8) (.reg 0 false) 4) ∧
      ∃ s', run (env0 0 false) (fastpath (shiftBy (.sar 8) (.reg 0 false) 4)) none (st0 0x03 0) = .done s' ∧
        s'.slots 0 = 0x03) ∧
    (Ok (shiftBy (.shr 8) (.reg 0 false) 2) ∧
      ∃ s', run (env0 0 false) (fastpath (shiftBy (.shr 8) (.reg 0 false) 2)) none (st0 0x30 0) = .done s' ∧
        s'.slots 0 = 0x3c) ∧
    (Ok (shiftBy (.shl 8) (.reg 0 true) 1) ∧
      ∃ s', run (env0 0 false) (fastpath (shiftBy (.shl 8) (.reg 0 true) 1)) none (st0 0x03 0) = .done s' ∧
        s'.slots 0 = 0x0f) ∧
    (Ok (shiftBy (.shl 32) (.reg 0 false) 4) ∧
      ∃ s', run (env0 0 false) (fastpath (shiftBy (.shl 32) (.reg 0 false) 4)) none (st0 0xff 0) = .done s' ∧
        s'.slots 0 = 0) ∧
    (Ok (shiftBy (.shl 8) .mem 2) ∧ Ins.bad ∈ fastpath (shiftBy (.shl 8) .mem 2) ∧
      ∃ s', run (env0 0 false) (fastpath (shiftBy (.shl 8) .mem 2)) none (st0 0 0x03) = .done s' ∧
        s'.mem ⟨5, 6, 7⟩ = 0x03) := by
  have key : ∀ (I : App1) (s : St) (P : St → Prop) (Q : St → Bool), (∀ x, Q x = true → P x) →
      ((endSt I (env0 0 false) s).map Q) = some true →
      ∃ s', run (env0 0 false) (fastpath I) none s = .done s' ∧ P s' := fun I s P Q hpq h => by
    obtain ⟨s', h1, h2⟩ := endSt_ex Q h
    exact ⟨s', h1, hpq _ h2⟩
  refine ⟨⟨by fast_ok, ?_⟩, ⟨by fast_ok, ?_⟩, ⟨by fast_ok, ?_⟩, ⟨by fast_ok, ?_⟩, by fast_ok,
    by decide +kernel, ?_⟩
  · exact key _ _ _ (fun x => x.slots 0 == 0x03) (fun x h => by simpa using h) (by decide +kernel)
  · exact key _ _ _ (fun x => x.slots 0 == 0x3c) (fun x h => by simpa using h) (by decide +kernel)
  · exact key _ _ _ (fun x => x.slots 0 == 0x0f) (fun x h => by simpa using h) (by decide +kernel)
  · exact key _ _ _ (fun x => x.slots 0 == 0) (fun x h => by simpa using h) (by decide +kernel)
  · exact key _ _ _ (fun x => x.mem ⟨5, 6, 7⟩ == 0x03) (fun x h => by simpa using h) (by decide +kernel)

end Verif.FastX86
