import Verif.FastX86Wrong

/-! The generated fast path for shifts of a dword by a multiple of 8. -/

namespace Verif.FastX86

/-- The number of bytes by which the application's value is shifted up (left) or down (right). -/
inductive ShiftOp : Op → Bool → Nat → Prop where
  | shl (m : Nat) : m < 4 → ShiftOp (.shl (8 * m)) true m
  | shr (m : Nat) : m < 4 → ShiftOp (.shr (8 * m)) false m

/-- The state of byte `k` after a shift by `m` bytes: bytes shifted in are defined. -/
def wantShift (left : Bool) (m : Nat) (old : Nat → BitVec 2) (k : Nat) : BitVec 2 :=
  if left then (if m ≤ k then old (k - m) else 0) else (if k + m < 4 then old (k + m) else 0)

/-- The shifted shadow byte. -/
def shiftv (left : Bool) (m : Nat) (v : BitVec 8) : BitVec 8 :=
  if left then v <<< (2 * m) else v >>> (2 * m)

theorem dig_shiftv (left : Bool) {m : Nat} (hm : m < 4) (v : BitVec 8) {k : Nat} (hk : k < 4) :
    dig (shiftv left m v) k = wantShift left m (dig v) k := by
  have hm' : m = 0 ∨ m = 1 ∨ m = 2 ∨ m = 3 := by omega
  have hk' : k = 0 ∨ k = 1 ∨ k = 2 ∨ k = 3 := by omega
  cases left <;> rcases hm' with rfl | rfl | rfl | rfl <;> rcases hk' with rfl | rfl | rfl | rfl <;>
    (apply BitVec.eq_of_getLsbD_eq; intro i hi
     have hi' : i = 0 ∨ i = 1 := by omega
     rcases hi' with rfl | rfl <;> simp [dig, wantShift, shiftv])

theorem shift_code {op : Op} {left : Bool} {m : Nat} (h : ShiftOp op left m) (r : Role) (p : Opnd) :
    shadowOp op 4 (.lo r) p =
      [if left then .shl (.lo r) (.imm (2 * m)) else .shr (.lo r) (.imm (2 * m))] := by
  cases h with
  | shl _ hm =>
    have : m = 0 ∨ m = 1 ∨ m = 2 ∨ m = 3 := by omega
    rcases this with rfl | rfl | rfl | rfl <;> rfl
  | shr _ hm =>
    have : m = 0 ∨ m = 1 ∨ m = 2 ∨ m = 3 := by omega
    rcases this with rfl | rfl | rfl | rfl <;> rfl

/-- The instruction is `shl` or `shr` of a dword by a constant. -/
def shiftI (op : Op) (a : App) (wf : Bool) (bases : List (Fin 8)) (early : Bool) : App1 :=
  { op := op, s0 := some a, s1 := none, s2 := none, d0 := some a, d1 := none, srcSz := 4,
    dstSz := 4, icd := false, rf := false, wf := wf, always := false, bases := bases, early := early,
    andor := false }

/-- The code for the shadow of the shift. -/
def shiftIns (left : Bool) (m : Nat) (r : Role) : Ins :=
  if left then .shl (.lo r) (.imm (2 * m)) else .shr (.lo r) (.imm (2 * m))

theorem shift_facts {op : Op} {left : Bool} {m : Nat} (h : ShiftOp op left m) :
    op.shadowOp = true ∧ op.odd = false ∧ op ≠ .movzx ∧ op ≠ .movsx ∧ m < 4 := by
  cases h with
  | shl _ hm => simp [Op.shadowOp, Op.odd, hm]
  | shr _ hm => simp [Op.shadowOp, Op.odd, hm]

theorem shift_prop_reg {op : Op} {left : Bool} {m : Nat} (h : ShiftOp op left m) (g : Fin 8) (wf : Bool)
    (bases : List (Fin 8)) (early : Bool) :
    propagate (shiftI op (.reg g false) wf bases early) =
      [.mov (.lo .r1) (.slot g), shiftIns left m .r1] ++
      (if wf then [.mov .flags (.lo .r1)] else []) ++ [.mov (.slot g) (.lo .r1), .label .skip] := by
  obtain ⟨h1, h2, h3, h4, _⟩ := shift_facts h
  have hc := shift_code h .r1 (.lo .r3)
  cases wf <;> simp [propagate, shiftI, App1.psrcs, App1.srcs, App1.markDefined, App1.chk, App1.nprop0, App1.nsrc,
    App1.opsz, App1.ext, App1.ext4, App1.alu, App1.same, h1, h2, h3, h4, propOne, loadShadow, App1.info, Info.ofReg,
    App1.scratch, addDst2, addDst, hc, shiftIns, writeFlags, checkDatastore, App1.store, App1.srcOpsz,
    App1.srcOpsz0, App1.flagSrc, App1.info1, Info.none]

theorem shift_prop_mem {op : Op} {left : Bool} {m : Nat} (h : ShiftOp op left m) (wf : Bool)
    (bases : List (Fin 8)) (early : Bool) :
    propagate (shiftI op .mem wf bases early) =
      [shiftIns left m .r2] ++ (if wf then [.mov .flags (.lo .r2)] else []) ++
      [.cmp .cell (.lo .r2), .jcc true .skip, .mov .cell (.lo .r2), .label .skip] := by
  obtain ⟨h1, h2, h3, h4, _⟩ := shift_facts h
  have hc := shift_code h .r2 (.lo .r3)
  cases wf <;> simp [propagate, shiftI, App1.psrcs, App1.srcs, App1.markDefined, App1.chk, App1.nprop0, App1.nsrc,
    App1.opsz, App1.ext, App1.ext4, App1.alu, App1.same, h1, h2, h3, h4, propOne, loadShadow, App1.info,
    App1.scratch, addDst2, addDst, hc, shiftIns, writeFlags, checkDatastore, App1.store, App1.srcOpsz,
    App1.srcOpsz0, App1.flagSrc, App1.info1, Info.none, App1.storeScratch, App1.needOffs, App1.memsz, App1.load]

/-- What the code for a shift of a register does. -/
theorem shift_exe_reg (e : Env) (left : Bool) {m : Nat} (hm : m < 4) (s : St) (g : Fin 8) (wf : Bool) :
    (exe e ([.mov (.lo .r1) (.slot g), shiftIns left m .r1] ++
      (if wf then [.mov .flags (.lo .r1)] else []) ++ [.mov (.slot g) (.lo .r1), .label .skip]) none s).1 = none ∧
    (let s' := (exe e ([.mov (.lo .r1) (.slot g), shiftIns left m .r1] ++
      (if wf then [.mov .flags (.lo .r1)] else []) ++ [.mov (.slot g) (.lo .r1), .label .skip]) none s).2
     s'.slots = setSlot s.slots g (shiftv left m (s.slots g)) ∧ s'.mem = s.mem ∧ s'.wild = s.wild ∧
     s'.flags = if wf then shiftv left m (s.slots g) else s.flags) := by
  have hm' : m = 0 ∨ m = 1 ∨ m = 2 ∨ m = 3 := by omega
  cases wf <;> cases left <;> rcases hm' with rfl | rfl | rfl | rfl <;>
    simp [shiftIns, shiftv, exe, Ins.ok, Opnd.pairOk, Opnd.isMem, exec, St.get, St.set,
      St.reg, St.setReg, St.count] <;> rfl

/-- What the code for a shift of memory does. -/
theorem shift_exe_mem (e : Env) (left : Bool) {m : Nat} (hm : m < 4) (s : St) (wf : Bool)
    (h2 : s.r2.l = s.mem s.r1) :
    (exe e ([shiftIns left m .r2] ++ (if wf then [.mov .flags (.lo .r2)] else []) ++
      [.cmp .cell (.lo .r2), .jcc true .skip, .mov .cell (.lo .r2), .label .skip]) none s).1 = none ∧
    (let s' := (exe e ([shiftIns left m .r2] ++ (if wf then [.mov .flags (.lo .r2)] else []) ++
      [.cmp .cell (.lo .r2), .jcc true .skip, .mov .cell (.lo .r2), .label .skip]) none s).2
     s'.slots = s.slots ∧ s'.mem = setMem s.mem s.r1 (shiftv left m (s.mem s.r1)) ∧ s'.wild = s.wild ∧
     s'.flags = if wf then shiftv left m (s.mem s.r1) else s.flags) := by
  have key : exe e ([shiftIns left m .r2] ++ (if wf then [.mov .flags (.lo .r2)] else [])) none s =
      (none, { s with r2 := { s.r2 with l := shiftv left m (s.mem s.r1) },
                      flags := if wf then shiftv left m (s.mem s.r1) else s.flags }) := by
    have hm' : m = 0 ∨ m = 1 ∨ m = 2 ∨ m = 3 := by omega
    cases wf <;> cases left <;> rcases hm' with rfl | rfl | rfl | rfl <;>
      simp [shiftIns, shiftv, exe, Ins.ok, Opnd.pairOk, Opnd.isMem, exec, St.get, St.set,
        St.reg, St.setReg, St.count, h2]
  rw [exe_append, key]
  generalize shiftv left m (s.mem s.r1) = v
  by_cases hv : s.mem s.r1 = v
  · simp [exe, Ins.ok, Opnd.pairOk, Opnd.isMem, Opnd.role, exec, St.get, St.set, St.reg, St.setReg, hv]
    rw [← hv, setMem_self]
  · simp [exe, Ins.ok, Opnd.pairOk, Opnd.isMem, Opnd.role, exec, St.get, St.set, St.reg, St.setReg, hv]
    rfl

/-- C61: `shl` and `shr` of a dword by a multiple of 8 below 32 shift the states of the bytes, with defined bytes
shifted in; nothing else changes, and the flags are defined exactly if the whole result is. -/
theorem C61_shift (I : App1) (e : Env) (s s' : St) (left : Bool) (m : Nat) (a : App) (h : Ok I)
    (hop : ShiftOp I.op left m) (ha : I.s0 = some a) (hsz : I.dstSz = 4) (hicd : I.icd = false)
    (hal : I.always = false) (hw : s.wild = false) (hr : run e (fastpath I) none s = .done s') :
    (∀ k < 4, operand e s' a k = wantShift left m (operand e s a) k) ∧
    (∀ g, a ≠ .reg g false → s'.slots g = s.slots g) ∧
    (∀ p, ¬(a = .mem ∧ p = e.xl e.addr) → s'.mem p = s.mem p) ∧
    (I.wf = true → (s'.flags = 0 ↔ ∀ k < 4, operand e s' a k = 0)) ∧
    (I.wf = false → s'.flags = s.flags) ∧ s'.wild = false := by
  obtain ⟨h1, h2, h3, h4, hm⟩ := shift_facts hop
  obtain ⟨_, q2, q3, q4, q5, q6⟩ := h.shift h1
  have hext : I.ext = false := by simp [App1.ext, h3, h4]
  have hss := h.plain hext
  have hs2 : I.s2 = none := by
    cases hq : I.s2 with
    | none => rfl
    | some x => have := h.s21 (by rw [hq]; rfl); simp [q3] at this
  have hI : I = shiftI I.op a I.wf I.bases I.early := by
    cases I
    simp_all [shiftI]
  have hc : Clear I e s := Classical.byContradiction fun hn => by
    obtain ⟨s2, hr2, _⟩ := (fast_slow I e s h hw).1 hn
    rw [hr] at hr2
    simp at hr2
  obtain ⟨p1, _⟩ := stage_pre I e s h s ⟨rfl, rfl, rfl, hw⟩
  obtain ⟨s2, hg, hs⟩ := p1 hc
  have fin : (exe e (propagate I) none s2).1 = none → s' = (exe e (propagate I) none s2).2 := fun hx => by
    rw [fastpath_eq, hg] at hr
    have := goes_exe e (propagate I) s2 hx []
    rw [List.append_nil] at this
    rw [this, run] at hr
    simpa using hr.symm
  cases a with
  | reg g b =>
    have hb : b = false := by
      cases b
      · rfl
      · have := h.h0 g ha; omega
    subst hb
    have hp : propagate I = _ := (congrArg propagate hI).trans (shift_prop_reg hop g I.wf I.bases I.early)
    obtain ⟨x1, x2, x3, x4, x5⟩ := shift_exe_reg e left hm s2 g I.wf
    rw [← hp] at x1 x2 x3 x4 x5
    have := fin x1
    rw [← this] at x2 x3 x4 x5
    rw [hs.same.slots] at x2 x5
    have hop' : ∀ k, operand e s' (.reg g false) k = dig (shiftv left m (s.slots g)) k := fun k => by
      simp [operand, x2, setSlot]
    refine ⟨fun k hk => ?_, fun g' hg' => ?_, fun p _ => ?_, fun hwf => ?_, fun hwf => ?_, ?_⟩
    · rw [hop', dig_shiftv left hm _ hk]
      simp [wantShift, operand]
    · rw [x2, setSlot, if_neg (fun hc => hg' (by rw [hc]))]
    · rw [x3, hs.same.mem]
    · rw [x5, hwf, if_pos rfl]
      constructor
      · intro hz k _; rw [hop', hz, dig_zero]
      · intro hz
        exact dig_ext fun k hk => by rw [← hop', hz k hk, dig_zero]
    · rw [x5, hwf, if_neg (by simp), hs.same.flags]
    · rw [x4, hs.same.wild]
  | mem =>
    have hst : I.store = true := by rw [hI]; rfl
    have hnoff : I.needOffs = false := by
      rw [hI]; simp [App1.needOffs, shiftI, App1.ext4, App1.ext, App1.memsz, App1.store, h3, h4]
    have hr1 := hs.st1 hst
    have hcell : s2.r2.l = s2.mem s2.r1 := by
      have := hs.stv hst
      rw [App1.storeScratch, hnoff] at this
      rw [hr1, hs.same.mem]
      exact this
    have hmis := (hc.2.1 (by simp [App1.hasMem, hst])).2
    have hof : e.off.toNat = 0 := by
      have : e.addr.l &&& 3 = 0 := Classical.byContradiction fun hc =>
        hmis (Or.inr ⟨by simp [App1.memsz, hst, hsz], hc⟩)
      unfold Env.off; rw [this]; rfl
    have hp : propagate I = _ := (congrArg propagate hI).trans (shift_prop_mem hop I.wf I.bases I.early)
    obtain ⟨x1, x2, x3, x4, x5⟩ := shift_exe_mem e left hm s2 I.wf hcell
    rw [← hp] at x1 x2 x3 x4 x5
    have := fin x1
    rw [← this] at x2 x3 x4 x5
    rw [hr1, hs.same.mem] at x3 x5
    have hop' : ∀ k, operand e s' .mem k = dig (shiftv left m (s.mem (e.xl e.addr))) k := fun k => by
      simp [operand, x3, setMem, hof]
    refine ⟨fun k hk => ?_, fun g' _ => ?_, fun p hp => ?_, fun hwf => ?_, fun hwf => ?_, ?_⟩
    · rw [hop', dig_shiftv left hm _ hk]
      simp [wantShift, operand, hof]
    · rw [x2, hs.same.slots]
    · rw [x3, setMem, if_neg (fun hc => hp ⟨rfl, hc⟩)]
    · rw [x5, hwf, if_pos rfl]
      constructor
      · intro hz k _; rw [hop', hz, dig_zero]
      · intro hz
        exact dig_ext fun k hk => by rw [← hop', hz k hk, dig_zero]
    · rw [x5, hwf, if_neg (by simp), hs.same.flags]
    · rw [x4, hs.same.wild]

/-- shr $8, (mem32) with the bytes 0 and 3 undefined. -/
example : ∃ s', run (env0 0 false) (fastpath (shiftBy (.shr 8) .mem 4)) none (st0 0 0xc3) = .done s' ∧
    (s'.mem ⟨5, 6, 7⟩ == 0x30) = true :=
  endSt_ex (fun s' => s'.mem ⟨5, 6, 7⟩ == 0x30) (by decide +kernel)

example : Ok (shiftBy (.shr 8) .mem 4) ∧ ShiftOp (shiftBy (.shr 8) .mem 4).op false 1 :=
  ⟨by fast_ok, .shr 1 (by omega)⟩

end Verif.FastX86
