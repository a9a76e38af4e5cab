import Verif.FastX86Pre

/-! The checks of definedness and addressability in the emitted code. -/

namespace Verif.FastX86

/-- What the checks of registers keep. -/
structure InvSt (I : App1) (e : Env) (s s' : St) : Prop where
  same : Same s s'
  st1 : I.store = true → s'.r1 = e.xl e.addr
  st2 : I.store = true → I.zeroRest = true → s'.r2 = ⟨0, e.off, 0⟩

theorem InvMem.toSt {I : App1} {e : Env} {s s' : St} (h : InvMem I e s s') : InvSt I e s s' :=
  ⟨h.same, h.st1, h.st2⟩

/-- A source passes the check of definedness. -/
def Pass (I : App1) (e : Env) (s : St) : App → Prop
  | .mem =>
    if I.srcOpsz < 4 ∧ I.zeroRest = true then FieldDef (s.cellOf e) e.off.toNat I.memsz
    else s.cellOf e = 0
  | .reg g h =>
    if I.srcOpsz < 4 ∧ I.zeroRest = true then FieldDef (s.slots g) h.toNat I.srcOpsz
    else s.slots g = 0

instance (I : App1) (e : Env) (s : St) (a : App) : Decidable (Pass I e s a) := by
  cases a <;> unfold Pass <;> infer_instance

theorem execL_two (e : Env) (i j : Ins) (s : St) (hi : i.ok = true) (hj : j.ok = true) :
    execL e [i, j] s = exec e (exec e s i) j := by simp [execL, hi, hj]

theorem execL_one (e : Env) (i : Ins) (s : St) (hi : i.ok = true) :
    execL e [i] s = exec e s i := by simp [execL, hi]

/-- The check of a register. -/
theorem checkReg (I : App1) (e : Env) (s s' : St) (g : Fin 8) (h : Bool)
    (hi : InvSt I e s s') (hs : I.srcOpsz < 4 → I.zeroRest = true → I.srcOpsz = 1 ∨ I.srcOpsz = 2)
    (hh : h = true → I.zeroRest = true → I.srcOpsz ≠ 2)
    (hn : I.store = true → I.zeroRest = true → I.needOffs = true) :
    ∃ s2, Goes e (checkDefined I (.reg g h) (.slot g)) s' none s2 ∧ InvSt I e s s2 ∧
      s2.zf = decide (Pass I e s (.reg g h)) := by
  by_cases hz : I.srcOpsz < 4 ∧ I.zeroRest = true
  · have hsz := hs hz.1 hz.2
    let base : Role := if I.store then (if I.needOffs then .r3 else .r2) else .r1
    let t : Tbl := if I.srcOpsz = 1 then .byteDefined else .wordDefined
    let s1 : St := s'.setReg base ⟨0, 0, s'.slots g⟩
    have hc : checkDefined I (.reg g h) (.slot g) =
        [.movzx base (.slot g), .cmpTbl t (if h then 256 else 0) base none] := by
      simp [checkDefined, hz.1, hz.2, base, t]
    have hx : execL e [.movzx base (.slot g), .cmpTbl t (if h then 256 else 0) base none] s' =
        { s1 with zf := decide (FieldDef (s'.slots g) h.toNat I.srcOpsz) } := by
      rw [execL_two _ _ _ _ (by simp [Ins.ok]) (by simp [Ins.ok])]
      have h1 : exec e s' (.movzx base (.slot g)) = s1 := by simp [exec, St.get, s1]
      rw [h1]
      refine exec_cmpTbl (n := 256 * h.toNat + (s'.slots g).toNat) ?_
        (tbl_defined _ (by cases h <;> decide) hsz (by
          intro h2; cases h
          · rfl
          · exact absurd h2 (hh rfl hz.2)))
      have : s1.reg base = ⟨0, 0, s'.slots g⟩ := by
        simp only [s1]; cases base <;> rfl
      rw [this, R.num_lo]
      cases h <;> simp [St.idx]
    rw [hc]
    refine ⟨_, goes_execL e _ s' (by simp [Ins.straight]), ?_⟩
    rw [hx]
    have hsame := hi.same
    refine ⟨⟨?_, ?_, ?_⟩, ?_⟩
    · constructor <;> simp only [s1] <;> cases base <;>
        simp [St.setReg, hsame.slots, hsame.flags, hsame.mem, hsame.wild]
    · intro hst
      simp only [s1, base, hst, hn hst hz.2, if_true, St.setReg]
      exact hi.st1 hst
    · intro hst hzr
      simp only [s1, base, hst, hn hst hz.2, if_true, St.setReg]
      exact hi.st2 hst hzr
    · simp only [Pass, hz, and_self, if_true, hsame.slots]
  · have hc : checkDefined I (.reg g h) (.slot g) = [.cmp (.slot g) (.imm 0)] := by
      simp only [checkDefined]
      rw [if_neg (by simpa using hz)]
    rw [hc]
    refine ⟨_, goes_execL e _ s' (by simp [Ins.straight]), ?_⟩
    rw [execL_one _ _ _ (by simp [Ins.ok, Opnd.pairOk, Opnd.isMem])]
    have hsame := hi.same
    refine ⟨⟨⟨hsame.slots, hsame.flags, hsame.mem, hsame.wild⟩, hi.st1, hi.st2⟩, ?_⟩
    simp only [exec, St.get, Pass, if_neg hz, hsame.slots]
    rfl

/-- The check of the memory operand of a load. -/
theorem checkLoad (I : App1) (e : Env) (s s' : St) (hi : InvMem I e s s') (hl : I.load = true)
    (hs : I.zeroRest = true → I.memsz = 1 ∨ I.memsz = 2) (ha : ¬Mis I e) :
    ∃ s2, Goes e (checkDefined I .mem (.lo .r2)) s' none s2 ∧ InvSt I e s s2 ∧
      s2.zf = decide (Pass I e s .mem) := by
  have hr2 := hi.ld2 hl
  have hsame := hi.same
  by_cases hz : I.srcOpsz < 4 ∧ I.zeroRest = true
  · obtain ⟨o, r, ho, hor, hne, hr, _⟩ := hi.ldo hl hz.2
    have hc : checkDefined I .mem (.lo .r2) =
        [.cmpTbl (if I.memsz = 1 then .byteDefined else .wordDefined) 0 .r2 (some r)] := by
      simp [checkDefined, hz.1, hz.2, ho, hor, Offs.role]
    rw [hc]
    refine ⟨_, goes_execL e _ s' (by simp [Ins.straight]), ?_⟩
    rw [execL_one _ _ _ (by simp [Ins.ok]),
      exec_cmpTbl (n := 256 * e.off.toNat + (s.cellOf e).toNat)
        (P := FieldDef (s.cellOf e) e.off.toNat I.memsz) ?_ ?_]
    · refine ⟨⟨⟨hsame.slots, hsame.flags, hsame.mem, hsame.wild⟩, hi.st1, hi.st2⟩, ?_⟩
      simp only [Pass, hz, and_self, if_true]
    · simp only [St.idx, hr, R.num_hi]
      have : s'.reg .r2 = ⟨0, 0, s.cellOf e⟩ := hr2
      rw [this, R.num_lo]
      omega
    · refine tbl_defined _ e.off_lt (hs hz.2) (fun h2 => ?_)
      have : e.addr.l &&& 1 = 0 := Classical.byContradiction fun hc => ha (Or.inl ⟨h2, hc⟩)
      exact off_even this
  · have hc : checkDefined I .mem (.lo .r2) = [.test (.lo .r2) (.lo .r2)] := by
      simp only [checkDefined]
      rw [if_neg (by simpa using hz)]
    rw [hc]
    refine ⟨_, goes_execL e _ s' (by simp [Ins.straight]), ?_⟩
    rw [execL_one _ _ _ (by simp [Ins.ok, Opnd.pairOk, Opnd.isMem])]
    refine ⟨⟨⟨hsame.slots, hsame.flags, hsame.mem, hsame.wild⟩, hi.st1, hi.st2⟩, ?_⟩
    simp only [exec, St.get, St.reg, hr2, Pass, if_neg hz, BitVec.and_self]
    rfl

/-- The check of the memory operand of a store. -/
theorem checkStore (I : App1) (e : Env) (s s' : St) (hi : InvSt I e s s') (hst : I.store = true)
    (hs : I.zeroRest = true → I.memsz = 1 ∨ I.memsz = 2) (heq : I.srcOpsz = I.memsz)
    (hn : I.store = true → I.zeroRest = true → I.needOffs = true)
    (hm : I.zeroRest = true → I.memoffs = .reg (.hi .r2))
    (ha : ¬Mis I e) :
    ∃ s2, Goes e (checkDefined I .mem .cell) s' none s2 ∧ InvSt I e s s2 ∧
      s2.zf = decide (Pass I e s .mem) := by
  have hsame := hi.same
  have hr1 := hi.st1 hst
  have hcell : s'.mem s'.r1 = s.cellOf e := by rw [hr1, hsame.mem]; rfl
  by_cases hz : I.srcOpsz < 4 ∧ I.zeroRest = true
  · have hc : checkDefined I .mem .cell =
        [.movzx .r3 .cell,
          .cmpTbl (if I.srcOpsz = 1 then .byteDefined else .wordDefined) 0 .r3 (some .r2)] := by
      simp [checkDefined, hz.1, hz.2, hm hz.2, Offs.role, hst, hn hst hz.2]
    rw [hc]
    refine ⟨_, goes_execL e _ s' (by simp [Ins.straight]), ?_⟩
    rw [execL_two _ _ _ _ (by simp [Ins.ok]) (by simp [Ins.ok]),
      exec_cmpTbl (n := 256 * e.off.toNat + (s.cellOf e).toNat)
        (P := FieldDef (s.cellOf e) e.off.toNat I.srcOpsz) ?_ ?_]
    · refine ⟨⟨⟨hsame.slots, hsame.flags, hsame.mem, hsame.wild⟩, hi.st1, hi.st2⟩, ?_⟩
      simp only [Pass, hz, and_self, if_true]
      simp only [heq]
    · simp only [exec, St.get, St.idx, St.setReg, St.reg, hi.st2 hst hz.2, R.num_hi, hcell, R.num_lo]
      omega
    · rw [heq]
      refine tbl_defined _ e.off_lt (hs hz.2) (fun h2 => ?_)
      have : e.addr.l &&& 1 = 0 := Classical.byContradiction fun hc => ha (Or.inl ⟨h2, hc⟩)
      exact off_even this
  · have hc : checkDefined I .mem .cell = [.cmp .cell (.imm 0)] := by
      simp only [checkDefined]
      rw [if_neg (by simpa using hz)]
    rw [hc]
    refine ⟨_, goes_execL e _ s' (by simp [Ins.straight]), ?_⟩
    rw [execL_one _ _ _ (by simp [Ins.ok, Opnd.pairOk, Opnd.isMem])]
    refine ⟨⟨⟨hsame.slots, hsame.flags, hsame.mem, hsame.wild⟩, hi.st1, hi.st2⟩, ?_⟩
    simp only [exec, St.get, hcell, Pass, if_neg hz]
    rfl

end Verif.FastX86
