import Verif.FastX86Stage

/-! The checks as stages, and the whole of the code before the propagation. -/

namespace Verif.FastX86

theorem Ok.srcOpsz_plain {I : App1} (_h : Ok I) (h0 : I.s0.isSome = true) (he : I.ext = false) :
    I.srcOpsz = I.srcSz := by simp [App1.srcOpsz, he, App1.srcOpsz0, h0]

theorem Ok.srcOpsz_small {I : App1} (h : Ok I) (h0 : I.s0.isSome = true) (hl : I.srcOpsz < 4) :
    I.srcOpsz = 1 ∨ I.srcOpsz = 2 := by
  have hss := h.ss
  have hds := h.ds
  have hext := h.ext
  unfold App1.srcOpsz at *
  split
  · next hc =>
    simp only [Bool.and_eq_true] at hc
    have hd := (hext hc.1).2.2.2.2.1
    rw [if_pos (by simpa using hc)] at hl
    simp only [App1.opsz, hd, if_true] at *
    omega
  · next hc =>
    rw [if_neg hc] at hl
    simp only [App1.srcOpsz0, h0, if_true] at *
    omega

theorem load_iff {I : App1} : I.load = true ↔ I.s0 = some .mem ∧ I.store = false := by
  simp [App1.load]

theorem store_iff {I : App1} : I.store = true ↔ I.d0 = some .mem := by
  simp [App1.store]

theorem Ok.store_plain {I : App1} (h : Ok I) (hst : I.store = true) : I.ext = false := by
  cases he : I.ext
  · rfl
  · exact absurd (store_iff.1 hst) (h.ext he).2.2.2.2.2.1

/-- One register, as a stage. -/
theorem stage_reg {I : App1} (e : Env) (s : St) (h : Ok I) (g : Fin 8) (b : Bool)
    (h0 : I.s0.isSome = true) (hb : b = true → I.srcSz = 1)
    (hx : I.ext = true → I.zeroRest = false) (s1 : St) (hA : InvSt I e s s1) :
    ∃ s2, Goes e (checkDefined I (.reg g b) (.slot g)) s1 none s2 ∧ InvSt I e s s2 ∧
      s2.zf = decide (Pass I e s (.reg g b)) := by
  refine checkReg I e s s1 g b hA (fun hl _ => h.srcOpsz_small h0 hl) (fun hbt hz => ?_) ?_
  · have he : I.ext = false := by
      cases he : I.ext
      · rfl
      · simp [hx he] at hz
    rw [h.srcOpsz_plain h0 he, hb hbt]
    omega
  · intro hst hz
    exact (h.cfg (zeroRest_mem hz)).sn hst hz

theorem stage_s0 (I : App1) (e : Env) (s : St) (h : Ok I) (a : App) (ha : I.s0 = some a)
    (hmis : I.hasMem = true → ¬Mis I e) :
    Stage e s (match (I.info I.s0).shadow with
        | some sh => checkDefined I a sh ++ [.jcc false .slow]
        | none => [.bad]) (Pass I e s a) (InvMem I e s) (InvSt I e s) := by
  have h0 : I.s0.isSome = true := by simp [ha]
  cases a with
  | mem =>
    by_cases hst : I.store = true
    · have hm : I.hasMem = true := by simp [App1.hasMem, hst]
      have C := h.cfg hm
      simp only [ha, App1.info, hst, if_true]
      refine Stage.check (fun s1 hA => ?_) (fun _ hx => hx.same)
      have hpl := h.store_plain hst
      refine checkStore I e s s1 hA.toSt hst (fun hz => ?_) ?_ C.sn ?_ (hmis hm)
      · have := C.sub hz; have := C.sz; omega
      · rw [h.srcOpsz_plain h0 hpl, h.plain hpl, App1.memsz, hst, if_pos rfl]
      · intro hz
        have hn := C.sn hst hz
        have hl : I.load = false := by simp [App1.load, hst]
        simp [App1.memoffs, hst, hn, hl]
    · have hst' : I.store = false := by simpa using hst
      have hl : I.load = true := load_iff.2 ⟨ha, hst'⟩
      have hm : I.hasMem = true := by simp [App1.hasMem, hl]
      have C := h.cfg hm
      simp only [ha, App1.info, hst', Bool.false_eq_true, if_false]
      refine Stage.check (fun s1 hA => ?_) (fun _ hx => hx.same)
      refine checkLoad I e s s1 hA hl (fun hz => ?_) (hmis hm)
      have := C.sub hz; have := C.sz; omega
  | reg g b =>
    simp only [ha, App1.info, Info.ofReg]
    refine Stage.check (fun s1 hA => ?_) (fun _ hx => hx.same)
    refine stage_reg e s h g b h0 (fun hb => h.h0 g (by rw [ha, hb])) (fun he => ?_) s1 hA.toSt
    cases hz : I.zeroRest
    · rfl
    · have hm := zeroRest_mem hz
      have hst : I.store = false := by
        cases hst : I.store
        · rfl
        · have := h.store_plain hst; simp_all
      have hl : I.load = true := by simpa [App1.hasMem, hst] using hm
      have := (load_iff.1 hl).1
      simp [ha] at this

/-- The second source. -/
theorem stage_s1 (I : App1) (e : Env) (s : St) (h : Ok I) (b : App) (hb : I.s1 = some b) :
    Stage e s (match (I.info I.s1).shadow with
        | some sh => checkDefined I b sh ++
          (if I.andor && I.srcOpsz == 4 && I.s1 != I.s0 then
            [.jcc true .src2Defined, .cmpApp, .jcc false .slow, .label .src2Defined]
           else [.jcc false .slow])
        | none => [.bad])
      (Pass I e s b ∨ (I.andor = true ∧ I.srcOpsz = 4 ∧ I.s0 ≠ some b ∧ e.appval = true))
      (InvSt I e s) (InvSt I e s) := by
  have h0 : I.s0.isSome = true := h.s10 (by simp [hb])
  cases b with
  | mem => exact absurd hb h.m1
  | reg g hi =>
    have hx : I.ext = true → I.zeroRest = false := fun he => by
      have := (h.ext he).2.2.1; simp [hb] at this
    have hreg := stage_reg e s h g hi h0 (fun hh => h.h1 g (by rw [hb, hh])) hx
    simp only [hb, App1.info, Info.ofReg]
    by_cases hc : I.andor = true ∧ I.srcOpsz = 4 ∧ I.s0 ≠ some (.reg g hi)
    · have hc' : (I.andor && I.srcOpsz == 4 && some (App.reg g hi) != I.s0) = true := by
        simp only [hc.1, hc.2.1, Bool.true_and, beq_self_eq_true, bne_iff_ne, ne_eq]
        exact fun hq => hc.2.2 hq.symm
      rw [if_pos hc']
      intro s1 hA
      obtain ⟨s2, g2, i2, z2⟩ := hreg s1 hA
      have hsame := i2.same
      have hi3 : InvSt I e s { s2 with zf := e.appval } :=
        ⟨⟨hsame.slots, hsame.flags, hsame.mem, hsame.wild⟩, i2.st1, i2.st2⟩
      refine ⟨fun hp => ?_, fun hp => ?_⟩
      · by_cases hq : Pass I e s (.reg g hi)
        · refine ⟨s2, g2.append ?_, i2⟩
          intro rest
          simp [run, z2, hq]
        · have ha : e.appval = true := by
            rcases hp with hp | hp
            · exact absurd hp hq
            · exact hp.2.2.2
          refine ⟨{ s2 with zf := e.appval }, g2.append ?_, hi3⟩
          intro rest
          simp [run, z2, hq, Ins.ok, exec, ha]
      · have hq : ¬Pass I e s (.reg g hi) := fun hq => hp (Or.inl hq)
        have ha : e.appval = false := by
          cases ha : e.appval
          · rfl
          · exact absurd (Or.inr ⟨hc.1, hc.2.1, hc.2.2, ha⟩) hp
        refine ⟨{ s2 with zf := e.appval }, g2.append ?_, hi3.same⟩
        intro rest
        simp [run, z2, hq, Ins.ok, exec, ha]
    · have hc' : ¬(I.andor && I.srcOpsz == 4 && some (App.reg g hi) != I.s0) = true := by
        simp only [Bool.and_eq_true, beq_iff_eq, bne_iff_ne, ne_eq]
        exact fun hh => hc ⟨hh.1.1, hh.1.2, fun hq => hh.2 hq.symm⟩
      rw [if_neg hc']
      have hs := Stage.check (s := s) (P := Pass I e s (.reg g hi)) hreg (fun _ hx => hx.same)
      refine hs.mono (fun _ h => h) (fun _ h => h) ⟨Or.inl, ?_⟩
      rintro (hp | hp)
      · exact hp
      · exact absurd ⟨hp.1, hp.2.1, hp.2.2.1⟩ hc

/-- The third source. -/
theorem stage_s2 (I : App1) (e : Env) (s : St) (h : Ok I) (b : App) (hb : I.s2 = some b) :
    Stage e s (match (I.info I.s2).shadow with
        | some sh => checkDefined I b sh ++ [.jcc false .slow]
        | none => [.bad])
      (Pass I e s b) (InvSt I e s) (InvSt I e s) := by
  have h0 : I.s0.isSome = true := h.s10 (h.s21 (by simp [hb]))
  cases b with
  | mem => exact absurd hb h.m2
  | reg g hi =>
    have hx : I.ext = true → I.zeroRest = false := fun he => by
      have := (h.ext he).2.2.2.1; simp [hb] at this
    have hreg := stage_reg e s h g hi h0 (fun hh => h.h2 g (by rw [hb, hh])) hx
    simp only [hb, App1.info, Info.ofReg]
    exact Stage.check (s := s) (P := Pass I e s (.reg g hi)) hreg (fun _ hx => hx.same)

theorem checkDefined_slow (I : App1) (a : App) (sh : Opnd) :
    Ins.label .slow ∉ checkDefined I a sh := by
  unfold checkDefined
  cases sh <;> cases a <;> cases I.memoffs.role <;> cases I.zeroRest <;>
    by_cases h : I.srcOpsz < 4 <;> simp [h]

/-- What holds after the checks of definedness. -/
structure InvChk (I : App1) (e : Env) (s s' : St) : Prop where
  st : InvSt I e s s'
  mem : I.chk = false ∨ I.markDefined = true → InvMem I e s s'

theorem stage_checks (I : App1) (e : Env) (s : St) (h : Ok I)
    (hmis : I.hasMem = true → ¬Mis I e) :
    Stage e s (checks I) (ChecksPass I e s) (InvMem I e s) (InvChk I e s) := by
  by_cases hc : I.chk = true ∧ I.markDefined = false
  · have hB : ∀ x, InvSt I e s x → InvChk I e s x := fun x hx =>
      ⟨hx, fun hh => by rcases hh with hh | hh <;> simp [hc.1, hc.2] at hh⟩
    unfold checks
    rw [if_pos (by simp [hc.1, hc.2])]
    have p0 : Stage e s (match I.s0 with
        | some a => (if I.s1.isSome && I.s1 == I.s0 then []
           else (match (I.info I.s0).shadow with
            | some sh => checkDefined I a sh ++ [.jcc false .slow]
            | none => [.bad]))
        | none => []) (∀ a, I.s0 = some a → I.s1 ≠ some a → Pass I e s a)
        (InvMem I e s) (InvSt I e s) := by
      match ha : I.s0 with
      | none => exact Stage.nil (fun _ hx => hx.toSt) (fun a hq => by simp at hq)
      | some a =>
        dsimp only
        by_cases hs : I.s1 = some a
        · rw [if_pos (by simp [hs])]
          exact Stage.nil (fun _ hx => hx.toSt) (fun b hq hn => by
            obtain rfl := Option.some.inj hq; exact absurd hs hn)
        · rw [if_neg (by simp [hs])]
          have := stage_s0 I e s h a ha hmis
          rw [ha] at this
          exact this.mono (fun _ h => h) (fun _ h => h)
            ⟨fun hp b hq _ => (Option.some.inj hq) ▸ hp, fun hp => hp a rfl hs⟩
    have p1 : Stage e s (match I.s1 with
        | some b => (match (I.info I.s1).shadow with
            | some sh => checkDefined I b sh ++
              (if I.andor && I.srcOpsz == 4 && I.s1 != I.s0 then
                [.jcc true .src2Defined, .cmpApp, .jcc false .slow, .label .src2Defined]
               else [.jcc false .slow])
            | none => [.bad])
        | none => [])
        (∀ b, I.s1 = some b → Pass I e s b ∨
          (I.andor = true ∧ I.srcOpsz = 4 ∧ I.s0 ≠ some b ∧ e.appval = true))
        (InvSt I e s) (InvSt I e s) := by
      match hb : I.s1 with
      | none => exact Stage.nil (fun _ hx => hx) (fun a hq => by simp at hq)
      | some b =>
        have := stage_s1 I e s h b hb
        rw [hb] at this
        exact this.mono (fun _ h => h) (fun _ h => h)
            ⟨fun hp b hq => (Option.some.inj hq) ▸ hp, fun hp => hp b rfl⟩
    have p2 : Stage e s (match I.s2 with
        | some c => (match (I.info I.s2).shadow with
            | some sh => checkDefined I c sh ++ [.jcc false .slow]
            | none => [.bad])
        | none => []) (∀ c, I.s2 = some c → Pass I e s c) (InvSt I e s) (InvSt I e s) := by
      match hb : I.s2 with
      | none => exact Stage.nil (fun _ hx => hx) (fun a hq => by simp at hq)
      | some b =>
        have := stage_s2 I e s h b hb
        rw [hb] at this
        exact this.mono (fun _ h => h) (fun _ h => h)
            ⟨fun hp b hq => (Option.some.inj hq) ▸ hp, fun hp => hp b rfl⟩
    refine ((p0.append p1 ?_).append p2 ?_).mono (fun _ h => h) hB ?_
    · match I.s1 with
      | none => simp
      | some b =>
        cases (I.info (some b)).shadow with
        | none => simp
        | some sh =>
          have := checkDefined_slow I b sh
          dsimp only
          split <;> simp [this]
    · match I.s2 with
      | none => simp
      | some b =>
        cases (I.info (some b)).shadow with
        | none => simp
        | some sh =>
          have := checkDefined_slow I b sh
          simp [this]
    · simp only [ChecksPass, hc.1, hc.2, forall_const, and_assoc]
  · unfold checks
    rw [if_neg (by simpa using hc)]
    refine Stage.nil (fun _ hx => ⟨hx.toSt, fun _ => hx⟩) ?_
    intro h1 h2
    exact absurd ⟨h1, h2⟩ hc

/-- What holds before the propagation. -/
structure Facts (I : App1) (e : Env) (s s' : St) : Prop where
  same : Same s s'
  st1 : I.store = true → s'.r1 = e.xl e.addr
  sto : I.store = true → I.needOffs = true → s'.r2 = ⟨0, e.off, 0⟩
  stv : I.store = true → (s'.reg I.storeScratch).l = s.cellOf e
  ldv : I.load = true → I.chk = false ∨ I.markDefined = true → s'.r2 = ⟨0, 0, s.cellOf e⟩
  ldo : I.load = true → I.needOffs = true → I.chk = false ∨ I.markDefined = true →
    s'.r1 = ⟨0, e.off, 0⟩

theorem stage_addr (I : App1) (e : Env) (s : St) (h : Ok I)
    (hmis : I.hasMem = true → ¬Mis I e) :
    Stage e s (addrChecks I) (AddrPass I e s) (InvChk I e s) (Facts I e s) := by
  have hev : I.hasMem = true → I.memsz = 2 → e.off.toNat % 2 = 0 := fun hm h2 => by
    have : e.addr.l &&& 1 = 0 := Classical.byContradiction fun hc => hmis hm (Or.inl ⟨h2, hc⟩)
    exact off_even this
  by_cases hl : I.load = true
  · have hm : I.hasMem = true := by simp [App1.hasMem, hl]
    have C := h.cfg hm
    have hst := C.excl hl
    -- the facts after the table lookup
    have hF : ∀ x, InvChk I e s x → Facts I e s x := fun x hx =>
      ⟨hx.st.same, fun hh => by simp [hst] at hh, fun hh => by simp [hst] at hh,
        fun hh => by simp [hst] at hh, fun _ hc => (hx.mem hc).ld2 hl, fun _ hn hc => by
          obtain ⟨o, r, _, _, _, hr, hr1⟩ := (hx.mem hc).ldo hl (C.nz hn)
          have := hr1 hn
          subst this
          exact hr⟩
    simp only [addrChecks, hl, if_true]
    by_cases hcm : I.checkedMem = true
    · rw [if_pos hcm]
      refine Stage.nil hF ?_
      rintro (hh | hh)
      · simp [hcm] at hh
      · simp [hst] at hh
    · rw [if_neg hcm]
      have hcm' : I.checkedMem = false := by simpa using hcm
      have hns : I.chk = false ∨ I.markDefined = true := by
        cases hck : I.chk
        · exact Or.inl rfl
        · cases hmd : I.markDefined
          · have h1 : I.s1 ≠ I.s0 := fun hq => h.m1 (by rw [hq]; exact (load_iff.1 hl).1)
            simp [App1.checkedMem, hck, hmd, hl, h1] at hcm
          · exact Or.inr rfl
      have hP : AddrPass I e s ↔ (if I.memsz < 4 ∧ I.needOffs = true then
          FieldAddr (s.cellOf e) e.off.toNat I.memsz else FieldAddr (s.cellOf e) 0 4) :=
        ⟨fun hh => hh (Or.inl ⟨hl, hcm'⟩), fun hh _ => hh⟩
      refine Stage.mono (P := if I.memsz < 4 ∧ I.needOffs = true then
          FieldAddr (s.cellOf e) e.off.toNat I.memsz else FieldAddr (s.cellOf e) 0 4)
        (A := InvChk I e s) (B := InvChk I e s) ?_ (fun _ h => h) hF hP.symm
      refine Stage.check (fun s1 hA => ?_) (fun _ hx => hx.st.same)
      have hM := hA.mem hns
      have hsame := hA.st.same
      have keep : ∀ b, InvChk I e s { s1 with zf := b } := fun b =>
        ⟨⟨⟨hsame.slots, hsame.flags, hsame.mem, hsame.wild⟩, hA.st.st1, hA.st.st2⟩, fun _ =>
          ⟨⟨hsame.slots, hsame.flags, hsame.mem, hsame.wild⟩, hA.st.st1, hA.st.st2, hM.ld2,
            fun a b => by
              obtain ⟨o, r, h1, h2, h3, h4, h5⟩ := hM.ldo a b
              refine ⟨o, r, h1, h2, h3, ?_, h5⟩
              rw [← h4]; cases r <;> rfl⟩⟩
      by_cases hno : I.memsz < 4 ∧ I.needOffs = true
      · obtain ⟨o, r, ho, hor, _, hr, hr1⟩ := hM.ldo hl (C.nz hno.2)
        have hc : addrTbl I .r2 = [.cmpTbl (if I.memsz = 1 then .byteAddrNotBit
            else .wordAddrNotBit) 0 .r2 (some r)] := by
          simp [addrTbl, hno.1, hno.2, ho, hor, Offs.role]
        rw [hc]
        refine ⟨_, goes_execL e _ s1 (by simp [Ins.straight]), ?_⟩
        rw [execL_one _ _ _ (by simp [Ins.ok]),
          exec_cmpTbl (n := 256 * e.off.toNat + (s.cellOf e).toNat)
            (P := FieldAddr (s.cellOf e) e.off.toNat I.memsz) ?_ ?_]
        · refine ⟨keep _, ?_⟩
          simp only [hno, and_self, if_true]
        · simp only [St.idx, hr, R.num_hi]
          have : s1.reg .r2 = ⟨0, 0, s.cellOf e⟩ := hM.ld2 hl
          rw [this, R.num_lo]
          omega
        · exact tbl_addr _ e.off_lt (by have := C.sz; omega) (hev hm)
      · have hc : addrTbl I .r2 = [.cmpTbl .dwordAddrNotBit 0 .r2 none] := by
          unfold addrTbl
          rw [if_neg (by simpa using hno)]
        rw [hc]
        refine ⟨_, goes_execL e _ s1 (by simp [Ins.straight]), ?_⟩
        rw [execL_one _ _ _ (by simp [Ins.ok]),
          exec_cmpTbl (n := (s.cellOf e).toNat) (P := FieldAddr (s.cellOf e) 0 4) ?_ (tbl_addr4 _)]
        · refine ⟨keep _, ?_⟩
          simp only [if_neg hno]
        · have : s1.reg .r2 = ⟨0, 0, s.cellOf e⟩ := hM.ld2 hl
          simp only [St.idx, this, R.num_lo]
          omega
  · have hl' : I.load = false := by simpa using hl
    by_cases hst : I.store = true
    · have hm : I.hasMem = true := by simp [App1.hasMem, hst]
      have C := h.cfg hm
      have hP : AddrPass I e s ↔ (if I.memsz < 4 ∧ I.needOffs = true then
          FieldAddr (s.cellOf e) e.off.toNat I.memsz else FieldAddr (s.cellOf e) 0 4) :=
        ⟨fun hh => hh (Or.inr hst), fun hh _ => hh⟩
      simp only [addrChecks, hl', Bool.false_eq_true, if_false, hst, if_true]
      refine Stage.mono (P := if I.memsz < 4 ∧ I.needOffs = true then
          FieldAddr (s.cellOf e) e.off.toNat I.memsz else FieldAddr (s.cellOf e) 0 4)
        (A := InvChk I e s) (B := Facts I e s) ?_ (fun _ h => h) (fun _ h => h) hP.symm
      refine Stage.check (fun s1 hA => ?_) (fun _ hx => hx.same)
      have hsame := hA.st.same
      have hcell : s1.mem s1.r1 = s.cellOf e := by rw [hA.st.st1 hst, hsame.mem]; rfl
      by_cases hn : I.needOffs = true
      · have hlt := C.sub (C.nz hn)
        have hno : I.memsz < 4 ∧ I.needOffs = true := ⟨hlt, hn⟩
        have hr2 := hA.st.st2 hst (C.nz hn)
        have hmo : I.memoffs = .reg (.hi .r2) := by simp [App1.memoffs, hst, hn, hl']
        have hc : addrTbl I I.storeScratch = [.cmpTbl (if I.memsz = 1 then .byteAddrNotBit
            else .wordAddrNotBit) 0 .r3 (some .r2)] := by
          simp [addrTbl, hno.1, hno.2, hmo, Offs.role, App1.storeScratch]
        rw [hc, show I.storeScratch = .r3 by simp [App1.storeScratch, hn]]
        refine ⟨_, goes_execL e _ s1 (by simp [Ins.straight]), ?_⟩
        simp only [List.cons_append, List.nil_append]
        rw [execL_two _ _ _ _ (by simp [Ins.ok]) (by simp [Ins.ok]),
          exec_cmpTbl (n := 256 * e.off.toNat + (s.cellOf e).toNat)
            (P := FieldAddr (s.cellOf e) e.off.toNat I.memsz) ?_ ?_]
        · refine ⟨⟨⟨hsame.slots, hsame.flags, hsame.mem, hsame.wild⟩, hA.st.st1, fun _ _ => hr2,
            fun _ => ?_, fun hh => by simp [hl'] at hh, fun hh => by simp [hl'] at hh⟩, ?_⟩
          · simp only [App1.storeScratch, hn, if_true, exec, St.get, St.setReg, St.reg, hcell]
          · simp only [hno, and_self, if_true]
        · simp only [exec, St.get, St.idx, St.setReg, St.reg, hr2, R.num_hi, hcell, R.num_lo]
          omega
        · exact tbl_addr _ e.off_lt (by have := C.sz; omega) (hev hm)
      · have hno : ¬(I.memsz < 4 ∧ I.needOffs = true) := fun hh => hn hh.2
        have hc : addrTbl I I.storeScratch = [.cmpTbl .dwordAddrNotBit 0 .r2 none] := by
          unfold addrTbl
          rw [if_neg (by simpa using hno)]
          simp [App1.storeScratch, hn]
        rw [hc, show I.storeScratch = .r2 by simp [App1.storeScratch, hn]]
        refine ⟨_, goes_execL e _ s1 (by simp [Ins.straight]), ?_⟩
        simp only [List.cons_append, List.nil_append]
        rw [execL_two _ _ _ _ (by simp [Ins.ok]) (by simp [Ins.ok]),
          exec_cmpTbl (n := (s.cellOf e).toNat) (P := FieldAddr (s.cellOf e) 0 4) ?_ (tbl_addr4 _)]
        · refine ⟨⟨⟨hsame.slots, hsame.flags, hsame.mem, hsame.wild⟩, hA.st.st1,
            fun _ hh => absurd hh hn,
            fun _ => ?_, fun hh => by simp [hl'] at hh, fun hh => by simp [hl'] at hh⟩, ?_⟩
          · simp only [App1.storeScratch, if_neg hn, exec, St.get, St.setReg, St.reg, hcell]
          · simp only [if_neg hno]
        · simp only [exec, St.get, St.idx, St.setReg, St.reg, hcell, R.num_lo]
          omega
    · have hst' : I.store = false := by simpa using hst
      simp only [addrChecks, hl', hst', Bool.false_eq_true, if_false]
      refine Stage.nil (fun x hx => ?_) ?_
      · exact ⟨hx.st.same, fun hh => absurd hh hst, fun hh => absurd hh hst,
          fun hh => absurd hh hst, fun hh => absurd hh hl, fun hh => absurd hh hl⟩
      · rintro (hh | hh)
        · exact absurd hh.1 hl
        · exact absurd hh hst

theorem lookup_slow (I : App1) : Ins.label .slow ∉ lookup I := by
  unfold lookup lookup2
  cases hn : I.needOffs <;> cases he : I.needEarly <;>
    cases hz : I.zeroRest <;> cases hld : I.load <;> cases hst : I.store <;>
    by_cases h1 : I.memsz > 1 <;> cases ho : I.offsNull <;>
    simp_all [App1.memoffs, Opnd.role]

theorem checks_slow (I : App1) : Ins.label .slow ∉ checks I := by
  unfold checks
  by_cases hc : (I.chk && !I.markDefined) = true
  · rw [if_pos hc]
    simp only [List.mem_append, not_or]
    refine ⟨⟨?_, ?_⟩, ?_⟩
    · cases I.s0 with
      | none => simp
      | some a =>
        dsimp only
        split
        · simp
        · cases (I.info (some a)).shadow with
          | none => simp
          | some sh => simp [checkDefined_slow I a sh]
    · cases I.s1 with
      | none => simp
      | some a =>
        cases (I.info (some a)).shadow with
        | none => simp
        | some sh =>
          have := checkDefined_slow I a sh
          dsimp only
          split <;> simp [this]
    · cases I.s2 with
      | none => simp
      | some a =>
        cases (I.info (some a)).shadow with
        | none => simp
        | some sh => simp [checkDefined_slow I a sh]
  · rw [if_neg hc]; simp

theorem addrTbl_slow (I : App1) (r : Role) : Ins.label .slow ∉ addrTbl I r := by
  unfold addrTbl
  cases I.memoffs.role <;> split <;> simp

theorem addrChecks_slow (I : App1) : Ins.label .slow ∉ addrChecks I := by
  unfold addrChecks
  have := addrTbl_slow I
  cases I.load <;> cases I.store <;> cases I.checkedMem <;> simp [this]

/-- The code before the propagation. -/
theorem stage_pre (I : App1) (e : Env) (s : St) (h : Ok I) :
    Stage e s (pre I) (Clear I e s) (Same s) (Facts I e s) := by
  have p1 := stage_lea I e s
  have p2 := stage_flags I e s
  have p3 : Stage e s (if I.hasMem then
      I.bases.flatMap fun g => [.cmp (.slot g) (.imm 0), .jcc false .slow] else [])
      (I.hasMem = true → ∀ g ∈ I.bases, s.slots g = 0) (Inv0 I e s) (Inv0 I e s) := by
    by_cases hm : I.hasMem = true
    · simp only [hm, if_true, forall_const]
      exact stage_bases I e s I.bases
    · simp only [hm]
      exact Stage.nil (fun _ h => h) (fun hh => by simp at hh)
  have p4 : Stage e s (if I.hasMem then lookup I else [])
      (I.hasMem = true → ¬Mis I e) (Inv0 I e s) (InvMem I e s) := by
    by_cases hm : I.hasMem = true
    · simp only [hm, if_true, forall_const]
      exact stage_lookup I e s hm (h.cfg hm)
    · simp only [hm]
      refine Stage.nil (fun x hx => ?_) (fun hh => by simp at hh)
      have hl : I.load = false ∧ I.store = false := by simpa [App1.hasMem] using hm
      exact ⟨hx.same, by simp [hl.2], by simp [hl.2], by simp [hl.1], by simp [hl.1]⟩
  have p5 : (I.hasMem = true → ¬Mis I e) →
      Stage e s (checks I ++ addrChecks I) (ChecksPass I e s ∧ AddrPass I e s) (InvMem I e s)
        (Facts I e s) := fun hmis =>
    (stage_checks I e s h hmis).append (stage_addr I e s h hmis) (addrChecks_slow I)
  have q4 := ((p1.append p2 (by split <;> simp)).append p3 (by split <;> simp)).append p4
    (by split
        · exact lookup_slow I
        · simp)
  have hsl : Ins.label .slow ∉ checks I ++ addrChecks I := by
    simp only [List.mem_append, not_or]
    exact ⟨checks_slow I, addrChecks_slow I⟩
  unfold pre
  refine Stage.mono (q4.append' (fun hp => p5 hp.2) hsl) (fun _ h => h) (fun _ h => h) ?_
  unfold Clear
  constructor
  · rintro ⟨⟨⟨⟨_, a⟩, b⟩, c⟩, d, f⟩
    exact ⟨a, fun hm => ⟨b hm, c hm⟩, d, f⟩
  · rintro ⟨a, b, d, f⟩
    exact ⟨⟨⟨⟨trivial, a⟩, fun hm => (b hm).1⟩, fun hm => (b hm).2⟩, d, f⟩

end Verif.FastX86
