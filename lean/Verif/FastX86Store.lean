import Verif.FastX86Load

/-! The propagation code of stores when nothing has been checked. -/

namespace Verif.FastX86

theorem store_d0 {I : App1} (hst : I.store = true) : I.d0 = some .mem := by
  simpa [App1.store] using hst

theorem setMem_self (m : R → BitVec 8) (p : R) : setMem m p (m p) = m := by
  funext q
  simp only [setMem]
  split
  · next h => rw [h]
  · rfl

/-- Loading a shadow into the second scratch register, then or-ing others. -/
theorem mov_ors (e : Env) (s : St) (sa : Opnd) (l : List Opnd)
    (hsa : (∃ g, sa = .slot g) ∨ sa = .flags ∨ sa = .lo .r3)
    (h : ∀ o ∈ l, (∃ g, o = .slot g) ∨ o = .flags) :
    ∃ z', exe e (.mov (.lo .r2) sa :: l.map (fun o => .or (.lo .r2) o)) none s = (none, { s with
      r2 := { s.r2 with l := l.foldl (fun v o => v ||| s.get o) (s.get sa) }, zf := z' }) := by
  have h1 : exec e s (.mov (.lo .r2) sa) = { s with r2 := { s.r2 with l := s.get sa }, zf := s.zf } := by
    rcases hsa with ⟨g, rfl⟩ | rfl | rfl <;> rfl
  have hok : (Ins.mov (.lo .r2) sa).ok = true := by
    rcases hsa with ⟨g, rfl⟩ | rfl | rfl <;> rfl
  obtain ⟨z', hz⟩ := ors_exe e s l (s.get sa) s.zf h
  refine ⟨z', ?_⟩
  simp only [exe, hok, if_true, h1]
  exact hz

/-- The second and third source. -/
theorem rest_ors (I : App1) (h : Ok I) (h0 : I.s0.isSome = true) (hn : I.nprop0 ≠ 1) :
    ∃ lb lc : List Opnd, (∀ o ∈ lb ++ lc, (∃ g, o = .slot g) ∨ o = .flags) ∧
      on I.srcs.2.1.shadow (fun o => .or (.lo .r2) o) = lb.map (fun o => .or (.lo .r2) o) ∧
      orThird .r2 I.srcs.2.2 = lc.map (fun o => .or (.lo .r2) o) ∧
      ∀ (s : St) (v : BitVec 8), (lb ++ lc).foldl (fun v o => v ||| s.get o) v =
        v ||| val s I.s1 ||| val s I.s2 ||| fval I s := by
  have h21 := h.s21
  have h0n : I.s0.isNone = false := by
    cases hq : I.s0 with
    | none => simp [hq] at h0
    | some x => rfl
  cases hf : I.flagSrc with
  | true =>
    cases h1 : I.s1 with
    | none =>
      have h2 : I.s2 = none := by
        cases hy : I.s2 with
        | none => rfl
        | some y => simp [hy, h1] at h21
      have hs : I.srcs.2 = (flagInfo, .none) := by
        simp [App1.srcs, hf, h0n, h1, h2, App1.info]
      exact ⟨[.flags], [], by simp, by rw [hs]; rfl, by rw [hs]; rfl,
        fun s v => by simp [h2, val, fval, hf, St.get]⟩
    | some x1 =>
      obtain ⟨g1, b1, rfl⟩ : ∃ g b, x1 = .reg g b := by
        cases x1 with
        | mem => exact absurd h1 h.m1
        | reg g b => exact ⟨g, b, rfl⟩
      have h2 : I.s2 = none := by
        simp only [App1.flagSrc, Bool.and_eq_true, Bool.or_eq_true, Option.isNone_iff_eq_none] at hf
        rcases hf.2 with (hh | hh) | hh
        · simp [hh] at h0
        · simp [h1] at hh
        · exact hh
      have hs : I.srcs.2 = (.ofReg g1 b1, flagInfo) := by
        simp [App1.srcs, hf, h0n, h1, App1.info]
      exact ⟨[.slot g1], [.flags], by simp, by rw [hs]; rfl, by rw [hs]; rfl,
        fun s v => by simp [h2, val, fval, hf, St.get]⟩
  | false =>
    cases h1 : I.s1 with
    | none =>
      have h2 : I.s2 = none := by
        cases hy : I.s2 with
        | none => rfl
        | some y => simp [hy, h1] at h21
      exfalso
      simp [App1.nprop0, App1.nsrc, h0, h1, h2, hf] at hn
    | some x1 =>
      obtain ⟨g1, b1, rfl⟩ : ∃ g b, x1 = .reg g b := by
        cases x1 with
        | mem => exact absurd h1 h.m1
        | reg g b => exact ⟨g, b, rfl⟩
      cases h2 : I.s2 with
      | none =>
        have hs : I.srcs.2 = (.ofReg g1 b1, .none) := by
          simp [App1.srcs, hf, h1, h2, App1.info]
        exact ⟨[.slot g1], [], by simp, by rw [hs]; rfl, by rw [hs]; rfl,
          fun s v => by simp [val, fval, hf, St.get]⟩
      | some x2 =>
        obtain ⟨g2, b2, rfl⟩ : ∃ g b, x2 = .reg g b := by
          cases x2 with
          | mem => exact absurd h2 h.m2
          | reg g b => exact ⟨g, b, rfl⟩
        have hs : I.srcs.2 = (.ofReg g1 b1, .ofReg g2 b2) := by
          simp [App1.srcs, hf, h1, h2, App1.info]
        exact ⟨[.slot g1], [.slot g2], by simp, by rw [hs]; rfl, by rw [hs]; rfl,
          fun s v => by simp [val, fval, hf, St.get]⟩

theorem addDst2_store (I : App1) (hd1 : I.d1 = none) (mo : Offs) (d : Info)
    (src : Info) (ss ds : Nat) (alu : Bool) :
    addDst2 I mo d I.info1 src ss ds .r3 true alu =
      if d.shadow.isSome || I.wf then addDst I mo d src ss ds .r3 true alu false else [] := by
  have : I.info1 = Info.none := by unfold App1.info1; rw [hd1]
  rw [this]
  simp [addDst2, Info.none]

/-- Stores of dwords. -/
theorem store4_done (I : App1) (e : Env) (s s' : St) (h : Ok I) (hsc : Scope I e)
    (hst : I.store = true) (h4 : I.dstSz = 4) (hmd : I.markDefined = false) (hck : I.chk = false)
    (hf : I.checkFlags = true → s.flags = 0) (hmis : ¬Mis I e) (hs : Facts I e s s') :
    Done I e s s' := by
  have hd0 := store_d0 hst
  have hd1 := d1_none h (Or.inr hd0)
  have hext : I.ext = false := by
    cases hx : I.ext
    · rfl
    · exact absurd hd0 (h.ext hx).2.2.2.2.2.1
  have hld : I.load = false := by simp [App1.load, hst]
  have hsz := h.plain hext
  have ho : I.opsz = 4 := by simp [App1.opsz, hd0, h4]
  have hmem : I.memsz = 4 := by simp [App1.memsz, hst, h4]
  have hx4 : I.ext4 = false := by simp [App1.ext4, hext]
  have hno : I.needOffs = false := by simp [App1.needOffs, hx4, hmem]
  have hmo : I.memoffs = .const 0 := by
    simp [App1.memoffs, hno, App1.needEarly, hld, App1.zeroRest, hmem, App1.offsNull, ho]
  have hss : I.storeScratch = .r2 := by simp [App1.storeScratch, hno]
  have hcell : s'.r2.l = s.cellOf e := by have := hs.stv hst; rwa [hss] at this
  have hr1 := hs.st1 hst
  have hao := (chk_false hck).1
  have hnp := nprop_pos h hmd
  have hd0i : I.info I.d0 = ⟨some .mem, some .cell, .const 0⟩ := by simp [hd0, App1.info, hst, hmo]
  have hscr : ∀ a, I.scratch a = .r2 := fun a => by simp [App1.scratch, hd0i]
  have hof : e.off.toNat = 0 := by
    have : e.addr.l &&& 3 = 0 :=
      Classical.byContradiction fun hc => hmis (Or.inr ⟨hmem, hc⟩)
    unfold Env.off; rw [this]; rfl
  have hso : I.srcOpsz = 4 := by
    simp only [App1.srcOpsz, hext, Bool.false_and, Bool.false_eq_true, if_false, App1.srcOpsz0]
    split
    · omega
    · next h0 =>
      have hrf : I.rf = true := by
        simp only [App1.markDefined, Bool.or_eq_false_iff] at hmd
        have h0n : I.s0.isNone = true := by simpa using h0
        simpa [h0n] using hmd.1.2
      simp [hrf, ho]
  have lo : ∀ o : Option App, (hiOf o = true → I.srcSz = 1) → hiOf o = false := fun o hh => by
    cases hq : hiOf o
    · rfl
    · have := hh hq; omega
  have hfl := fun k => flags_part (I := I) (s := s) hf k
  have l1 := lo _ h.hi1
  have l2 := lo _ h.hi2
  have l0 := lo _ h.hi0
  have hval : ∀ o, val s' o = val s o := fun o => by
    cases o with
    | none => rfl
    | some a => cases a <;> simp [val, hs.same.slots]
  have hfv : fval I s' = fval I s := by simp [fval, hs.same.flags]
  have hop0 : ∀ k, operandOpt e s I.s0 k =
      dig (if I.s0 = some .mem then s.cellOf e else val s I.s0) k := fun k => by
    split
    · next hq => rw [hq]; simp [operandOpt, operand, hof, St.cellOf]
    · next hq => rw [operand_reg e s _ hq, l0]; simp
  have hw : ∀ k, want I e s k = dig ((if I.s0 = some .mem then s.cellOf e else val s I.s0) |||
      val s I.s1 ||| val s I.s2 ||| fval I s) k := fun k => by
    rw [want_plain (md_false hmd) hao hext, hfl, hop0, operand_reg e s _ h.m1, operand_reg e s _ h.m2,
      l1, l2]
    simp [dig_or]
  have halu : (decide (I.opsz < 4) && I.alu) = false := by simp [ho]
  -- the propagation after some code that leaves the union in the second scratch register
  have fin : ∀ (code : List Ins) (d : Info) (a : Option App) (of : Offs), propagate I = code ++ addDst2 I (.const 0)
        d I.info1 ⟨a, some (.lo .r2), of⟩ 4 4 .r3 true false →
      (∃ z, exe e code none s' = (none, { s' with
        r2 := { s'.r2 with l := ((if I.s0 = some .mem then s.cellOf e else val s I.s0) |||
          val s I.s1 ||| val s I.s2 ||| fval I s) }, zf := z })) →
      (d = ⟨some .mem, some .cell, .const 0⟩ ∨ (d = ⟨some .mem, none, .const 0⟩ ∧
        (if I.s0 = some .mem then s.cellOf e else val s I.s0) ||| val s I.s1 ||| val s I.s2 ||| fval I s =
          s.cellOf e)) → Done I e s s' := by
    intro code d a of hp hx hd
    generalize hV : (if I.s0 = some .mem then s.cellOf e else val s I.s0) ||| val s I.s1 |||
      val s I.s2 ||| fval I s = V at hx hd hw
    obtain ⟨z, hx⟩ := hx
    refine ⟨V, ?_, fun k _ => (hw k).symm⟩
    have hd0r : I.d0r = none := by simp [App1.d0r, hd0]
    simp only [hst, if_true, hd0r, hd1, setOpt, hof, h4, put_four, ho]
    rw [hp, addDst2_store I hd1]
    refine WroteBy.pre hx rfl ?_
    have t1 : ({ s' with r2 := { s'.r2 with l := V }, zf := z } : St).slots = s.slots := hs.same.slots
    have t2 : ({ s' with r2 := { s'.r2 with l := V }, zf := z } : St).mem = s.mem := hs.same.mem
    have t3 : ({ s' with r2 := { s'.r2 with l := V }, zf := z } : St).wild = false := hs.same.wild
    have t4 : ({ s' with r2 := { s'.r2 with l := V }, zf := z } : St).get (.lo .r2) = V := rfl
    have t5 : ({ s' with r2 := { s'.r2 with l := V }, zf := z } : St).r1 = e.xl e.addr := hr1
    generalize ({ s' with r2 := { s'.r2 with l := V }, zf := z } : St) = t at t1 t2 t3 t4 t5
    rcases hd with rfl | ⟨rfl, hVc⟩
    · simp only [Option.isSome_some, Bool.true_or, if_true]
      have := addDst4_mem I e t a (some .mem) (.const 0) of
        (.lo .r2) (Or.inr (Or.inr rfl)) .r3 false false (.const 0) hsc.noshift hst true 4 t3
      rw [t1, t2, t4, t5] at this
      exact this
    · simp only [Option.isSome_none, Bool.false_or]
      have hm : setMem s.mem (e.xl e.addr) V = s.mem := by
        rw [hVc]; exact setMem_self _ _
      rw [hm]
      cases hwf : I.wf
      · simp only [Bool.false_eq_true, if_false]
        have := WroteBy.nil (I := I) (e := e) (v := V) (sz := 4) t3 hwf
        rw [t1, t2] at this
        exact this
      · simp only [if_true]
        have := addDst4_none I e t a (some .mem) (.const 0) of
          (.lo .r2) (Or.inr (Or.inr rfl)) .r3 false false (.const 0) hsc.noshift true 4 t3
        rw [t1, t2, t4] at this
        exact this
  have hpr : propagate I = if I.nprop0 = 1 then propOne I .r2 I.psrcs.1
      else propMany I .r2 I.psrcs.1 I.srcs.2.1 I.srcs.2.2 := by
    have : I.psrcs.2 = I.srcs.2 := rfl
    simp [propagate, hmd, hck, hnp, hscr, this]
  cases h0 : I.s0 with
  | none =>
    have h1 : I.s1 = none := by
      cases hx : I.s1 with
      | none => rfl
      | some x => have := h.s10 (by rw [hx]; rfl); simp [h0] at this
    have h2 : I.s2 = none := by
      cases hx : I.s2 with
      | none => rfl
      | some x => have := h.s21 (by rw [hx]; rfl); simp [h1] at this
    have hfs : I.flagSrc = true := by
      cases hf : I.flagSrc
      · simp [App1.nprop0, App1.nsrc, h0, h1, h2, hf] at hnp
      · rfl
    have hn1 : I.nprop0 = 1 := by simp [App1.nprop0, App1.nsrc, h0, h1, h2, hfs]
    have hp1 : I.psrcs.1 = flagInfo := by
      simp [App1.psrcs, App1.srcs, hfs, h0, flagInfo]
    refine fin [.mov (.lo .r2) .flags] ⟨some .mem, some .cell, .const 0⟩ none (.const 0) ?_ ?_ (Or.inl rfl)
    · rw [hpr, if_pos hn1, hp1]
      unfold propOne
      have : I.same I.s0 = false := by simp [App1.same, h0, hd0]
      simp [loadShadow, flagInfo, this, hd0i, hmo, hso, ho]
    · obtain ⟨z, hz⟩ := mov_ors e s' .flags [] (Or.inr (Or.inl rfl)) (by simp)
      refine ⟨z, ?_⟩
      simpa [h0, h1, h2, val, fval, hfs, St.get, hs.same.flags] using hz
  | some x0 =>
    have h0s : I.s0.isSome = true := by rw [h0]; rfl
    have hone : I.nprop0 = 1 → I.s1 = none ∧ I.s2 = none ∧ I.flagSrc = false := fun hn => by
      have h21 := h.s21
      unfold App1.nprop0 App1.nsrc at hn
      cases h1 : I.s1 <;> cases h2 : I.s2 <;> cases hf : I.flagSrc <;> simp_all
    have hsrc1 : I.srcs.1 = I.info I.s0 := by
      simp only [App1.srcs, h0, Option.isNone_some, Bool.false_eq_true, if_false]
      split
      · split <;> rfl
      · rfl
    cases x0 with
    | mem =>
      have hp1 : I.psrcs.1 = ⟨some .mem, some (.lo .r2), .const 0⟩ := by
        have : I.psrcs.1 = if I.store && I.srcs.1.shadow == some .cell then
          { I.srcs.1 with shadow := some (.lo I.storeScratch) } else I.srcs.1 := rfl
        rw [this, hsrc1, h0]
        simp [App1.info, hst, hss, hmo]
      have hsame : I.same I.s0 = true := by simp [App1.same, h0, hd0, hsz]
      by_cases hn : I.nprop0 = 1
      · obtain ⟨h1, h2, hfs⟩ := hone hn
        refine fin [] ⟨some .mem, none, .const 0⟩ (some .mem) (.const 0) ?_ ⟨s'.zf, ?_⟩
          (Or.inr ⟨rfl, ?_⟩)
        · rw [hpr, if_pos hn, hp1]
          unfold propOne
          simp [loadShadow, hsame, hsc.noshift, hd0i, hmo, hso, ho]
        · simp [exe, h0, h1, h2, val, fval, hfs, ← hcell]
        · simp [h0, h1, h2, val, fval, hfs]
      · obtain ⟨lb, lc, hl, hlb, hlc, hfold⟩ := rest_ors I h h0s hn
        refine fin ((lb ++ lc).map (fun o => .or (.lo .r2) o)) ⟨some .mem, some .cell, .const 0⟩ (some .mem)
          (.const 0) ?_ ?_ (Or.inl rfl)
        · rw [hpr, if_neg hn, hp1]
          unfold propMany
          rw [halu]
          simp [loadShadow, hd0i, hmo, hso, ho, hlb, hlc]
        · obtain ⟨z, hz⟩ := ors_exe' e s' (lb ++ lc) hl
          rw [hfold, hval, hval, hfv, hcell] at hz
          exact ⟨z, by rw [if_pos h0]; exact hz⟩
    | reg g b =>
      have hp1 : I.psrcs.1 = .ofReg g b := by
        have : I.psrcs.1 = if I.store && I.srcs.1.shadow == some .cell then
          { I.srcs.1 with shadow := some (.lo I.storeScratch) } else I.srcs.1 := rfl
        rw [this, hsrc1, h0]
        simp [App1.info, Info.ofReg]
      have hsame : I.same I.s0 = false := by simp [App1.same, h0, hd0]
      have hne : I.s0 ≠ some .mem := by rw [h0]; simp
      by_cases hn : I.nprop0 = 1
      · obtain ⟨h1, h2, hfs⟩ := hone hn
        refine fin [.mov (.lo .r2) (.slot g)] ⟨some .mem, some .cell, .const 0⟩ (some (.reg g b))
          (.const (if b then 1 else 0)) ?_ ?_ (Or.inl rfl)
        · rw [hpr, if_pos hn, hp1]
          unfold propOne
          simp [loadShadow, hsame, hd0i, hmo, hso, ho, Info.ofReg]
        · obtain ⟨z, hz⟩ := mov_ors e s' (.slot g) [] (Or.inl ⟨g, rfl⟩) (by simp)
          refine ⟨z, ?_⟩
          simpa [h0, h1, h2, val, fval, hfs, St.get, hs.same.slots] using hz
      · obtain ⟨lb, lc, hl, hlb, hlc, hfold⟩ := rest_ors I h h0s hn
        refine fin (.mov (.lo .r2) (.slot g) :: (lb ++ lc).map (fun o => .or (.lo .r2) o))
          ⟨some .mem, some .cell, .const 0⟩ (some (.reg g b)) (.const (if b then 1 else 0)) ?_ ?_
          (Or.inl rfl)
        · rw [hpr, if_neg hn, hp1]
          unfold propMany
          rw [halu]
          simp [loadShadow, hd0i, hmo, hso, ho, hlb, hlc, Info.ofReg]
        · obtain ⟨z, hz⟩ := mov_ors e s' (.slot g) (lb ++ lc) (Or.inl ⟨g, rfl⟩) hl
          rw [hfold, hval, hval, hfv] at hz
          refine ⟨z, ?_⟩
          rw [if_neg hne, hz, h0]
          simp [val, St.get, hs.same.slots]

end Verif.FastX86
