import Verif.FastX86Store

/-! The propagation code of stores of one or two bytes when nothing has been checked. -/

namespace Verif.FastX86

/-- Stores of one or two bytes. -/
theorem store2_done (I : App1) (e : Env) (s s' : St) (h : Ok I) (hsc : Scope I e)
    (hst : I.store = true) (h4 : I.dstSz < 4) (hmd : I.markDefined = false) (hck : I.chk = false)
    (hf : I.checkFlags = true → s.flags = 0) (hmis : ¬Mis I e) (hs : Facts I e s s') :
    Done I e s s' := by
  have hd0 := store_d0 hst
  have hd1 := d1_none h (Or.inr hd0)
  have hds := h.ds
  have hext : I.ext = false := by
    cases hx : I.ext
    · rfl
    · exact absurd hd0 (h.ext hx).2.2.2.2.2.1
  have hld : I.load = false := by simp [App1.load, hst]
  have hsz := h.plain hext
  have ho : I.opsz = I.dstSz := by simp [App1.opsz, hd0]
  have hmem : I.memsz = I.dstSz := by simp [App1.memsz, hst]
  have hno : I.needOffs = true := by
    simp [App1.needOffs, hd0, hmem, h4, App1.offsNull, hst, ho]
  have hmo : I.memoffs = .reg (.hi .r2) := by
    simp [App1.memoffs, hno, hst, hld]
  have hss : I.storeScratch = .r3 := by simp [App1.storeScratch, hno]
  have hcell : s'.r3.l = s.cellOf e := by have := hs.stv hst; rwa [hss] at this
  have hr1 := hs.st1 hst
  have hr2 : s'.r2.h = e.off := by rw [hs.sto hst hno]
  obtain ⟨hao, _, hoff⟩ := chk_false hck
  have hnp := nprop_pos h hmd
  have hfs : I.flagSrc = false := by
    have : ¬4 ≤ I.opsz := by omega
    simp [App1.flagSrc, this]
  have h0s : I.s0.isSome = true := by
    cases hq : I.s0 with
    | some x => rfl
    | none =>
      exfalso
      have h1 : I.s1.isSome = false := by
        cases h1 : I.s1.isSome
        · rfl
        · have := h.s10 h1; simp [hq] at this
      have h2 : I.s2.isSome = false := by
        cases h2 : I.s2.isSome
        · rfl
        · have := h.s21 h2; simp [h1] at this
      simp [App1.nprop0, App1.nsrc, hq, hfs, h1, h2] at hnp
  have hso : I.srcOpsz = I.dstSz := by
    simp [App1.srcOpsz, hext, App1.srcOpsz0, h0s, hsz]
  have hd0i : I.info I.d0 = ⟨some .mem, some .cell, .reg (.hi .r2)⟩ := by
    simp [hd0, App1.info, hst, hmo]
  have hscr : ∀ a, I.scratch a = .r2 := fun a => by simp [App1.scratch, hd0i]
  have hev : I.dstSz = 2 → e.off.toNat % 2 = 0 := fun h2 =>
    off_even (Classical.byContradiction fun hc => hmis (Or.inl ⟨by rw [hmem, h2], hc⟩))
  have hsz2 : I.dstSz = 1 ∨ I.dstSz = 2 := by omega
  have hfl := fun k => flags_part (I := I) (s := s) hf k
  have hval : ∀ o, val s' o = val s o := fun o => by
    cases o with
    | none => rfl
    | some a => cases a <;> simp [val, hs.same.slots]
  have hfv : ∀ s, fval I s = 0 := fun s => by simp [fval, hfs]
  have hpr : propagate I = if I.nprop0 = 1 then propOne I .r2 I.psrcs.1
      else propMany I .r2 I.psrcs.1 I.srcs.2.1 I.srcs.2.2 := by
    have : I.psrcs.2 = I.srcs.2 := rfl
    simp [propagate, hmd, hck, hnp, hscr, this]
  have hone : I.nprop0 = 1 → I.s1 = none ∧ I.s2 = none := fun hn => by
    have h21 := h.s21
    unfold App1.nprop0 App1.nsrc at hn
    cases h1 : I.s1 <;> cases h2 : I.s2 <;> simp_all
  have hsrc : I.srcs = (I.info I.s0, I.info I.s1, I.info I.s2) := by simp [App1.srcs, hfs]
  have hd0r : I.d0r = none := by simp [App1.d0r, hd0]
  have hhs : hiOf I.s0 = true ∨ hiOf I.s1 = true → e.off.toNat ≠ 0 := fun hh hc => by
    have h1 : I.dstSz = 1 := by
      rw [← hsz]
      rcases hh with hh | hh
      · exact h.hi0 hh
      · exact h.hi1 hh
    have := hsc.hiStore hst h1 hc hck hmd
    rcases hh with hh | hh <;> simp [hh] at this
  have hwant : ∀ k, want I e s k = operandOpt e s I.s0 k ||| operandOpt e s I.s1 k |||
      operandOpt e s I.s2 k := fun k => by
    rw [want_plain (md_false hmd) hao hext, hfl, hfv, dig_zero]
    rw [show ∀ x : BitVec 2, x ||| (0 : BitVec 2) = x from by decide +revert]
  unfold Done
  simp only [hst, if_true, hd0r, hd1, setOpt, ho]
  cases h0 : I.s0 with
  | none => simp [h0] at h0s
  | some x0 =>
    cases x0 with
    | mem =>
      have hp1 : I.psrcs.1 = ⟨some .mem, some (.lo .r3), .reg (.hi .r2)⟩ := by
        have : I.psrcs.1 = if I.store && I.srcs.1.shadow == some .cell then
          { I.srcs.1 with shadow := some (.lo I.storeScratch) } else I.srcs.1 := rfl
        rw [this, hsrc, h0]
        simp [App1.info, hst, hss, hmo]
      have hsame : I.same I.s0 = true := by simp [App1.same, h0, hd0, hsz]
      by_cases hn : I.nprop0 = 1
      · obtain ⟨h1, h2⟩ := hone hn
        refine ⟨s.cellOf e >>> (2 * e.off.toNat), ?_, fun k _ => ?_⟩
        · have hm : setMem s.mem (e.xl e.addr)
              (put (s.cellOf e) (s.cellOf e >>> (2 * e.off.toNat)) e.off.toNat I.dstSz) = s.mem := by
            have hlt := e.off_lt
            rw [put_self _ (by omega) (by omega)]
            exact setMem_self _ _
          rw [hm]
          have hp : propagate I = [.mov (.lo .r2) (.lo .r3)] ++
              (if I.wf then addDst I (.reg (.hi .r2)) ⟨some .mem, none, .const 0⟩
                ⟨some .mem, some (.lo .r2), .reg (.hi .r2)⟩ I.dstSz I.dstSz .r3 true false false else []) := by
            rw [hpr, if_pos hn, hp1]
            unfold propOne
            simp only [addDst2_store I hd1]
            simp [loadShadow, hsame, hsc.noshift, hd0i, hmo, hso, ho]
          rw [hp]
          obtain ⟨z, hz⟩ := mov_ors e s' (.lo .r3) [] (Or.inr (Or.inr rfl)) (by simp)
          have hz' : exe e [.mov (.lo .r2) (.lo .r3)] none s' =
              (none, { s' with r2 := { s'.r2 with l := s.cellOf e }, zf := z }) := by
            rw [← hcell]; exact hz
          refine WroteBy.pre hz' rfl ?_
          have t1 : ({ s' with r2 := { s'.r2 with l := s.cellOf e }, zf := z } : St).slots = s.slots :=
            hs.same.slots
          have t2 : ({ s' with r2 := { s'.r2 with l := s.cellOf e }, zf := z } : St).mem = s.mem :=
            hs.same.mem
          have t3 : ({ s' with r2 := { s'.r2 with l := s.cellOf e }, zf := z } : St).wild = false :=
            hs.same.wild
          have t4 : ({ s' with r2 := { s'.r2 with l := s.cellOf e }, zf := z } : St).r2.l = s.cellOf e := rfl
          have t5 : ({ s' with r2 := { s'.r2 with l := s.cellOf e }, zf := z } : St).r2.h = e.off := hr2
          generalize ({ s' with r2 := { s'.r2 with l := s.cellOf e }, zf := z } : St) = t at t1 t2 t3 t4 t5
          cases hwf : I.wf
          · simp only [Bool.false_eq_true, if_false]
            have := WroteBy.nil (I := I) (e := e) (v := s.cellOf e >>> (2 * e.off.toNat)) (sz := I.dstSz)
              t3 hwf
            rw [t1, t2] at this
            exact this
          · simp only [if_true]
            have := addDst_none_store I e t (some .mem) (some .mem) (.const 0) (Or.inl rfl) I.dstSz
              hsc.noshift true t5 t3 hsz2 hev
            rw [t1, t2, t4] at this
            exact this
        · rw [hwant, h0, h1, h2, dig_shr]
          simp [operandOpt, operand, St.cellOf]
      · have hs1 : I.s1.isSome = true := by
          cases h1 : I.s1.isSome
          · exfalso
            have h2 : I.s2.isSome = false := by
              cases h2 : I.s2.isSome
              · rfl
              · have := h.s21 h2; simp [h1] at this
            simp [App1.nprop0, App1.nsrc, h0, hfs, h1, h2] at hn
          · rfl
        have ha : I.alu = true := by simp [App1.alu, hst, hsame]
        have h2 : I.s2 = none := by
          cases hq : I.s2 with
          | none => rfl
          | some x =>
            have := chk_false_alu hck (by omega)
              (by simp only [App1.nsrc, h0s, hs1, if_true]; omega) ha (by rw [hq]; rfl)
            rw [h0, hq] at this
            cases x with
            | mem => exact absurd hq h.m2
            | reg g b => simp [offs0] at this
        obtain ⟨g1, b1, h1⟩ : ∃ g b, I.s1 = some (.reg g b) := by
          cases hq : I.s1 with
          | none => simp [hq] at hs1
          | some x => cases x with
            | mem => exact absurd hq h.m1
            | reg g b => exact ⟨g, b, rfl⟩
        refine ⟨s.slots g1 >>> (2 * b1.toNat) ||| s.cellOf e >>> (2 * e.off.toNat), ?_, fun k _ => ?_⟩
        · have halu : (decide (I.opsz < 4) && I.alu) = true := by simp [ho, h4, ha]
          have hp : propagate I = [.mov (.lo .r2) (.slot g1)] ++
              addDst I (.reg (.hi .r2)) ⟨some .mem, some .cell, .reg (.hi .r2)⟩
                ⟨some (.reg g1 b1), some (.lo .r2), .const (if b1 then 1 else 0)⟩ I.dstSz I.dstSz .r3 true
                true false := by
            rw [hpr, if_neg hn, hp1, hsrc, h1, h2]
            unfold propMany
            rw [halu]
            simp only [addDst2_store I hd1, hd0i]
            simp [loadShadow, hmo, hso, ho, hst, App1.info, Info.ofReg, orThird, Info.none]
          rw [hp]
          obtain ⟨z, hz⟩ := mov_ors e s' (.slot g1) [] (Or.inl ⟨g1, rfl⟩) (by simp)
          have hz' : exe e [.mov (.lo .r2) (.slot g1)] none s' =
              (none, { s' with r2 := { s'.r2 with l := s.slots g1 }, zf := z }) := by
            rw [← hs.same.slots]; exact hz
          refine WroteBy.pre hz' rfl ?_
          have t1 : ({ s' with r2 := { s'.r2 with l := s.slots g1 }, zf := z } : St).slots = s.slots :=
            hs.same.slots
          have t2 : ({ s' with r2 := { s'.r2 with l := s.slots g1 }, zf := z } : St).mem = s.mem :=
            hs.same.mem
          have t3 : ({ s' with r2 := { s'.r2 with l := s.slots g1 }, zf := z } : St).wild = false :=
            hs.same.wild
          have t4 : ({ s' with r2 := { s'.r2 with l := s.slots g1 }, zf := z } : St).r2.l = s.slots g1 := rfl
          have t5 : ({ s' with r2 := { s'.r2 with l := s.slots g1 }, zf := z } : St).r2.h = e.off := hr2
          have t6 : ({ s' with r2 := { s'.r2 with l := s.slots g1 }, zf := z } : St).r1 = e.xl e.addr := hr1
          generalize ({ s' with r2 := { s'.r2 with l := s.slots g1 }, zf := z } : St) = t at t1 t2 t3 t4 t5 t6
          have hc : b1 = true → I.dstSz = 1 := fun hh => by
            rw [← hsz]; exact h.hi1 (by rw [h1]; exact hh)
          have := addDst_mem_reg_alu I e t b1 (some (.reg g1 b1)) (some .mem) I.dstSz
            hsc.noshift hst true t5 t3 hsz2 hc hev
            (fun hh => hhs (Or.inr (by rw [h1]; exact hh)))
          rw [t1, t2, t4, t6] at this
          exact this
        · rw [hwant, h0, h1, h2, dig_or, dig_shr, dig_shr]
          simp only [operandOpt, operand, St.cellOf]
          rw [show ∀ x y : BitVec 2, y ||| x ||| (0 : BitVec 2) = x ||| y from by decide +revert]
    | reg g b =>
      have hp1 : I.psrcs.1 = .ofReg g b := by
        have : I.psrcs.1 = if I.store && I.srcs.1.shadow == some .cell then
          { I.srcs.1 with shadow := some (.lo I.storeScratch) } else I.srcs.1 := rfl
        rw [this, hsrc, h0]
        simp [App1.info, Info.ofReg]
      have hsame : I.same I.s0 = false := by simp [App1.same, h0, hd0]
      have ha : I.alu = false := by simp [App1.alu, hst, hsame]
      have hb : b = true → I.dstSz = 1 := fun hh => by
        rw [← hsz]; exact h.hi0 (by rw [h0]; exact hh)
      have halu : (decide (I.opsz < 4) && I.alu) = false := by simp [ha]
      have hoff1 : I.s1.isSome = true → hiOf I.s1 = b := fun hh => by
        have := hoff (by omega) (by simp only [App1.nsrc, h0s, hh, if_true]; omega) ha hh
        cases hq1 : I.s1 with
        | none => simp [hq1] at hh
        | some x1 =>
          cases x1 with
          | mem => exact absurd hq1 h.m1
          | reg g1 b1 => rw [h0, hq1] at this; simpa [offs0, hiOf] using this
      have hl2 : I.s2.isSome = true → hiOf I.s2 = b := fun hh => by
        have := hsc.s2 hh
        rw [hsz] at this
        have hb' : b = false := by
          cases b
          · rfl
          · exact absurd (hb rfl) this
        rw [hb']
        cases hq : hiOf I.s2
        · rfl
        · exact absurd (hsz ▸ h.hi2 hq) this
      have d1 : ∀ k, operandOpt e s I.s1 k = dig (val s I.s1) (b.toNat + k) := fun k => by
        rw [operand_reg e s _ h.m1]
        cases hq : I.s1 with
        | none => simp only [val, dig_zero]
        | some x => rw [← hoff1 (by rw [hq]; rfl), hq]
      have d2 : ∀ k, operandOpt e s I.s2 k = dig (val s I.s2) (b.toNat + k) := fun k => by
        rw [operand_reg e s _ h.m2]
        cases hq : I.s2 with
        | none => simp only [val, dig_zero]
        | some x => rw [← hl2 (by rw [hq]; rfl), hq]
      obtain ⟨code, hp, z, hz⟩ : ∃ code, propagate I = code ++
          addDst I (.reg (.hi .r2)) ⟨some .mem, some .cell, .reg (.hi .r2)⟩
            ⟨some (.reg g b), some (.lo .r2), .const (if b then 1 else 0)⟩ I.dstSz I.dstSz .r3 true
            false false ∧ ∃ z, exe e code none s' = (none, { s' with
              r2 := { s'.r2 with l := (s.slots g ||| val s I.s1 ||| val s I.s2) }, zf := z }) := by
        by_cases hn : I.nprop0 = 1
        · obtain ⟨h1, h2⟩ := hone hn
          refine ⟨[.mov (.lo .r2) (.slot g)], ?_, ?_⟩
          · rw [hpr, if_pos hn, hp1]
            unfold propOne
            simp only [addDst2_store I hd1]
            simp [loadShadow, hsame, hd0i, hmo, hso, ho, Info.ofReg]
          · obtain ⟨z, hz⟩ := mov_ors e s' (.slot g) [] (Or.inl ⟨g, rfl⟩) (by simp)
            refine ⟨z, ?_⟩
            simpa [h1, h2, val, St.get, hs.same.slots] using hz
        · obtain ⟨lb, lc, hl, hlb, hlc, hfold⟩ := rest_ors I h h0s hn
          refine ⟨.mov (.lo .r2) (.slot g) :: (lb ++ lc).map (fun o => .or (.lo .r2) o), ?_, ?_⟩
          · rw [hpr, if_neg hn, hp1]
            unfold propMany
            rw [halu]
            simp only [addDst2_store I hd1]
            simp [loadShadow, hd0i, hmo, hso, ho, hlb, hlc, Info.ofReg]
          · obtain ⟨z, hz⟩ := mov_ors e s' (.slot g) (lb ++ lc) (Or.inl ⟨g, rfl⟩) hl
            rw [hfold, hval, hval, hfv] at hz
            refine ⟨z, ?_⟩
            rw [hz]
            simp [St.get, hs.same.slots]
      generalize hV : s.slots g ||| val s I.s1 ||| val s I.s2 = V at hz
      refine ⟨V >>> (2 * b.toNat), ?_, fun k _ => ?_⟩
      · rw [hp]
        refine WroteBy.pre hz rfl ?_
        have t1 : ({ s' with r2 := { s'.r2 with l := V }, zf := z } : St).slots = s.slots := hs.same.slots
        have t2 : ({ s' with r2 := { s'.r2 with l := V }, zf := z } : St).mem = s.mem := hs.same.mem
        have t3 : ({ s' with r2 := { s'.r2 with l := V }, zf := z } : St).wild = false := hs.same.wild
        have t4 : ({ s' with r2 := { s'.r2 with l := V }, zf := z } : St).r2.l = V := rfl
        have t5 : ({ s' with r2 := { s'.r2 with l := V }, zf := z } : St).r2.h = e.off := hr2
        have t6 : ({ s' with r2 := { s'.r2 with l := V }, zf := z } : St).r1 = e.xl e.addr := hr1
        generalize ({ s' with r2 := { s'.r2 with l := V }, zf := z } : St) = t at t1 t2 t3 t4 t5 t6
        have := addDst_mem_reg I e t b (some (.reg g b)) (some .mem) I.dstSz
          hsc.noshift hst true t5 t3 hsz2 hb hev
          (fun hh => hhs (Or.inl (by rw [h0]; exact hh)))
        rw [t1, t2, t4, t6] at this
        exact this
      · rw [hwant, d1, d2, h0, dig_shr, ← hV, dig_or, dig_or]
        rfl

end Verif.FastX86
