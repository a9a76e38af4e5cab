import Verif.FastX86Store2

/-! Destinations that become defined, and the fast path as a whole. -/

namespace Verif.FastX86

theorem pass_operand {I : App1} {e : Env} {s : St} (h : Ok I) {a : App} (hp : Pass I e s a)
    (hm : a = .mem → I.s0 = some .mem) (h0 : I.s0.isSome = true) {k : Nat} (hk : k < I.srcSz) :
    operand e s a k = 0 := by
  cases a with
  | mem =>
    have hm := hm rfl
    simp only [Pass] at hp
    have hsz : I.memsz = I.srcSz := by
      cases hst : I.store
      · simp [App1.memsz, hst, App1.load, hm]
      · have hd0 := store_d0 hst
        have hext : I.ext = false := by
          cases hx : I.ext
          · rfl
          · exact absurd hd0 (h.ext hx).2.2.2.2.2.1
        simp [App1.memsz, hst, h.plain hext]
    simp only [operand]
    split at hp
    · rw [hsz] at hp
      exact hp k hk
    · have hp' : s.mem (e.xl e.addr) = 0 := hp
      rw [hp', dig_zero]
  | reg g b =>
    simp only [Pass] at hp
    simp only [operand]
    split at hp
    · refine hp k (Nat.lt_of_lt_of_le hk ?_)
      simp only [App1.srcOpsz]
      split
      · next hx =>
        simp only [Bool.and_eq_true] at hx
        have := h.ext hx.1
        simp [App1.opsz, this.2.2.2.2.1]
        omega
      · simp [App1.srcOpsz0, h0]
    · rw [hp, dig_zero]

/-- What has passed the checks is defined. -/
theorem want_zero {I : App1} {e : Env} {s : St} (h : Ok I) (hc : Clear I e s)
    (hz : I.markDefined = true ∨ I.chk = true) {k : Nat} (hk : k < I.opsz) : want I e s k = 0 := by
  obtain ⟨hf, _, hck, _⟩ := hc
  unfold want
  split
  · rfl
  · next hn =>
    -- no source is undefined
    have hflag : I.flagSrc = false → (if I.rf then dig s.flags k else 0) = 0 := fun hh => by
      split
      · next hr => rw [hf (by simp [App1.checkFlags, hr, hh]), dig_zero]
      · rfl
    have hnone : I.s0 = none → I.flagSrc = false → (if I.op = .movzx then
        (if k < I.srcSz then operandOpt e s I.s0 k else 0)
        else if I.op = .movsx then operandOpt e s I.s0 (min k (I.srcSz - 1))
        else operandOpt e s I.s0 k ||| operandOpt e s I.s1 k ||| operandOpt e s I.s2 k |||
          (if I.rf then dig s.flags k else 0)) = 0 := fun h0 hfs => by
      have h1 : I.s1 = none := by
        cases hx : I.s1 with
        | none => rfl
        | some x => have := h.s10 (by rw [hx]; rfl); simp [h0] at this
      have h2 : I.s2 = none := by
        cases hx : I.s2 with
        | none => rfl
        | some x => have := h.s21 (by rw [hx]; rfl); simp [h1] at this
      rw [hflag hfs, h0, h1, h2]
      simp [operandOpt]
    cases hmd : I.markDefined
    · -- the sources have been checked
      have hck' : I.chk = true := by simpa [hmd] using hz
      obtain ⟨c0, c1, c2⟩ := hck hck' hmd
      have hfs : I.flagSrc = false := by simp [App1.flagSrc, hck']
      cases h0 : I.s0 with
      | none => rw [← h0]; exact hnone h0 hfs
      | some x0 =>
        have h0s : I.s0.isSome = true := by rw [h0]; rfl
        have o1 : ∀ j < I.srcSz, operandOpt e s I.s1 j = 0 := fun j hj => by
          cases h1 : I.s1 with
          | none => rfl
          | some x1 =>
            rcases c1 x1 h1 with hp | hp
            · exact pass_operand h hp (fun hm => absurd (hm ▸ h1) h.m1) h0s hj
            · exact absurd (Or.inr ⟨hp.1, hp.2.2.2⟩) hn
        have o2 : ∀ j < I.srcSz, operandOpt e s I.s2 j = 0 := fun j hj => by
          cases h2 : I.s2 with
          | none => rfl
          | some x2 =>
            exact pass_operand h (c2 x2 h2) (fun hm => absurd (hm ▸ h2) h.m2) h0s hj
        have o0 : ∀ j < I.srcSz, operandOpt e s (some x0) j = 0 := fun j hj => by
          by_cases hs : I.s1 = some x0
          · rw [← hs]; exact o1 j hj
          · exact pass_operand h (c0 x0 h0 hs) (fun hm => by rw [h0, hm]) h0s hj
        have hss := h.ss
        split
        · split
          · next hlt => exact o0 k hlt
          · rfl
        · split
          · exact o0 _ (by omega)
          · next hx1 hx2 =>
            have hext : I.ext = false := by simp [App1.ext, hx1, hx2]
            have hsz := h.plain hext
            have hk' : k < I.srcSz := by
              have : I.opsz ≤ I.srcSz := by
                simp only [App1.opsz, h0s]
                split
                · omega
                · split
                  · simp
                  · omega
              omega
            rw [o0 k hk', o1 k hk', o2 k hk', hflag hfs]
            rfl
    · simp only [App1.markDefined, Bool.or_eq_true] at hmd
      rcases hmd with (hh | hh) | hh
      · exact absurd (Or.inl hh) hn
      · simp only [Bool.and_eq_true, Option.isNone_iff_eq_none, Bool.not_eq_true'] at hh
        exact hnone hh.1 (by simp [App1.flagSrc, hh.2])
      · simp only [Bool.and_eq_true, beq_iff_eq] at hh
        have hn := hh.1.2
        have : I.s0 = none ∧ I.flagSrc = false := by
          unfold App1.nprop0 App1.nsrc at hn
          cases h0 : I.s0 <;> cases hf : I.flagSrc <;> simp_all
        exact hnone this.1 this.2

/-- Destinations that become defined. -/
theorem zero_done (I : App1) (e : Env) (s s' : St) (h : Ok I) (hsc : Scope I e)
    (hz : I.markDefined = true ∨ I.chk = true) (hc : Clear I e s) (hs : Facts I e s s') :
    Done I e s s' := by
  refine ⟨0, ?_, fun k hk => by rw [dig_zero, want_zero h hc hz hk]⟩
  have hmis := fun hm => (hc.2.1 hm).2
  have hds := h.ds
  have hp : propagate I = propZero I (I.scratch I.psrcs.1) := by
    have : (I.markDefined || I.chk) = true := by simpa using hz
    simp [propagate, this]
  rw [hp]
  generalize hscr : I.scratch I.psrcs.1 = scr
  unfold propZero
  cases hst : I.store
  · simp only [Bool.false_eq_true, if_false]
    rw [info0_eq hst, info1_eq]
    have hw := hs.same.wild
    by_cases h4 : (if I.chk && decide (I.opsz < 4) then 4 else I.opsz) = 4
    · rw [h4]
      have hd : I.d0.isSome = true → I.dstSz = 4 := fun hd => by
        have ho : I.opsz = I.dstSz := by simp [App1.opsz, hd]
        cases hck : I.chk
        · simp [hck] at h4; omega
        · have := hsc.chkSub hck hd; omega
      have h0 : ∀ g b, I.d0r = some (g, b) → b = false := fun g b hq => by
        cases b
        · rfl
        · have h1 := h.hid hq rfl
          have := hd (by rw [d0r_some hq]; rfl)
          omega
      have h1 : ∀ g b, I.d1 = some (g, b) → b = false := fun g b hq => by
        cases b
        · rfl
        · have h1 := h.hd1 g hq
          have := hd (h.d10 (by rw [hq]; rfl)).1
          omega
      have := addDst2_dword I e s' I.d0r I.d1 .null .null none none none (.const 0) (.imm 0)
        (Or.inl rfl) scr false I.memoffs hsc.noshift hst 4 h0 h1 hw
      have hg : s'.get (.imm 0) = 0 := rfl
      rw [hg, hs.same.slots, hs.same.mem] at this
      have hsl : setOpt (setOpt s.slots I.d0r 0 4) I.d1 0 4 =
          setOpt (setOpt s.slots I.d0r 0 I.dstSz) I.d1 0 I.dstSz := by
        cases hq : I.d0 with
        | none =>
          rw [d1_none h (Or.inl hq)]
          simp [App1.d0r, hq, setOpt]
        | some x => rw [hd (by rw [hq]; rfl)]
      rw [hsl] at this
      exact ⟨this.1, this.2.slots, this.2.mem, this.2.wild,
        fun hh => by have := this.2.fl hh; simpa using this, this.2.nofl⟩
    · have hck : I.chk = false := by
        cases hck : I.chk
        · rfl
        · rw [hck] at h4
          simp only [Bool.true_and, decide_eq_true_eq] at h4
          split at h4
          · omega
          · next hh =>
            exfalso
            apply h4
            have hss := h.ss
            simp only [App1.opsz] at hh ⊢
            split
            · next hd => rw [if_pos hd] at hh; omega
            · next hd =>
              rw [if_neg hd] at hh
              split
              · next hw =>
                rw [if_pos hw] at hh
                split
                · next h0 => rw [if_pos h0] at hh; omega
                · next h0 => rw [if_neg h0] at hh; omega
              · next hw => rw [if_neg hw] at hh; omega
      have hmd : I.markDefined = true := by simpa [hck] using hz
      simp only [hck, Bool.false_and, Bool.false_eq_true, if_false] at h4 ⊢
      cases hq : I.d0 with
      | none =>
        have hwf : I.wf = false := by
          cases hwf : I.wf
          · rfl
          · exact absurd (hsc.nullSub hmd hq hwf hck) h4
        have hd0r : I.d0r = none := by simp [App1.d0r, hq]
        rw [d1_none h (Or.inl hq), hd0r, addDst2]
        simp only [infoOpt, hwf, Option.isSome_none, Bool.and_false, Bool.or_self, Bool.false_eq_true,
          if_false, List.append_nil, setOpt]
        have := WroteBy.nil (I := I) (e := e) (v := 0) (sz := I.opsz) hw hwf
        rw [hs.same.slots, hs.same.mem] at this
        exact this
      | some x =>
        have ho : I.opsz = I.dstSz := by simp [App1.opsz, hq]
        have hd0r : I.d0r ≠ none := fun hh => by
          have := d0r_none hst hh; simp [hq] at this
        rw [ho]
        have := addDst2_zero I e s' I.d0r I.d1 .null .null none none none scr I.memoffs hst I.dstSz
          (by omega) (fun g b hh hb => h.hid (hb ▸ hh) rfl) (fun g b hh hb => h.hd1 g (hb ▸ hh))
          (fun hh => absurd hh hd0r) hw
        rw [hs.same.slots, hs.same.mem] at this
        exact this
  · have hd0 := store_d0 hst
    have hd1 := d1_none h (Or.inr hd0)
    have hd0r : I.d0r = none := by simp [App1.d0r, hd0]
    have hld : I.load = false := by simp [App1.load, hst]
    have ho : I.opsz = I.dstSz := by simp [App1.opsz, hd0]
    have hmem : I.memsz = I.dstSz := by simp [App1.memsz, hst]
    have hr1 := hs.st1 hst
    have hm : I.hasMem = true := by simp [App1.hasMem, hst]
    have hi1 : I.info1 = .none := by unfold App1.info1; rw [hd1]
    have hi0 : I.info I.d0 = ⟨some .mem, some .cell, I.memoffs⟩ := by simp [hd0, App1.info, hst]
    have hscr' : scr = .r2 := by rw [← hscr]; simp [App1.scratch, hi0]
    have hw := hs.same.wild
    simp only [hd0r, hd1, setOpt, if_true, hi1, hi0, hscr']
    by_cases h4 : I.dstSz = 4
    · have hsz : (if I.chk && decide (I.opsz < 4) then 4 else I.opsz) = 4 := by
        rw [ho, h4]; simp
      have hof : e.off.toNat = 0 := by
        have : e.addr.l &&& 3 = 0 :=
          Classical.byContradiction fun hc => hmis hm (Or.inr ⟨by omega, hc⟩)
        unfold Env.off; rw [this]; rfl
      rw [hsz, hof, h4, put_four, ho, h4]
      have := addDst4_mem I e s' none (some .mem) I.memoffs (.const 0)
        (.imm 0) (Or.inl rfl) .r2 false false I.memoffs hsc.noshift hst true 4 hw
      have hg : s'.get (.imm 0) = 0 := rfl
      rw [hg, hs.same.slots, hs.same.mem, hr1] at this
      simpa [addDst2, Info.none] using this
    · have hck : I.chk = false := by
        cases hck : I.chk
        · rfl
        · have := hsc.chkSub hck (by rw [hd0]; rfl); omega
      have hno : I.needOffs = true := by
        simp [App1.needOffs, hd0, hmem, App1.offsNull, hst, ho]; omega
      have hmo : I.memoffs = .reg (.hi .r2) := by
        simp [App1.memoffs, hno, hst, hld]
      have hr2 : s'.r2.h = e.off := by rw [hs.sto hst hno]
      have hev : I.dstSz = 2 → e.off.toNat % 2 = 0 := fun h2 =>
        off_even (Classical.byContradiction fun hc => hmis hm (Or.inl ⟨by rw [hmem, h2], hc⟩))
      simp only [hck, Bool.false_and, Bool.false_eq_true, if_false, hmo, ho]
      have := addDst_zero_mem I e s' none (some .mem) I.dstSz hst true hr2 hw (by omega) hev
      rw [hs.same.slots, hs.same.mem, hr1] at this
      simpa [addDst2, Info.none, St.cellOf] using this

/-- The fast path as a whole: to the slow path with the shadow unchanged if some check fails,
otherwise to the end with the result stored. -/
theorem done_clear (I : App1) (e : Env) (s s' : St) (h : Ok I) (hsc : Scope I e)
    (hc : Clear I e s) (hs : Facts I e s s') : Done I e s s' := by
  by_cases hz : I.markDefined = true ∨ I.chk = true
  · exact zero_done I e s s' h hsc hz hc hs
  · have hmd : I.markDefined = false := by
      cases hq : I.markDefined
      · rfl
      · exact absurd (Or.inl hq) hz
    have hck : I.chk = false := by
      cases hq : I.chk
      · rfl
      · exact absurd (Or.inr hq) hz
    cases hst : I.store
    · cases hld : I.load
      · exact reg_done I e s s' h hsc (by simp [App1.hasMem, hst, hld]) hmd hck hc.1 hs.same
      · exact load_done I e s s' h hsc hld hmd hck hc.1 (hc.2.1 (by simp [App1.hasMem, hld])).2 hs
    · have hmis := (hc.2.1 (by simp [App1.hasMem, hst])).2
      have hds := h.ds
      by_cases h4 : I.dstSz = 4
      · exact store4_done I e s s' h hsc hst h4 hmd hck hc.1 hmis hs
      · exact store2_done I e s s' h hsc hst (by omega) hmd hck hc.1 hmis hs

end Verif.FastX86
