import Verif.FastX86Reg

/-! The propagation code of loads when nothing has been checked. -/

namespace Verif.FastX86

/-- Or-ing shadows into the low byte of the second scratch register. -/
theorem ors_exe (e : Env) (s : St) : ∀ (l : List Opnd) (v : BitVec 8) (z : Bool),
    (∀ o ∈ l, (∃ g, o = .slot g) ∨ o = .flags) →
    ∃ z', exe e (l.map (fun o => .or (.lo .r2) o)) none
      { s with r2 := { s.r2 with l := v }, zf := z } = (none, { s with
      r2 := { s.r2 with l := l.foldl (fun v o => v ||| s.get o) v }, zf := z' }) := by
  intro l
  induction l with
  | nil => intro v z _; exact ⟨z, rfl⟩
  | cons o l ih =>
    intro v z ho
    have h1 : exec e { s with r2 := { s.r2 with l := v }, zf := z } (.or (.lo .r2) o) =
        { s with r2 := { s.r2 with l := v ||| s.get o }, zf := v ||| s.get o == 0 } := by
      rcases ho o (by simp) with ⟨g, rfl⟩ | rfl <;> rfl
    have hok : (Ins.or (.lo .r2) o).ok = true := by
      rcases ho o (by simp) with ⟨g, rfl⟩ | rfl <;> rfl
    obtain ⟨z', hz⟩ := ih (v ||| s.get o) (v ||| s.get o == 0) (fun o' h' => ho o' (by simp [h']))
    refine ⟨z', ?_⟩
    simp only [List.map_cons, exe, hok, if_true, h1, List.foldl_cons]
    exact hz

theorem ors_exe' (e : Env) (s : St) (l : List Opnd)
    (h : ∀ o ∈ l, (∃ g, o = .slot g) ∨ o = .flags) :
    ∃ z', exe e (l.map (fun o => .or (.lo .r2) o)) none s = (none, { s with
      r2 := { s.r2 with l := l.foldl (fun v o => v ||| s.get o) s.r2.l }, zf := z' }) :=
  ors_exe e s l s.r2.l s.zf h

theorem info1_eq (I : App1) : I.info1 = infoOpt I.d1 .null none := by
  unfold App1.info1; cases I.d1 <;> rfl

theorem info0_eq {I : App1} (hst : I.store = false) : I.info I.d0 = infoOpt I.d0r .null none := by
  unfold App1.d0r
  cases hd : I.d0 with
  | none => rfl
  | some a => cases a with
    | mem => simp [App1.store, hd] at hst
    | reg g b => rfl

theorem aluSub_many {I : App1} (h : Ok I) (hmd : I.markDefined = false) (hn : I.nprop0 ≠ 1) :
    (decide (I.opsz < 4) && I.alu) = I.aluSub := by
  have h21 := h.s21
  have hnp := nprop_pos h hmd
  unfold App1.aluSub
  cases hx : I.s1 with
  | some x => simp
  | none =>
    have hx2 : I.s2 = none := by
      cases hy : I.s2 with
      | none => rfl
      | some y => simp [hy, hx] at h21
    have hf : I.flagSrc = true := by
      cases hf : I.flagSrc
      · cases hz : I.s0 <;> simp [App1.nprop0, App1.nsrc, hx, hx2, hf, hz] at hn hnp
      · rfl
    simp only [App1.flagSrc, Bool.and_eq_true, decide_eq_true_eq] at hf
    simp [show ¬I.opsz < 4 by omega]

theorem load_s0 {I : App1} (hl : I.load = true) : I.s0 = some .mem ∧ I.store = false := by
  simpa [App1.load] using hl

theorem shape_load (I : App1) (h : Ok I) (hl : I.load = true) (hmd : I.markDefined = false)
    (hck : I.chk = false) :
    ∃ code, propagate I = code ++ addDst2 I I.memoffs (infoOpt I.d0r .null none)
        (infoOpt I.d1 .null none) ⟨some .mem, some (.lo .r2), I.memoffs⟩ I.srcOpsz I.opsz .r3 true
        I.aluSub ∧
      ∀ e (s : St), ∃ z, exe e code none s = (none, { s with
        r2 := { s.r2 with l := s.r2.l |||
          (if I.aluSub then 0 else val s I.s1) ||| val s I.s2 ||| fval I s },
        zf := z }) := by
  obtain ⟨h0, hst⟩ := load_s0 hl
  have h21 := h.s21
  have hnp := nprop_pos h hmd
  have hd0 := info0_eq hst
  have hd1 := info1_eq I
  have hi0 : I.info I.s0 = ⟨some .mem, some (.lo .r2), I.memoffs⟩ := by simp [App1.info, h0, hst]
  have hf4 : I.flagSrc = true → ¬I.opsz < 4 := fun hf => by
    simp only [App1.flagSrc, Bool.and_eq_true, decide_eq_true_eq] at hf; omega
  have hsrc1 : I.srcs.1 = ⟨some .mem, some (.lo .r2), I.memoffs⟩ := by
    simp only [App1.srcs, h0, Option.isNone_some, Bool.false_eq_true, if_false]
    split
    · split <;> rw [← hi0, h0]
    · rw [← hi0, h0]
  have hsc : I.scratch I.srcs.1 = .r2 := by
    rw [hsrc1]; simp [App1.scratch, hmd, hck]
  have hsame : I.same I.s0 = false := by
    simp only [App1.same, Bool.and_eq_false_iff]
    left
    cases hq : I.s0 == I.d0
    · rfl
    · simp only [beq_iff_eq] at hq; rw [h0] at hq; simp [App1.store, ← hq] at hst
  have hpr : propagate I = if I.nprop0 = 1 then propOne I .r2 I.srcs.1
      else propMany I .r2 I.srcs.1 I.srcs.2.1 I.srcs.2.2 := by
    rw [← hsc]
    simp [propagate, App1.psrcs, hst, hmd, hck, hnp]
  by_cases hn : I.nprop0 = 1
  · have h12 : I.s1 = none ∧ I.s2 = none ∧ I.flagSrc = false := by
      unfold App1.nprop0 App1.nsrc at hn
      cases h1 : I.s1 <;> cases h2 : I.s2 <;> cases hf : I.flagSrc <;> simp_all
    obtain ⟨h1, h2, hf⟩ := h12
    have hal : I.aluSub = false := by simp [App1.aluSub, h1]
    refine ⟨[], ?_, fun e s => ⟨s.zf, ?_⟩⟩
    · rw [hpr, if_pos hn, hsrc1]
      unfold propOne
      simp [loadShadow, hsame, hd0, hd1, hal]
    · simp [exe, h1, h2, val, fval, hf]
  · have halu := aluSub_many h hmd hn
    have main : ∀ (lb lc : List Opnd), (∀ o ∈ lb, (∃ g, o = .slot g) ∨ o = .flags) →
        (∀ o ∈ lc, (∃ g, o = .slot g) ∨ o = .flags) →
        (I.aluSub = false → on I.srcs.2.1.shadow (fun o => .or (.lo .r2) o) =
          lb.map (fun o => .or (.lo .r2) o)) →
        orThird .r2 I.srcs.2.2 = lc.map (fun o => .or (.lo .r2) o) →
        (∀ (s : St) (v : BitVec 8), lc.foldl (fun v o => v ||| s.get o)
            ((if I.aluSub then [] else lb).foldl (fun v o => v ||| s.get o) v) =
          v ||| (if I.aluSub then 0 else val s I.s1) ||| val s I.s2 ||| fval I s) →
        ∃ code, propagate I = code ++ addDst2 I I.memoffs (infoOpt I.d0r .null none)
        (infoOpt I.d1 .null none) ⟨some .mem, some (.lo .r2), I.memoffs⟩ I.srcOpsz I.opsz .r3 true
        I.aluSub ∧
        ∀ e (s : St), ∃ z, exe e code none s = (none, { s with
          r2 := { s.r2 with l := s.r2.l |||
          (if I.aluSub then 0 else val s I.s1) ||| val s I.s2 ||| fval I s },
          zf := z }) := by
      intro lb lc hlb hlc hb hc hv
      refine ⟨((if I.aluSub then [] else lb) ++ lc).map (fun o => .or (.lo .r2) o), ?_, ?_⟩
      · rw [hpr, if_neg hn, hsrc1]
        unfold propMany
        rw [halu, hst, hc]
        cases hal : I.aluSub
        · simp only [Bool.and_false, Bool.false_eq_true, if_false, loadShadow, if_true, hb hal, hd0,
            hd1, List.map_append, List.nil_append, List.append_assoc]
        · simp only [Bool.and_false, Bool.false_eq_true, if_false, loadShadow, if_true, hd0,
            hd1, List.nil_append]
      · intro e s
        obtain ⟨z, hz⟩ := ors_exe' e s ((if I.aluSub then [] else lb) ++ lc) (by
          intro o ho
          rcases List.mem_append.1 ho with ho | ho
          · cases hal : I.aluSub
            · rw [hal] at ho; exact hlb o (by simpa using ho)
            · rw [hal] at ho; simp at ho
          · exact hlc o ho)
        refine ⟨z, ?_⟩
        rw [hz, List.foldl_append, hv]
    cases hf : I.flagSrc with
    | true =>
      have hal : I.aluSub = false := by simp [App1.aluSub, hf4 hf]
      cases h1 : I.s1 with
      | none =>
        have h2 : I.s2 = none := by
          cases hy : I.s2 with
          | none => rfl
          | some y => simp [hy, h1] at h21
        have hs : I.srcs.2 = (flagInfo, .none) := by
          simp [App1.srcs, hf, h0, h1, h2, App1.info]
        have := main [.flags] [] (by simp) (by simp) (fun _ => by rw [hs]; rfl) (by rw [hs]; rfl)
          (fun s v => by simp [hal, h1, h2, val, fval, hf, St.get])
        rwa [h1] at this
      | some x1 =>
        obtain ⟨g1, b1, rfl⟩ : ∃ g b, x1 = .reg g b := by
          cases x1 with
          | mem => exact absurd h1 h.m1
          | reg g b => exact ⟨g, b, rfl⟩
        have h2 : I.s2 = none := by
          simp only [App1.flagSrc, Bool.and_eq_true, Bool.or_eq_true, Option.isNone_iff_eq_none] at hf
          rcases hf.2 with (hh | hh) | hh
          · simp [h0] at hh
          · simp [h1] at hh
          · exact hh
        have hs : I.srcs.2 = (.ofReg g1 b1, flagInfo) := by
          simp [App1.srcs, hf, h0, h1, App1.info]
        have := main [.slot g1] [.flags] (by simp) (by simp) (fun _ => by rw [hs]; rfl) (by rw [hs]; rfl)
          (fun s v => by simp [hal, h1, h2, val, fval, hf, St.get])
        rwa [h1] at this
    | false =>
      cases h1 : I.s1 with
      | none =>
        exfalso
        have h2 : I.s2 = none := by
          cases hy : I.s2 with
          | none => rfl
          | some y => simp [hy, h1] at h21
        simp [App1.nprop0, App1.nsrc, h0, h1, h2, hf] at hn
      | some x1 =>
        obtain ⟨g1, b1, rfl⟩ : ∃ g b, x1 = .reg g b := by
          cases x1 with
          | mem => exact absurd h1 h.m1
          | reg g b => exact ⟨g, b, rfl⟩
        cases h2 : I.s2 with
        | none =>
          have hs : I.srcs.2 = (.ofReg g1 b1, .none) := by
            simp [App1.srcs, hf, h1, h2, App1.info]
          have := main [.slot g1] [] (by simp) (by simp) (fun _ => by rw [hs]; rfl) (by rw [hs]; rfl)
            (fun s v => by cases hal : I.aluSub <;> simp [h1, h2, val, fval, hf, St.get])
          rwa [h1, h2] at this
        | some x2 =>
          obtain ⟨g2, b2, rfl⟩ : ∃ g b, x2 = .reg g b := by
            cases x2 with
            | mem => exact absurd h2 h.m2
            | reg g b => exact ⟨g, b, rfl⟩
          have hs : I.srcs.2 = (.ofReg g1 b1, .ofReg g2 b2) := by
            simp [App1.srcs, hf, h1, h2, App1.info]
          have := main [.slot g1] [.slot g2] (by simp) (by simp) (fun _ => by rw [hs]; rfl)
            (by rw [hs]; rfl)
            (fun s v => by cases hal : I.aluSub <;> simp [h1, h2, val, fval, hf, St.get])
          rwa [h1, h2] at this

theorem chk_false_alu {I : App1} (h : I.chk = false) (h4 : I.opsz < 4) (hn : 2 ≤ I.nsrc)
    (ha : I.alu = true) (hs : I.s2.isSome = true) : offs0 I.s0 = offs0 I.s2 := by
  simp only [App1.chk, Bool.or_eq_false_iff] at h
  have := h.2
  simpa [h4, hn, ha, hs] using this

theorem chk_false_icd {I : App1} (h : I.chk = false) : I.icd = false := by
  simp only [App1.chk, Bool.or_eq_false_iff] at h
  exact h.1.1.1.1.1

theorem d1_none {I : App1} (h : Ok I) (hd : I.d0 = none ∨ I.d0 = some .mem) : I.d1 = none := by
  cases hq : I.d1 with
  | none => rfl
  | some x =>
    have := h.d10 (by rw [hq]; rfl)
    rcases hd with hd | hd <;> simp [hd] at this

/-- Loads. -/
theorem load_done (I : App1) (e : Env) (s s' : St) (h : Ok I) (hsc : Scope I e)
    (hl : I.load = true) (hmd : I.markDefined = false) (hck : I.chk = false)
    (hf : I.checkFlags = true → s.flags = 0) (hmis : ¬Mis I e) (hs : Facts I e s s') :
    Done I e s s' := by
  obtain ⟨code, hp, hex⟩ := shape_load I h hl hmd hck
  obtain ⟨z, hx⟩ := hex e s'
  obtain ⟨h0, hst⟩ := load_s0 hl
  have h0s : I.s0.isSome = true := by rw [h0]; rfl
  have hmem : I.memsz = I.srcSz := by simp [App1.memsz, hst, hl]
  obtain ⟨hao, hx4, hoff⟩ := chk_false hck
  have hv : ∀ o, val s' o = val s o := fun o => by
    cases o with
    | none => rfl
    | some a => cases a <;> simp [val, hs.same.slots]
  have hfv : fval I s' = fval I s := by simp [fval, hs.same.flags]
  have hcell : s'.r2.l = s.cellOf e := by rw [hs.ldv hl (Or.inl hck)]
  rw [hv, hv, hfv, hcell] at hx
  unfold Done
  simp only [hst, Bool.false_eq_true, if_false]
  rw [hp]
  generalize hV : s.cellOf e ||| (if I.aluSub = true then 0 else val s I.s1) ||| val s I.s2 |||
    fval I s = V at hx
  have key : ∀ (sl : Fin 8 → BitVec 8) (w : BitVec 8) (sz : Nat) (d : List Ins),
      WroteBy I e d { s' with r2 := { s'.r2 with l := V }, zf := z } sl s.mem true w sz →
      WroteBy I e (code ++ d) s' sl s.mem true w sz :=
    fun sl w sz d hd => WroteBy.pre hx rfl hd
  have t1 : ({ s' with r2 := { s'.r2 with l := V }, zf := z } : St).slots = s.slots := hs.same.slots
  have t2 : ({ s' with r2 := { s'.r2 with l := V }, zf := z } : St).mem = s.mem := hs.same.mem
  have t3 : ({ s' with r2 := { s'.r2 with l := V }, zf := z } : St).wild = false := hs.same.wild
  have t4 : ({ s' with r2 := { s'.r2 with l := V }, zf := z } : St).r2.l = V := rfl
  have t5 : I.needOffs = true → ({ s' with r2 := { s'.r2 with l := V }, zf := z } : St).r1.h = e.off :=
    fun hh => by simp only [hs.ldo hl hh (Or.inl hck)]
  generalize ({ s' with r2 := { s'.r2 with l := V }, zf := z } : St) = t at key t1 t2 t3 t4 t5
  have hss := h.ss
  have hds := h.ds
  have hmo : I.needOffs = true → I.memoffs = .reg (.hi .r1) := fun hh => by
    simp [App1.memoffs, hl, hh]
  have hev : I.srcSz = 2 → e.off.toNat % 2 = 0 := fun h2 =>
    off_even (Classical.byContradiction fun hc => hmis (Or.inl ⟨by rw [hmem, h2], hc⟩))
  have hop0 : ∀ k, operandOpt e s I.s0 k = dig (s.cellOf e) (e.off.toNat + k) := fun k => by rw [h0]; rfl
  by_cases hext : I.ext = true
  · obtain ⟨hlt, _, h1, h2, hd0s, hd0m, hd1, hrf, hwf, _⟩ := h.ext hext
    have hx4' := hx4 hext
    have hx5 := hx4'
    simp only [App1.ext4, Bool.and_eq_true, Bool.or_eq_true, beq_iff_eq] at hx5
    have hso : I.srcOpsz0 = I.srcSz := by simp [App1.srcOpsz0, h0s]
    have hso2 : I.srcOpsz = I.srcSz := by simp [App1.srcOpsz, hx4', hso]
    have h4 := hx5.1.2
    have hd4 : I.dstSz = 4 := by simpa [App1.opsz, hd0s] using h4
    have hsz : I.srcSz = 1 ∨ I.srcSz = 2 := by rw [← hso]; exact hx5.2
    have hal : I.aluSub = false := by simp [App1.aluSub, h4]
    have hfs : I.flagSrc = false := by simp [App1.flagSrc, hrf]
    have hno : I.needOffs = true := by simp [App1.needOffs, hx4']
    obtain ⟨g, hg⟩ : ∃ g, I.d0r = some (g, false) := by
      cases hq : I.d0r with
      | none => rw [d0r_none hst hq] at hd0s; simp at hd0s
      | some x =>
        obtain ⟨g, b⟩ := x
        cases b
        · exact ⟨g, rfl⟩
        · have := h.hid hq rfl; omega
    have hop : I.op = .movzx ∨ I.op = .movsx := by simpa [App1.ext] using hext
    have hVe : V = s.cellOf e := by rw [← hV]; simp [hal, h1, h2, val, fval, hfs]
    refine ⟨extend I.op I.srcSz (V >>> (2 * e.off.toNat)), ?_, ?_⟩
    · have := addDst_ext_mem I e t g (some .mem) I.srcSz hop hst true (t5 hno) hwf t3 hsz hev
      rw [t1, t2, t4] at this
      rw [hd1, addDst2_one, hg, hal, hso2, h4, hmo hno]
      simp only [Option.isSome_some, Bool.true_or, if_true]
      refine key _ _ _ _ (WroteBy.noflags (v := 0) (n := 4) hwf ?_)
      simpa [setOpt, hd4, put_four, infoOpt] using this
    · intro k hk
      rw [h4] at hk
      rw [hVe]
      rcases hop with hop | hop
      · rw [hop, dig_extend_zx _ hsz hk]
        simp only [want, hao, hop, md_false hmd, Bool.false_eq_true, false_and, or_self, if_false,
          if_true, hop0, dig_shr]
      · rw [hop, dig_extend_sx _ hsz hk]
        simp only [want, hao, hop, md_false hmd, Bool.false_eq_true, false_and, or_self, if_false,
          if_true, hop0, dig_shr]
        rw [if_neg (by simp)]
  · have hext : I.ext = false := by simpa using hext
    have hsz := h.plain hext
    have hfl := fun k => flags_part (I := I) (s := s) hf k
    have hso : I.srcOpsz = I.srcSz := by
      simp [App1.srcOpsz, hext, App1.srcOpsz0, h0s]
    by_cases h4 : I.opsz = 4
    · have hs4 : I.srcSz = 4 := by
        cases hd : I.d0.isSome
        · have := h4
          simp only [App1.opsz, hd, h0s, Bool.false_eq_true, if_false, if_true] at this
          split at this <;> omega
        · rw [hsz]; simpa [App1.opsz, hd] using h4
      have hd4 : I.dstSz = 4 := by omega
      have hal : I.aluSub = false := by simp [App1.aluSub, h4]
      have hof : e.off.toNat = 0 := by
        have : e.addr.l &&& 3 = 0 :=
          Classical.byContradiction fun hc => hmis (Or.inr ⟨by rw [hmem, hs4], hc⟩)
        unfold Env.off; rw [this]; rfl
      have l1 : hiOf I.s1 = false := by
        cases hh : hiOf I.s1
        · rfl
        · have := h.hi1 hh; omega
      have l2 : hiOf I.s2 = false := by
        cases hh : hiOf I.s2
        · rfl
        · have := h.hi2 hh; omega
      have hd0f : ∀ g b, I.d0r = some (g, b) → b = false := fun g b hd => by
        cases b
        · rfl
        · have h1 := h.hid hd rfl
          omega
      have hd1f : ∀ g b, I.d1 = some (g, b) → b = false := fun g b hd => by
        cases b
        · rfl
        · have h1 := h.hd1 g hd
          omega
      refine ⟨V, ?_, ?_⟩
      · rw [hso, h4, hs4, hd4]
        refine key _ _ _ _ ?_
        have := addDst2_dword I e t I.d0r I.d1 .null .null none none (some .mem) I.memoffs (.lo .r2)
          (Or.inr (Or.inr rfl)) .r3 I.aluSub I.memoffs hsc.noshift hst 4 hd0f hd1f t3
        have hget : t.get (.lo .r2) = V := t4
        rw [hget, t1, t2] at this
        exact this
      · intro k hk
        rw [want_plain (md_false hmd) hao hext, hfl, hop0, operand_reg e s _ h.m1,
          operand_reg e s _ h.m2, l1, l2, hof, ← hV, hal]
        simp only [dig_or, Bool.false_eq_true, if_false, Bool.toNat_false, Nat.zero_add]
    · have hlt : I.opsz < 4 := by
        cases hd : I.d0 with
        | some x =>
          have : I.opsz = I.dstSz := by simp [App1.opsz, hd]
          omega
        | none =>
          simp only [App1.opsz, hd, Option.isSome_none, Bool.false_eq_true, if_false] at h4 ⊢
          revert h4
          cases I.wf <;> cases I.s0.isSome <;> simp <;> omega
      have hfs : I.flagSrc = false := by
        have : ¬4 ≤ I.opsz := by omega
        simp [App1.flagSrc, this]
      have hn2 : I.s1.isSome = true → 2 ≤ I.nsrc := fun hh => by
        simp only [App1.nsrc, h0s, hh, if_true]; omega
      have halu : I.s1.isSome = true → I.alu = true := fun hh => by
        cases ha : I.alu
        · have := hoff hlt (hn2 hh) ha hh
          rw [h0] at this
          cases hq : I.s1 with
          | none => simp [hq] at hh
          | some x => cases x with
            | mem => exact absurd hq h.m1
            | reg g b => simp [hq, offs0] at this
        · rfl
      have hs2 : I.s2 = none := by
        cases hq : I.s2 with
        | none => rfl
        | some x =>
          have hh := h.s21 (by rw [hq]; rfl)
          have := chk_false_alu hck hlt (hn2 hh) (halu hh) (by rw [hq]; rfl)
          rw [h0, hq] at this
          cases x with
          | mem => exact absurd hq h.m2
          | reg g b => simp [offs0] at this
      have hVe : V = s.cellOf e := by
        rw [← hV, hs2]
        cases hal : I.aluSub
        · have : I.s1 = none := by
            cases hq : I.s1 with
            | none => rfl
            | some x =>
              have := halu (by rw [hq]; rfl)
              simp [App1.aluSub, hlt, this, hq] at hal
          simp [this, val, fval, hfs]
        · simp [val, fval, hfs]
      have digs : ∀ x : BitVec 8, (∀ k, dig x k = operandOpt e s I.s1 k) → ∀ k,
          dig (V >>> (2 * e.off.toNat) ||| x) k = want I e s k := by
        intro x hx k
        rw [want_plain (md_false hmd) hao hext, hfl, hop0, hs2, dig_or, dig_shr, hx, hVe]
        simp only [fval, hfs, Bool.false_eq_true, if_false, dig_zero, operandOpt]
        rw [show ∀ x y : BitVec 2, x ||| y ||| (0 : BitVec 2) ||| (0 : BitVec 2) = x ||| y from
          by decide +revert]
      have digs' : I.aluSub = false → ∀ k, dig (V >>> (2 * e.off.toNat)) k = want I e s k := by
        intro hal k
        have : I.s1 = none := by
          cases hq : I.s1 with
          | none => rfl
          | some x =>
            have := halu (by rw [hq]; rfl)
            simp [App1.aluSub, hlt, this, hq] at hal
        rw [← digs 0 (fun k => by rw [this, dig_zero]; rfl) k]
        simp
      rw [hso]
      cases hd : I.d0r with
      | none =>
        have hd0 := d0r_none hst hd
        have hd1 := d1_none h (Or.inl hd0)
        have hal : I.aluSub = false := by
          cases h1 : I.s1 <;> simp [App1.aluSub, App1.alu, App1.same, hst, hd0, h1]
        refine ⟨V >>> (2 * e.off.toNat), ?_, fun k _ => digs' hal k⟩
        refine key _ _ _ _ ?_
        rw [hd1, addDst2_one]
        simp only [Option.isSome_none, Bool.false_or, setOpt, hal]
        cases hwf : I.wf
        · simp only [Bool.false_eq_true, if_false]
          have := WroteBy.nil (I := I) (e := e) (v := V >>> (2 * e.off.toNat)) (sz := I.opsz) t3 hwf
          rw [t1, t2] at this
          exact this
        · have ho : I.opsz = I.srcSz := by simp [App1.opsz, hd0, hwf, h0s]
          have hno : I.needOffs = true := by
            simp [App1.needOffs, hl, hwf, chk_false_icd hck, App1.offsNull, hmem, hlt]; omega
          simp only [if_true]
          rw [ho, hmo hno]
          have := addDst_none_load I e t (some .mem) none .null (Or.inr rfl) I.srcSz hsc.noshift true
            (t5 hno) t3 (by omega) hev
          rw [t1, t2, t4] at this
          exact this
      | some x =>
        obtain ⟨g, b⟩ := x
        have hd0 := d0r_some hd
        have ho : I.opsz = I.srcSz := by simp [App1.opsz, hd0, hsz]
        have hb := h.hid hd
        rw [ho, ← hsz]
        have hs2 : I.srcSz = 1 ∨ I.srcSz = 2 := by omega
        rw [← hsz] at hb
        have hno : I.needOffs = true := by
          simp [App1.needOffs, hl, hd0, App1.offsNull, hmem, hlt]; omega
        have hd1 : I.d1 = none := by
          cases hq1 : I.d1 with
          | none => rfl
          | some x =>
            exfalso
            rcases hsc.d1 (by rw [hq1]; rfl) with hh | hh | hh | hh
            · simp [hh] at hmd
            · simp [hh] at hck
            · omega
            · have := hh.2.1
              simp [App1.hasMem, hl] at this
        rw [hd1, addDst2_one, hmo hno]
        simp only [Option.isSome_some, Bool.true_or, if_true]
        cases hal : I.aluSub
        · refine ⟨V >>> (2 * e.off.toNat), ?_, fun k _ => digs' hal k⟩
          refine key _ _ _ _ ?_
          have := addDst_reg_mem I e t g b (some .mem) I.srcSz hsc.noshift hst true (t5 hno) t3 hs2 hb hev
          rw [t1, t2, t4] at this
          exact this
        · have hs1 : I.s1 = I.d0 := by
            simp only [App1.aluSub, App1.alu, App1.same, hst, Bool.and_eq_true, Bool.or_eq_true,
              beq_iff_eq, Bool.false_eq_true, false_and, false_or] at hal
            exact hal.1.2.2.1
          refine ⟨V >>> (2 * e.off.toNat) ||| s.slots g >>> (2 * b.toNat), ?_, fun k _ => by
            refine digs _ (fun k => ?_) k
            rw [operand_reg e s _ h.m1, hs1, hd0, dig_shr]; rfl⟩
          refine key _ _ _ _ ?_
          have := addDst_reg_mem_alu I e t g b (some .mem) I.srcSz hsc.noshift hst true (t5 hno) t3 hs2
            hb hev
          rw [t1, t2, t4] at this
          exact this

end Verif.FastX86
