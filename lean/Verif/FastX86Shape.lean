import Verif.FastX86Prop

/-! The shape of the propagation code when nothing has been checked. -/

namespace Verif.FastX86

/-- The shadow register of a source register; none counts as defined. -/
def val (s : St) : Option App → BitVec 8
  | some (.reg g _) => s.slots g
  | _ => 0

/-- The offset of a source register. -/
def hiOf : Option App → Bool
  | some (.reg _ h) => h
  | _ => false

/-- The shadow of flags, if it is propagated. -/
def fval (I : App1) (s : St) : BitVec 8 := if I.flagSrc then s.flags else 0

/-- A register destination. -/
def App1.d0r (I : App1) : Option (Fin 8 × Bool) :=
  match I.d0 with
  | some (.reg g h) => some (g, h)
  | _ => none

theorem nprop_pos {I : App1} (h : Ok I) (hmd : I.markDefined = false) : I.nprop0 ≠ 0 := by
  intro hn
  have hn0 : I.s0 = none ∧ I.flagSrc = false := by
    unfold App1.nprop0 App1.nsrc at hn
    cases h0 : I.s0 <;> cases hf : I.flagSrc <;> simp_all
  have hld : I.load = false := by simp [App1.load, hn0.1]
  unfold App1.markDefined at hmd
  simp only [hn0.1, hn, hld, Option.isNone_none, Bool.true_and, Bool.not_false, beq_self_eq_true,
    Bool.or_eq_false_iff, Bool.not_eq_false'] at hmd
  rcases h.flags hmd.1.2 with hh | hh
  · simp [hn0.1] at hh
  · simp [hh] at hmd

/-- `alu_uncombined`, fastpath_x86.c:4172. -/
def App1.aluSub (I : App1) : Bool := decide (I.opsz < 4) && I.alu && I.s1.isSome

/-- Same source and destination with nothing else to propagate: the destination is not written. -/
def App1.skipDst (I : App1) : Bool := I.nprop0 == 1 && !I.op.shadowOp && I.same I.s0

/-- Without memory. -/
theorem shape_reg (I : App1) (h : Ok I) (hm : I.hasMem = false) (hmd : I.markDefined = false)
    (hck : I.chk = false) :
    ∃ code a, propagate I = code ++ addDst2 I (.const 0)
        (infoOpt (if I.skipDst then none else I.d0r) (if I.skipDst then .const 0 else .null)
          (if I.skipDst then I.d0 else none))
        (infoOpt I.d1 .null none)
        ⟨a, some (.lo .r1), .const (if hiOf I.s0 then 1 else 0)⟩ I.srcOpsz I.opsz .r3 true
        I.aluSub ∧
      ∀ e (s : St), ∃ z, exe e code none s = (none, { s with
        r1 := { s.r1 with l := val s I.s0 |||
          (if I.aluSub then 0 else val s I.s1) ||| val s I.s2 ||| fval I s },
        zf := z }) := by
  have hst : I.store = false := by
    unfold App1.hasMem at hm; simp only [Bool.or_eq_false_iff] at hm; exact hm.2
  have hld : I.load = false := by
    unfold App1.hasMem at hm; simp only [Bool.or_eq_false_iff] at hm; exact hm.1
  have hmo : I.memoffs = .const 0 := by simp [App1.memoffs, hld, hst]
  have hd0 : I.d0 ≠ some .mem := fun hc => by simp [App1.store, hc] at hst
  have hs0 : I.s0 ≠ some .mem := fun hc => by simp [App1.load, hc, hst] at hld
  have hs1 := h.m1
  have hs2 := h.m2
  have h10 := h.s10
  have h21 := h.s21
  have hnp := nprop_pos h hmd
  have hd1i : I.info1 = infoOpt I.d1 .null none := by unfold App1.info1; cases I.d1 <;> rfl
  have hd0i : I.info I.d0 = infoOpt I.d0r .null none := by
    unfold App1.d0r
    cases hd : I.d0 with
    | none => rfl
    | some a => cases a with
      | mem => exact absurd hd hd0
      | reg g b => rfl
  have hcell : ((I.info I.d0).shadow == some Opnd.cell) = false := by
    rw [hd0i]; cases I.d0r <;> rfl
  have happ : (I.info I.d0).app = I.d0 := by
    cases hd : I.d0 with
    | none => rfl
    | some a => cases a with
      | mem => exact absurd hd hd0
      | reg g b => rfl
  -- the destination for one source
  have hone : (if !I.op.shadowOp && I.same I.s0 then (⟨(I.info I.d0).app, none, .const 0⟩ : Info)
      else I.info I.d0) = infoOpt (if !I.op.shadowOp && I.same I.s0 then none else I.d0r)
        (if !I.op.shadowOp && I.same I.s0 then .const 0 else .null)
          (if !I.op.shadowOp && I.same I.s0 then I.d0 else none) := by
    split
    · simp [infoOpt, happ]
    · exact hd0i
  have hpr : propagate I = if I.nprop0 = 1 then propOne I (I.scratch I.srcs.1) I.srcs.1
      else propMany I (I.scratch I.srcs.1) I.srcs.1 I.srcs.2.1 I.srcs.2.2 := by
    simp [propagate, App1.psrcs, hst, hmd, hck, hnp]
  have hsc : ∀ a : Info, a.shadow ≠ some (.lo .r2) → I.scratch a = .r1 := by
    intro a ha
    unfold App1.scratch
    rw [hcell]
    simp [ha]
  have hskd : I.nprop0 = 1 → I.skipDst = (!I.op.shadowOp && I.same I.s0) := fun hn => by
    simp [App1.skipDst, hn]
  have hskn : I.nprop0 ≠ 1 → I.skipDst = false := fun hn => by simp [App1.skipDst, hn]
  -- one source
  have one : ∀ (a : Info) (sh : Opnd), I.nprop0 = 1 → I.srcs.1 = a → a.shadow = some sh →
      (∃ g, sh = .slot g) ∨ sh = .flags → a.offs = .const (if hiOf I.s0 then 1 else 0) →
      I.aluSub = false →
      propagate I = [.mov (.lo .r1) sh] ++ addDst2 I (.const 0)
        (infoOpt (if I.skipDst then none else I.d0r) (if I.skipDst then .const 0 else .null)
          (if I.skipDst then I.d0 else none))
        (infoOpt I.d1 .null none)
        ⟨a.app, some (.lo .r1), .const (if hiOf I.s0 then 1 else 0)⟩ I.srcOpsz I.opsz .r3 true
        I.aluSub := by
    intro a sh hn ha hs hsh ho hal
    have hne : sh ≠ .lo .r1 ∧ sh ≠ .lo .r2 := by
      rcases hsh with ⟨g, rfl⟩ | rfl <;> simp
    rw [hpr, if_pos hn, ha, hsc a (by rw [hs]; simpa using hne.2)]
    unfold propOne
    rw [hone, hskd hn, hd1i, hmo, hal]
    simp only [loadShadow, hs, if_neg hne.1, ho]
  have many : ∀ (a b c : Info) (sa sb : Opnd), I.nprop0 ≠ 1 → I.srcs = (a, b, c) →
      a.shadow = some sa → (∃ g, sa = .slot g) → b.shadow = some sb →
      a.offs = .const (if hiOf I.s0 then 1 else 0) →
      propagate I = ([.mov (.lo .r1) sa] ++
          (if I.aluSub then [] else [.or (.lo .r1) sb]) ++
          orThird .r1 c) ++ addDst2 I (.const 0)
        (infoOpt (if I.skipDst then none else I.d0r) (if I.skipDst then .const 0 else .null)
          (if I.skipDst then I.d0 else none))
        (infoOpt I.d1 .null none)
        ⟨a.app, some (.lo .r1), .const (if hiOf I.s0 then 1 else 0)⟩ I.srcOpsz I.opsz .r3 true
        I.aluSub := by
    intro a b c sa sb hn hs ha hsh hb ho
    have hne : sa ≠ .lo .r1 ∧ sa ≠ .lo .r2 := by
      obtain ⟨g, rfl⟩ := hsh; simp
    rw [hpr, if_neg hn, hs, hsc a (by rw [ha]; simpa using hne.2), hskn hn]
    have halu : (decide (I.opsz < 4) && I.alu) = I.aluSub := by
      unfold App1.aluSub
      cases hx : I.s1 with
      | some x => simp
      | none =>
        have hx2 : I.s2 = none := by
          cases hy : I.s2 with
          | none => rfl
          | some y => simp [hy, hx] at h21
        have hf : I.flagSrc = true := by
          cases hf : I.flagSrc
          · cases hz : I.s0 <;> simp [App1.nprop0, App1.nsrc, hx, hx2, hf, hz] at hn hnp
          · rfl
        simp only [App1.flagSrc, Bool.and_eq_true, decide_eq_true_eq] at hf
        simp [show ¬I.opsz < 4 by omega]
    unfold propMany
    rw [halu]
    simp only [hst, Bool.and_false, Bool.false_eq_true, if_false, loadShadow, ha, if_neg hne.1, ho,
      hd1i, hmo, hd0i, hb, on, List.append_assoc]
  have hex : ∀ (sa : Opnd) (l : List Opnd) (e : Env) (s : St), ((∃ g, sa = .slot g) ∨ sa = .flags) →
      (∀ o ∈ l, (∃ g, o = .slot g) ∨ o = .flags) → ∃ z,
      exe e (.mov (.lo .r1) sa :: l.map (fun o => .or (.lo .r1) o)) none s = (none, { s with
        r1 := { s.r1 with l := l.foldl (fun v o => v ||| s.get o) (s.get sa) }, zf := z }) := by
    intro sa l e s hsa hl
    have gen : ∀ (l : List Opnd) (v : BitVec 8) (z : Bool), (∀ o ∈ l, (∃ g, o = .slot g) ∨ o = .flags) →
        ∃ z', exe e (l.map (fun o => .or (.lo .r1) o)) none
          { s with r1 := { s.r1 with l := v }, zf := z } = (none, { s with
          r1 := { s.r1 with l := l.foldl (fun v o => v ||| s.get o) v }, zf := z' }) := by
      intro l
      induction l with
      | nil => intro v z _; exact ⟨z, rfl⟩
      | cons o l ih =>
        intro v z ho
        have h1 : exec e { s with r1 := { s.r1 with l := v }, zf := z } (.or (.lo .r1) o) =
            { s with r1 := { s.r1 with l := v ||| s.get o }, zf := v ||| s.get o == 0 } := by
          rcases ho o (by simp) with ⟨g, rfl⟩ | rfl <;> rfl
        have hok : (Ins.or (.lo .r1) o).ok = true := by
          rcases ho o (by simp) with ⟨g, rfl⟩ | rfl <;> rfl
        obtain ⟨z', hz⟩ := ih (v ||| s.get o) (v ||| s.get o == 0) (fun o' h' => ho o' (by simp [h']))
        refine ⟨z', ?_⟩
        simp only [List.map_cons, exe, hok, if_true, h1, List.foldl_cons]
        exact hz
    have h1 : exec e s (.mov (.lo .r1) sa) = { s with r1 := { s.r1 with l := s.get sa }, zf := s.zf } := by
      rcases hsa with ⟨g, rfl⟩ | rfl <;> rfl
    have hok : (Ins.mov (.lo .r1) sa).ok = true := by
      rcases hsa with ⟨g, rfl⟩ | rfl <;> rfl
    obtain ⟨z', hz⟩ := gen l (s.get sa) s.zf hl
    refine ⟨z', ?_⟩
    simp only [exe, hok, if_true, h1]
    exact hz
  have hf4 : I.flagSrc = true → ¬I.opsz < 4 := fun hf => by
    simp only [App1.flagSrc, Bool.and_eq_true, decide_eq_true_eq] at hf; omega
  cases h0 : I.s0 with
  | none =>
    have h1 : I.s1 = none := by
      cases hx : I.s1 with
      | none => rfl
      | some x => simp [hx, h0] at h10
    have h2 : I.s2 = none := by
      cases hx : I.s2 with
      | none => rfl
      | some x => simp [hx, h1] at h21
    have hf : I.flagSrc = true := by
      cases hf : I.flagSrc
      · simp [App1.nprop0, App1.nsrc, h0, h1, h2, hf] at hnp
      · rfl
    have hn1 : I.nprop0 = 1 := by simp [App1.nprop0, App1.nsrc, h0, h1, h2, hf]
    have hal : I.aluSub = false := by simp [App1.aluSub, hf4 hf]
    refine ⟨[.mov (.lo .r1) .flags], none, ?_, ?_⟩
    · have := one flagInfo .flags hn1 (by simp [App1.srcs, hf, h0]) rfl (Or.inr rfl)
        (by simp [h0, hiOf, flagInfo]) hal
      rw [h0] at this
      exact this
    · intro e s
      obtain ⟨z, hz⟩ := hex .flags [] e s (Or.inr rfl) (by simp)
      refine ⟨z, ?_⟩
      simpa [val, h1, h2, fval, hf, St.get] using hz
  | some a0 =>
    cases a0 with
    | mem => exact absurd h0 hs0
    | reg g0 b0 =>
    cases h1 : I.s1 with
    | none =>
      have h2 : I.s2 = none := by
        cases hx : I.s2 with
        | none => rfl
        | some x => simp [hx, h1] at h21
      cases hf : I.flagSrc
      · have hn1 : I.nprop0 = 1 := by simp [App1.nprop0, App1.nsrc, h0, h1, h2, hf]
        have hal : I.aluSub = false := by simp [App1.aluSub, h1]
        refine ⟨[.mov (.lo .r1) (.slot g0)], some (.reg g0 b0), ?_, ?_⟩
        · have := one (.ofReg g0 b0) (.slot g0) hn1 (by simp [App1.srcs, hf, h0, App1.info]) rfl
            (Or.inl ⟨g0, rfl⟩) (by simp [h0, hiOf, Info.ofReg]) hal
          rw [h0] at this
          exact this
        · intro e s
          obtain ⟨z, hz⟩ := hex (.slot g0) [] e s (Or.inl ⟨g0, rfl⟩) (by simp)
          refine ⟨z, ?_⟩
          simpa [val, h1, h2, fval, hf, St.get] using hz
      · have hn1 : I.nprop0 ≠ 1 := by simp [App1.nprop0, App1.nsrc, h0, h1, h2, hf]
        have hal : I.aluSub = false := by simp [App1.aluSub, hf4 hf]
        refine ⟨_, _, by
          have := many (.ofReg g0 b0) flagInfo .none (.slot g0) .flags hn1
            (by simp [App1.srcs, hf, h0, h1, h2, App1.info]) rfl ⟨g0, rfl⟩ rfl
            (by simp [h0, hiOf, Info.ofReg])
          rw [h0] at this
          exact this, ?_⟩
        intro e s
        obtain ⟨z, hz⟩ := hex (.slot g0) [.flags] e s (Or.inl ⟨g0, rfl⟩) (by simp)
        refine ⟨z, ?_⟩
        simpa [val, h2, fval, hf, St.get, hal, Info.none, orThird] using hz
    | some a1 =>
      cases a1 with
      | mem => exact absurd h1 hs1
      | reg g1 b1 =>
      cases h2 : I.s2 with
      | none =>
        have hn1 : I.nprop0 ≠ 1 := by
          simp only [App1.nprop0, App1.nsrc, h0, h1, h2]; cases I.flagSrc <;> simp
        cases hf : I.flagSrc
        · refine ⟨_, _, by
            have := many (.ofReg g0 b0) (.ofReg g1 b1) .none (.slot g0) (.slot g1) hn1
              (by simp [App1.srcs, hf, h0, h1, h2, App1.info]) rfl ⟨g0, rfl⟩ rfl
              (by simp [h0, hiOf, Info.ofReg])
            rw [h0] at this
            exact this, ?_⟩
          intro e s
          cases hal : I.aluSub
          · obtain ⟨z, hz⟩ := hex (.slot g0) [.slot g1] e s (Or.inl ⟨g0, rfl⟩) (by simp)
            refine ⟨z, ?_⟩
            simpa [val, fval, hf, St.get, Info.none, orThird] using hz
          · obtain ⟨z, hz⟩ := hex (.slot g0) [] e s (Or.inl ⟨g0, rfl⟩) (by simp)
            refine ⟨z, ?_⟩
            simpa [val, fval, hf, St.get, Info.none, orThird] using hz
        · have hal : I.aluSub = false := by simp [App1.aluSub, hf4 hf]
          refine ⟨_, _, by
            have := many (.ofReg g0 b0) (.ofReg g1 b1) flagInfo (.slot g0) (.slot g1) hn1
              (by simp [App1.srcs, hf, h0, h1, h2, App1.info]) rfl ⟨g0, rfl⟩ rfl
              (by simp [h0, hiOf, Info.ofReg])
            rw [h0] at this
            exact this, ?_⟩
          intro e s
          obtain ⟨z, hz⟩ := hex (.slot g0) [.slot g1, .flags] e s (Or.inl ⟨g0, rfl⟩) (by simp)
          refine ⟨z, ?_⟩
          simpa [val, fval, hf, St.get, hal, flagInfo, orThird] using hz
      | some a2 =>
        cases a2 with
        | mem => exact absurd h2 hs2
        | reg g2 b2 =>
        have hf : I.flagSrc = false := by simp [App1.flagSrc, h0, h1, h2]
        have hn1 : I.nprop0 ≠ 1 := by simp [App1.nprop0, App1.nsrc, h0, h1, h2, hf]
        refine ⟨_, _, by
          have := many (.ofReg g0 b0) (.ofReg g1 b1) (.ofReg g2 b2) (.slot g0) (.slot g1) hn1
            (by simp [App1.srcs, hf, h0, h1, h2, App1.info]) rfl ⟨g0, rfl⟩ rfl
            (by simp [h0, hiOf, Info.ofReg])
          rw [h0] at this
          exact this, ?_⟩
        intro e s
        cases hal : I.aluSub
        · obtain ⟨z, hz⟩ := hex (.slot g0) [.slot g1, .slot g2] e s (Or.inl ⟨g0, rfl⟩) (by simp)
          refine ⟨z, ?_⟩
          simpa [val, fval, hf, St.get, Info.ofReg, orThird] using hz
        · obtain ⟨z, hz⟩ := hex (.slot g0) [.slot g2] e s (Or.inl ⟨g0, rfl⟩) (by simp)
          refine ⟨z, ?_⟩
          simpa [val, fval, hf, St.get, Info.ofReg, orThird] using hz

end Verif.FastX86
