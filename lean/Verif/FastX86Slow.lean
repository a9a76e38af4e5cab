import Verif.FastX86Zero

/-! When the fast path goes to the slow path. -/

namespace Verif.FastX86

/-- Neither a jump to the slow path nor its label. -/
def Ins.noSlow : Ins → Bool
  | .label .slow => false
  | .jcc _ .slow => false
  | _ => true

theorem all_replicate (f : Ins → Bool) (l : List Ins) (h : l.all f = true) (n : Nat) :
    (List.replicate n l).flatten.all f = true := by
  induction n with
  | zero => rfl
  | succ n ih => simp only [List.replicate_succ, List.flatten_cons, List.all_append, h, ih, Bool.and_self]

theorem noSlow_shadowOp (op : Op) (sz : Nat) (r t : Opnd) :
    (shadowOp op sz r t).all Ins.noSlow = true := by
  unfold shadowOp
  dsimp only
  repeat' (first | rfl | (refine all_replicate _ _ ?_ _) | split)

theorem noSlow_writeFlags (I : App1) (o : Opnd) : (writeFlags I o).all Ins.noSlow = true := by
  unfold writeFlags; split <;> rfl

theorem noSlow_checkDatastore (I : App1) (o d : Opnd) (l : Lbl) (hl : l ≠ .slow) :
    (checkDatastore I o d l).all Ins.noSlow = true := by
  unfold checkDatastore
  cases I.store <;> cases l <;> first | rfl | exact absurd rfl hl

theorem noSlow_getShift (m : Option Opnd) (n : Nat) : (getShift m n).all Ins.noSlow = true := by
  unfold getShift
  cases m <;> by_cases h : n = 1 <;> simp [h, Ins.noSlow]

theorem noSlow_on (o : Option Opnd) (f : Opnd → Ins) (h : ∀ o, (f o).noSlow = true) :
    (on o f).all Ins.noSlow = true := by
  cases o with
  | none => rfl
  | some o => simp [on, h]

set_option maxHeartbeats 1000000 in
theorem noSlow_addDst (I : App1) (mo : Offs) (d src : Info) (a b : Nat) (scr : Role)
    (fl alu pr : Bool) : (addDst I mo d src a b scr fl alu pr).all Ins.noSlow = true := by
  unfold addDst
  split
  · rfl
  · next sh _ =>
    rw [List.all_append, Bool.and_eq_true]
    refine ⟨?_, ?_⟩
    · split
      · exact noSlow_shadowOp _ _ _ _
      · exact noSlow_shadowOp _ _ _ _
      · rfl
    · split
      · simp only [List.all_append, Bool.and_eq_true]
        refine ⟨⟨?_, ?_⟩, rfl⟩
        · split
          · exact noSlow_writeFlags _ _
          · rfl
        · split
          · simp only [List.all_append, Bool.and_eq_true]
            exact ⟨noSlow_checkDatastore _ _ _ _ (by simp), rfl⟩
          · rfl
      · split
        · simp only [List.all_append, Bool.and_eq_true]
          refine ⟨⟨?_, ?_⟩, rfl⟩
          · split
            · exact noSlow_writeFlags _ _
            · rfl
          · split
            · simp only [List.all_append, Bool.and_eq_true]
              exact ⟨noSlow_checkDatastore _ _ _ _ (by simp), rfl⟩
            · rfl
        · extract_lets constOffs scr' swap ofsrc ofdst shiftby mo' op1 op2 isReg o1 o2
          clear_value constOffs scr' ofsrc ofdst shiftby mo' op1 op2 isReg o1 o2
          have hswap : swap.all Ins.noSlow = true := by
            simp only [swap]; split <;> rfl
          clear_value swap
          simp only [List.all_append, Bool.and_eq_true]
          refine ⟨⟨⟨⟨⟨?_, ?_⟩, rfl⟩, ?_⟩, rfl⟩, ?_⟩
          · split
            · rfl
            · exact hswap
          · repeat' (first
              | rfl
              | (exact noSlow_writeFlags _ _)
              | (exact noSlow_getShift _ _)
              | (exact noSlow_checkDatastore _ _ _ _ (by simp))
              | (exact noSlow_on _ _ (fun _ => rfl))
              | (simp only [List.all_append, Bool.and_eq_true]; done)
              | (refine ⟨?_, ?_⟩)
              | (rw [List.all_append])
              | (rw [Bool.and_eq_true])
              | split)
          · split
            · split <;> rfl
            · rfl
          · split
            · rfl
            · exact hswap

theorem noSlow_addDst2 (I : App1) (mo : Offs) (d d1 src : Info) (a b : Nat) (scr : Role)
    (fl alu : Bool) : (addDst2 I mo d d1 src a b scr fl alu).all Ins.noSlow = true := by
  unfold addDst2
  rw [List.all_append, Bool.and_eq_true]
  constructor <;> split <;> first | exact noSlow_addDst _ _ _ _ _ _ _ _ _ _ | rfl

theorem noSlow_loadShadow (o : Opnd) (i : Info) : (loadShadow o i).1.all Ins.noSlow = true := by
  unfold loadShadow
  split
  · split <;> rfl
  · rfl

theorem noSlow_propagate (I : App1) : (propagate I).all Ins.noSlow = true := by
  unfold propagate
  dsimp only
  generalize (if (I.markDefined || I.chk) = true then 0 else I.nprop0) = n
  split
  · exact noSlow_addDst2 _ _ _ _ _ _ _ _ _ _
  · split
    · unfold propOne
      simp only [List.all_append, Bool.and_eq_true]
      exact ⟨noSlow_loadShadow _ _, noSlow_addDst2 _ _ _ _ _ _ _ _ _ _⟩
    · unfold propMany
      simp only [List.all_append, Bool.and_eq_true]
      refine ⟨⟨⟨noSlow_loadShadow _ _, ?_⟩, ?_⟩, noSlow_addDst2 _ _ _ _ _ _ _ _ _ _⟩
      · split
        · rfl
        · exact noSlow_on _ _ (fun _ => rfl)
      · unfold orThird
        split <;> rfl

/-- Code without jumps to the slow path does not go there. -/
theorem run_noSlow (e : Env) : ∀ (c : List Ins) (l : Option Lbl) (s s' : St), c.all Ins.noSlow = true →
    l ≠ some .slow → run e c l s ≠ .slow s' := by
  intro c
  induction c with
  | nil =>
    intro l s s' _ hl
    cases l with
    | none => simp [run]
    | some l => cases l <;> first | exact absurd rfl hl | simp [run]
  | cons i c ih =>
    intro l s s' hc hl
    rw [List.all_cons, Bool.and_eq_true] at hc
    cases l with
    | some l =>
      simp only [run]
      split
      · exact ih _ _ _ hc.2 (by simp)
      · exact ih _ _ _ hc.2 hl
    | none =>
      cases i with
      | jcc q l =>
        simp only [run]
        refine ih _ _ _ hc.2 ?_
        split
        · cases l <;> first | (simp [Ins.noSlow] at hc; done) | simp
        · simp
      | _ => exact ih _ _ _ hc.2 (by simp)

/-- Code that is skipped on the way to the slow path. -/
theorem run_slow (e : Env) : ∀ (c : List Ins) (s : St), c.all Ins.noSlow = true →
    run e c (some .slow) s = .slow s := by
  intro c
  induction c with
  | nil => intro s _; rfl
  | cons i c ih =>
    intro s hc
    rw [List.all_cons, Bool.and_eq_true] at hc
    simp only [run]
    rw [if_neg (fun h => by rw [h] at hc; simp [Ins.noSlow] at hc)]
    exact ih s hc.2

/-- The fast path: to the slow path with the shadow unchanged exactly if some check fails. -/
theorem fast_slow (I : App1) (e : Env) (s : St) (h : Ok I) (hw : s.wild = false) :
    (¬Clear I e s → ∃ s', run e (fastpath I) none s = .slow s' ∧ Same s s') ∧
    (Clear I e s → ∀ s', run e (fastpath I) none s ≠ .slow s') := by
  obtain ⟨p1, p2⟩ := stage_pre I e s h s ⟨rfl, rfl, rfl, hw⟩
  rw [fastpath_eq]
  constructor
  · intro hc
    obtain ⟨s2, hg, hs⟩ := p2 hc
    refine ⟨s2, ?_, hs⟩
    rw [hg]
    exact run_slow e _ _ (noSlow_propagate I)
  · intro hc s'
    obtain ⟨s2, hg, _⟩ := p1 hc
    rw [hg]
    exact run_noSlow e _ _ _ _ (noSlow_propagate I) (by simp)

/-- The fast path: the result if no check fails. -/
theorem fast_done (I : App1) (e : Env) (s : St) (h : Ok I) (hsc : Scope I e) (hw : s.wild = false)
    (hc : Clear I e s) : ∃ s' w, run e (fastpath I) none s = .done s' ∧
      Wrote I s s' (setOpt (setOpt s.slots I.d0r w I.dstSz) I.d1 w I.dstSz)
        (if I.store then setMem s.mem (e.xl e.addr) (put (s.cellOf e) w e.off.toNat I.dstSz) else s.mem)
        true w I.opsz ∧ ∀ k < I.opsz, dig w k = want I e s k := by
  obtain ⟨p1, _⟩ := stage_pre I e s h s ⟨rfl, rfl, rfl, hw⟩
  obtain ⟨s2, hg, hs⟩ := p1 hc
  obtain ⟨w, hd, hk⟩ := done_clear I e s s2 h hsc hc hs
  refine ⟨(exe e (propagate I) none s2).2, w, ?_, ?_, hk⟩
  · rw [fastpath_eq, hg]
    have := goes_exe e (propagate I) s2 hd.1 []
    rw [List.append_nil] at this
    rw [this, run]
  · have hw := hd.2
    exact ⟨hw.slots, hw.mem, hw.wild, hw.fl, fun hn => (hw.nofl hn).trans hs.same.flags⟩

end Verif.FastX86
