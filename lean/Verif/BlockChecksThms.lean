import Verif.BlockChecks

/-!
# C62: what is lost when checks are left out

`C62_elision_partial` compares the block as instrumented with the block in which every check is made: same
reports, same shadow.  `C62_address_partial` and `C62_flags_partial` say the same in terms of
what the user sees.  `C62_no_false_report` holds of every block.  The four hypotheses of `Scope`
are all needed: the last section shows a block for each of them where a use of an undefined value goes
unreported.
-/

namespace Verif.BlockChecks

/-! ## Facts about every instruction -/

/-- What holds of every instruction because of the way operands are decoded. -/
structure Ok (i : Ins) (d : Dyn) : Prop where
  /-- only destinations are written -/
  wrDst : ∀ r ∈ i.wr, some r ∈ i.dsts
  /-- a conditional jump has no operands but the flags, and writes nothing
  (/repo/drmemory/slowpath_x86.c:384: `instr_is_cbr` is always checked) -/
  jccOps : i.jcc = true →
    i.bases = [] ∧ i.wr = [] ∧ i.flagWr = .no ∧ i.cmov = false ∧ i.checks = true ∧
      i.readsFlags = true ∧ (∀ s, d.reports s = []) ∧ (∀ s, d.marks s = [])
  /-- a conditional move does not write the flags -/
  cmovFlags : i.cmov = true → i.flagWr = .no
  /-- flags are propagated only by instructions that do not check
  (/repo/drmemory/fastpath_x86.c:1178-1180) -/
  inlineOk : i.checks = true → i.readsFlags = true → i.inlineFlags = true

/-- The register is a destination that the walk does not notice. -/
def Exempt (i : Ins) (r : Nat) : Prop :=
  i.push = true ∨ (i.pop = true ∧ i.dsts.head? ≠ some (some r))

/-- Where leaving out checks is harmless. -/
structure Scope (i : Ins) (d : Dyn) : Prop where
  /-- an instruction does not load an undefined value into a register of its own address -/
  own : i.fast = true → ∀ r ∈ i.wr, r ∈ i.bases → ∀ s, d.newReg s r = true
  /-- a conditional move from memory does move -/
  moved : i.fast = true → i.cmov = true → i.bases ≠ [] → d.cond = true
  /-- a push or a pop does not write an undefined value to a destination that is not noticed -/
  exempt : ∀ r ∈ i.wr, Exempt i r → ∀ s, d.newReg s r = true
  /-- an instruction without inlined code does not write undefined flags -/
  slowFlags : i.fast = false → i.flagWr ≠ .no → i.checks = false → ∀ s, d.newFlags s = true

/-! ## The walk -/

theorem clearDsts_le (push pop : Bool) : ∀ (ds : List (Option Nat)) (k : Nat) (a : Nat → Bool)
    (r : Nat), clearDsts push pop k ds a r = true → a r = true
  | [], _, _, _, h => by simpa [clearDsts] using h
  | none :: ds, k, a, r, h => clearDsts_le push pop ds (k + 1) a r (by simpa [clearDsts] using h)
  | some q :: ds, k, a, r, h => by
    rw [clearDsts] at h
    have h2 := clearDsts_le push pop ds (k + 1) _ r h
    split at h2
    · unfold upd at h2
      split at h2
      · cases h2
      · exact h2
    · exact h2

theorem clearDsts_tail (push pop : Bool) : ∀ (ds : List (Option Nat)) (k : Nat)
    (a : Nat → Bool) (r : Nat), clearDsts push pop k ds a r = true → some r ∈ ds →
    push = true ∨ (pop = true ∧ (0 < k ∨ ds.head? ≠ some (some r)))
  | [], _, _, _, _, hm => by cases hm
  | none :: ds, k, a, r, h, hm => by
    have hm2 : some r ∈ ds := by simpa using hm
    rcases clearDsts_tail push pop ds (k + 1) a r (by simpa [clearDsts] using h) hm2 with h1 | h1
    · exact Or.inl h1
    · exact Or.inr ⟨h1.1, Or.inr (by simp)⟩
  | some q :: ds, k, a, r, h, hm => by
    rw [clearDsts] at h
    by_cases hq : q = r
    · subst hq
      have h2 := clearDsts_le push pop ds (k + 1) _ q h
      split at h2
      · simp [upd] at h2
      · rename_i hc
        cases hp : push
        · cases hpp : pop
          · simp [hp, hpp] at hc
          · refine Or.inr ⟨rfl, Or.inl ?_⟩
            by_cases hk : 0 < k
            · exact hk
            · simp [hp, hpp, hk] at hc
        · exact Or.inl rfl
    · have hm2 : some r ∈ ds := by
        simp only [List.mem_cons, Option.some.injEq] at hm
        rcases hm with hm | hm
        · exact absurd hm.symm hq
        · exact hm
      rcases clearDsts_tail push pop ds (k + 1) _ r h hm2 with h1 | h1
      · exact Or.inl h1
      · refine Or.inr ⟨h1.1, Or.inr ?_⟩
        simp [hq]

theorem addrChecks_after : ∀ (bs : List Nat) (a : Nat → Bool) (r : Nat),
    (addrChecks bs a).2 r = true ↔ (a r = true ∨ r ∈ bs)
  | [], a, r => by simp [addrChecks]
  | b :: bs, a, r => by
    rw [addrChecks]
    by_cases hb : a b = true
    · rw [if_pos hb, addrChecks_after bs a r]
      by_cases hr : r = b
      · subst hr; simp [hb]
      · simp [hr]
    · rw [if_neg hb]
      show (addrChecks bs (upd a b true)).2 r = true ↔ _
      rw [addrChecks_after bs _ r]
      unfold upd
      by_cases hr : r = b
      · simp [hr]
      · simp [hr]

theorem addrChecks_any (s : Nat → Bool) : ∀ (bs : List Nat) (a : Nat → Bool),
    (∀ r, a r = true → s r = true) →
    (addrChecks bs a).1.any (fun r => !s r) = bs.any (fun r => !s r)
  | [], _, _ => by simp [addrChecks]
  | b :: bs, a, h => by
    rw [addrChecks]
    by_cases hb : a b = true
    · rw [if_pos hb, addrChecks_any s bs a h]
      simp [h b hb]
    · rw [if_neg hb]
      show (b :: (addrChecks bs (upd a b true)).1).any _ = _
      rw [List.any_cons, List.any_cons]
      cases hs : s b
      · simp
      · rw [addrChecks_any s bs]
        intro r hr
        unfold upd at hr
        split at hr
        · rename_i e; rw [e]; exact hs
        · exact h r hr

/-! ## The slow path -/

theorem checkAddrs_keep : ∀ (bs : List Nat) (s : St) (r : Nat),
    s.reg r = true → (checkAddrs bs s).2.reg r = true
  | [], _, _, h => by simpa [checkAddrs] using h
  | b :: bs, s, r, h => by
    rw [checkAddrs]
    by_cases hb : s.reg b = true
    · rw [if_pos hb]; exact checkAddrs_keep bs s r h
    · rw [if_neg hb]
      refine checkAddrs_keep bs _ r ?_
      show upd s.reg b true r = true
      unfold upd; split
      · rfl
      · exact h

theorem checkAddrs_marks : ∀ (bs : List Nat) (s : St) (r : Nat),
    r ∈ bs → (checkAddrs bs s).2.reg r = true
  | [], _, _, h => by cases h
  | b :: bs, s, r, h => by
    rw [checkAddrs]
    by_cases hr : r ∈ bs
    · by_cases hb : s.reg b = true
      · rw [if_pos hb]; exact checkAddrs_marks bs s r hr
      · rw [if_neg hb]; exact checkAddrs_marks bs _ r hr
    · have e : r = b := by simpa [hr] using h
      by_cases hb : s.reg b = true
      · rw [if_pos hb]; exact checkAddrs_keep bs s r (by rw [e]; exact hb)
      · rw [if_neg hb]
        refine checkAddrs_keep bs _ r ?_
        show upd s.reg b true r = true
        simp [upd, e]

theorem checkAddrs_flags : ∀ (bs : List Nat) (s : St), (checkAddrs bs s).2.flags = s.flags
  | [], _ => rfl
  | b :: bs, s => by
    rw [checkAddrs]
    by_cases hb : s.reg b = true
    · rw [if_pos hb]; exact checkAddrs_flags bs s
    · rw [if_neg hb]; exact checkAddrs_flags bs _

theorem checkAddrs_report : ∀ (bs : List Nat) (s : St) (r : Nat),
    Rep.addr r ∈ (checkAddrs bs s).1 ↔ (r ∈ bs ∧ s.reg r = false)
  | [], _, _ => by simp [checkAddrs]
  | b :: bs, s, r => by
    rw [checkAddrs]
    by_cases hb : s.reg b = true
    · rw [if_pos hb, checkAddrs_report bs s r]
      by_cases hr : r = b
      · subst hr; simp [hb]
      · simp [hr]
    · rw [if_neg hb]
      show Rep.addr r ∈ Rep.addr b :: (checkAddrs bs { s with reg := upd s.reg b true }).1 ↔ _
      rw [List.mem_cons, checkAddrs_report bs _ r]
      by_cases hr : r = b
      · subst hr; simpa using hb
      · simp [hr, upd]

theorem checkAddrs_onlyAddr : ∀ (bs : List Nat) (s : St) (x : Rep),
    x ∈ (checkAddrs bs s).1 → ∃ r, x = .addr r
  | [], _, _, h => by simp [checkAddrs] at h
  | b :: bs, s, x, h => by
    rw [checkAddrs] at h
    by_cases hb : s.reg b = true
    · rw [if_pos hb] at h; exact checkAddrs_onlyAddr bs s x h
    · rw [if_neg hb] at h
      have h2 : x ∈ Rep.addr b :: (checkAddrs bs { s with reg := upd s.reg b true }).1 := h
      rcases List.mem_cons.1 h2 with h3 | h3
      · exact ⟨b, h3⟩
      · exact checkAddrs_onlyAddr bs _ x h3

theorem checkFlags_reg (i : Ins) (s : St) : (checkFlags i s).2.reg = s.reg := by
  unfold checkFlags; split <;> rfl

theorem checkFlags_keep (i : Ins) (s : St) (h : s.flags = true) :
    (checkFlags i s).2.flags = true := by
  unfold checkFlags; split
  · rfl
  · exact h

/-- What is remembered is true. -/
def Inv (g : Gen) (s : St) : Prop :=
  (∀ r, g.addressable r = true → s.reg r = true) ∧ (g.eflagsDefined = true → s.flags = true)

theorem inv_init (s : St) : Inv Gen.init s := by
  exact ⟨fun _ h => by simp [Gen.init] at h, fun h => by simp [Gen.init] at h⟩

/-- The table after the loop over the destinations is true of what is written. -/
theorem write_keeps (g : Gen) (i : Ins) (d : Dyn) (ho : Ok i d) (hs : Scope i d)
    (s : St) (r : Nat) (ha : clearDsts i.push i.pop 0 i.dsts g.addressable r = true)
    (hr : s.reg r = true) : (write i d s).reg r = true := by
  show (if r ∈ i.wr then d.newReg s r else s.reg r) = true
  split
  · rename_i hw
    refine hs.exempt r hw ?_ s
    rcases clearDsts_tail _ _ _ _ _ _ ha (ho.wrDst r hw) with h | h
    · exact Or.inl h
    · refine Or.inr ⟨h.1, ?_⟩
      rcases h.2 with h2 | h2
      · omega
      · exact h2
  · exact hr

theorem write_own (i : Ins) (d : Dyn) (hs : Scope i d) (hf : i.fast = true)
    (s : St) (r : Nat) (hb : r ∈ i.bases) (hr : s.reg r = true) :
    (write i d s).reg r = true := by
  show (if r ∈ i.wr then d.newReg s r else s.reg r) = true
  split
  · rename_i hw; exact hs.own hf r hw hb s
  · exact hr

theorem write_flags (i : Ins) (d : Dyn) (s : St) :
    (write i d s).flags =
      if i.flagWr = .no then s.flags else if i.checks then true else d.newFlags s := rfl

theorem flagsAfter_true (i : Ins) (b : Bool) (h : flagsAfter i b = true) :
    (i.checks = true ∧ i.flagWr = .all) ∨ (i.flagWr = .no ∧ b = true) := by
  unfold flagsAfter at h
  cases hc : i.checks <;> cases hw : i.flagWr <;> simp_all

theorem write_flags_fast (i : Ins) (d : Dyn) (s : St) (b : Bool)
    (h : flagsAfter i b = true) (hk : b = true → s.flags = true) :
    (write i d s).flags = true := by
  rw [write_flags]
  rcases flagsAfter_true i b h with h1 | h1
  · simp [h1.1, h1.2]
  · simp [h1.1, hk h1.2]

/-- The state after the checks of the slow path, before the operands are written. -/
theorem slow_move (i : Ins) (d : Dyn) (s : St) (h : (i.cmov && !d.cond) = false) :
    ∃ t, (slow i d s).2 = write i d t ∧ (∀ r, s.reg r = true → t.reg r = true) ∧
      (∀ r ∈ i.bases, t.reg r = true) ∧ (s.flags = true → t.flags = true) := by
  refine ⟨mark (d.marks (checkFlags i (checkAddrs i.bases s).2).2)
    (checkFlags i (checkAddrs i.bases s).2).2, ?_, ?_, ?_, ?_⟩
  · simp only [slow, h]; rfl
  · intro r hr
    show (if r ∈ _ then true else (checkFlags i (checkAddrs i.bases s).2).2.reg r) = true
    split
    · rfl
    · rw [checkFlags_reg]; exact checkAddrs_keep _ _ _ hr
  · intro r hr
    show (if r ∈ _ then true else (checkFlags i (checkAddrs i.bases s).2).2.reg r) = true
    split
    · rfl
    · rw [checkFlags_reg]; exact checkAddrs_marks _ _ _ hr
  · intro hf
    show (checkFlags i (checkAddrs i.bases s).2).2.flags = true
    exact checkFlags_keep _ _ (by rw [checkAddrs_flags]; exact hf)

theorem slow_still (i : Ins) (d : Dyn) (s : St) (h : (i.cmov && !d.cond) = true) :
    slow i d s = checkFlags i s := by
  simp only [slow, h]; rfl

/-- A step with all checks keeps the flags and registers that stay known. -/
theorem fast_inv (g : Gen) (i : Ins) (d : Dyn) (ho : Ok i d) (hs : Scope i d)
    (hf : i.fast = true) (s : St) (hi : Inv g s) (c : Code)
    (hc : c.present = true) (hcf : c.fast = true)
    (hcr : ∀ r ∈ i.bases, c.checkRegs.any (fun r => !s.reg r) = false → s.reg r = true) :
    Inv { addressable := (addrChecks i.bases (clearDsts i.push i.pop 0 i.dsts g.addressable)).2,
          eflagsDefined := flagsAfter i g.eflagsDefined } (exec c i d s).2 := by
  have hle : ∀ r, clearDsts i.push i.pop 0 i.dsts g.addressable r = true → s.reg r = true :=
    fun r h => hi.1 r (clearDsts_le _ _ _ _ _ _ h)
  -- a conditional move that does not move
  have still : ∀ t : St, t.reg = s.reg → (s.flags = true → t.flags = true) →
      (i.cmov && !d.cond) = true →
      Inv { addressable :=
              (addrChecks i.bases (clearDsts i.push i.pop 0 i.dsts g.addressable)).2,
            eflagsDefined := flagsAfter i g.eflagsDefined } t := by
    intro t ht hfl hcm
    have hcm1 : i.cmov = true := by
      cases h : i.cmov
      · simp [h] at hcm
      · rfl
    have hcm2 : d.cond = false := by
      cases h : d.cond
      · rfl
      · simp [h] at hcm
    have hb : i.bases = [] := by
      by_cases hb : i.bases = []
      · exact hb
      · have := hs.moved hf hcm1 hb
        rw [hcm2] at this; cases this
    constructor
    · intro r hr
      rcases (addrChecks_after _ _ _).1 hr with h | h
      · rw [ht]; exact hle r h
      · rw [hb] at h; cases h
    · intro h
      rcases flagsAfter_true _ _ h with h1 | h1
      · rw [ho.cmovFlags hcm1] at h1; cases h1.2
      · exact hfl (hi.2 h1.2)
  -- an instruction that writes its operands
  have move : ∀ t : St, (∀ r, s.reg r = true → t.reg r = true) →
      (∀ r ∈ i.bases, t.reg r = true) → (s.flags = true → t.flags = true) →
      Inv { addressable :=
              (addrChecks i.bases (clearDsts i.push i.pop 0 i.dsts g.addressable)).2,
            eflagsDefined := flagsAfter i g.eflagsDefined } (write i d t) := by
    intro t h1 h2 h3
    constructor
    · intro r hr
      rcases (addrChecks_after _ _ _).1 hr with h | h
      · exact write_keeps g i d ho hs t r h (h1 r (hle r h))
      · exact write_own i d hs hf t r h (h2 r h)
    · intro h
      exact write_flags_fast i d t _ h (fun hb => h3 (hi.2 hb))
  have sl : Inv
          { addressable :=
              (addrChecks i.bases (clearDsts i.push i.pop 0 i.dsts g.addressable)).2,
            eflagsDefined := flagsAfter i g.eflagsDefined } (slow i d s).2 := by
    cases hcm : (i.cmov && !d.cond)
    · rcases slow_move i d s hcm with ⟨t, e, h1, h2, h3⟩
      rw [e]; exact move t h1 h2 h3
    · rw [slow_still i d s hcm]
      exact still _ (checkFlags_reg i s) (checkFlags_keep i s) hcm
  unfold exec
  simp only [hc, hcf, Bool.not_true, Bool.false_eq_true, if_false]
  split
  · exact sl
  · split
    · rename_i hcm; exact still s rfl (fun h => h) hcm
    · split
      · exact sl
      · rename_i hany
        split
        · exact sl
        · refine move s (fun _ h => h) (fun r hr => hcr r hr ?_) (fun h => h)
          cases h : c.checkRegs.any (fun r => !s.reg r)
          · rfl
          · exact absurd h hany

theorem step (g : Gen) (i : Ins) (d : Dyn) (ho : Ok i d) (hs : Scope i d) (s : St)
    (hi : Inv g s) :
    exec (gen g i).1 i d s = exec (genAll i) i d s ∧
      Inv (gen g i).2 (exec (genAll i) i d s).2 := by
  have hle : ∀ r, clearDsts i.push i.pop 0 i.dsts g.addressable r = true → s.reg r = true :=
    fun r h => hi.1 r (clearDsts_le _ _ _ _ _ _ h)
  by_cases hj : (g.eflagsDefined && i.jcc) = true
  · -- the jump that is left alone
    have hg : g.eflagsDefined = true ∧ i.jcc = true := by simpa using hj
    have hfl := hi.2 hg.1
    obtain ⟨hb, hw, hfw, hcm, hck, hrd, hrep, hmk⟩ := ho.jccOps hg.2
    have hws : ∀ t : St, write i d t = t := by
      intro t; unfold write; simp [hw, hfw]
    have hcf : checkFlags i s = ([], s) := by simp [checkFlags, hfl]
    have hsl : slow i d s = ([], s) := by
      simp [slow, hcm, hb, checkAddrs, hcf, hrep, hmk, hws, mark]
    have e : exec (genAll i) i d s = ([], s) := by
      unfold exec genAll
      simp only [hsl, hws]
      simp [hfl, hcm]
    have e2 : exec (gen g i).1 i d s = ([], s) := by
      simp [gen, hj, exec]
    rw [e, e2]
    refine ⟨rfl, ?_, ?_⟩
    · intro r hr
      have : clearDsts i.push i.pop 0 i.dsts g.addressable r = true := by
        simpa [gen, hj] using hr
      exact hle r this
    · intro _; exact hfl
  · by_cases hf : i.fast = true
    · have eg : gen g i =
          ({ present := true, fast := true, checkFlags := i.readsFlags && i.inlineFlags,
             checkRegs := (addrChecks i.bases
               (clearDsts i.push i.pop 0 i.dsts g.addressable)).1 },
           { addressable := (addrChecks i.bases
               (clearDsts i.push i.pop 0 i.dsts g.addressable)).2,
             eflagsDefined := flagsAfter i g.eflagsDefined }) := by
        unfold gen; rw [if_neg hj, if_pos hf]
      rw [eg]
      constructor
      · unfold exec genAll
        simp only [hf, addrChecks_any s.reg i.bases _ hle]
      · refine fast_inv g i d ho hs hf s hi (genAll i) rfl hf ?_
        intro r hr h
        have h2 : i.bases.any (fun r => !s.reg r) = false := h
        cases hv : s.reg r
        · have : i.bases.any (fun r => !s.reg r) = true :=
            List.any_eq_true.2 ⟨r, hr, by simp [hv]⟩
          rw [this] at h2; cases h2
        · rfl
    · have hf2 : i.fast = false := by simpa using hf
      have eg : gen g i =
          ({ present := true, fast := false, checkFlags := false, checkRegs := [] },
           { g with addressable := clearDsts i.push i.pop 0 i.dsts g.addressable }) := by
        unfold gen; rw [if_neg hj, if_neg hf]
      have e : exec (genAll i) i d s = slow i d s := by simp [exec, genAll, hf2]
      rw [eg, e]
      refine ⟨by simp [exec], ?_⟩
      cases hcm : (i.cmov && !d.cond)
      · rcases slow_move i d s hcm with ⟨t, e2, h1, _, h3⟩
        rw [e2]
        refine ⟨fun r hr => write_keeps g i d ho hs t r hr (h1 r (hle r hr)), ?_⟩
        intro hd
        have ht := h3 (hi.2 hd)
        rw [write_flags]
        by_cases hw : i.flagWr = .no
        · rw [if_pos hw]; exact ht
        · rw [if_neg hw]
          cases hc : i.checks
          · simpa using hs.slowFlags hf2 hw hc t
          · rfl
      · rw [slow_still i d s hcm]
        refine ⟨fun r hr => ?_, fun hd => checkFlags_keep i s (hi.2 hd)⟩
        rw [checkFlags_reg]; exact hle r hr

theorem run_eq : ∀ (blk : List (Ins × Dyn)) (g : Gen) (s : St),
    (∀ p ∈ blk, Ok p.1 p.2 ∧ Scope p.1 p.2) → Inv g s → run g blk s = runAll blk s
  | [], _, _, _, _ => rfl
  | (i, d) :: rest, g, s, h, hi => by
    have h0 := h (i, d) (by simp)
    obtain ⟨e, hi2⟩ := step g i d h0.1 h0.2 s hi
    rw [run, runAll]
    rw [e, run_eq rest _ _ (fun p hp => h p (List.mem_cons_of_mem _ hp)) hi2]

/-- **C62.**  In a block within `Scope` the checks that are left out are not missed: the run makes exactly
the reports of the run in which every check is made, instruction by instruction, and leaves the
same shadow.  Not proved without `Scope`, because it is false there (below). -/
theorem C62_elision_partial (blk : List (Ins × Dyn)) (s : St)
    (h : ∀ p ∈ blk, Ok p.1 p.2 ∧ Scope p.1 p.2) :
    run Gen.init blk s = runAll blk s :=
  run_eq blk Gen.init s h (inv_init s)

/-! ## In terms of what the user sees -/

theorem exec_all_addr (i : Ins) (d : Dyn) (s : St) (hm : (i.cmov && !d.cond) = false)
    (r : Nat) (hr : r ∈ i.bases) (hu : s.reg r = false) :
    Rep.addr r ∈ (exec (genAll i) i d s).1 := by
  have hsl : Rep.addr r ∈ (slow i d s).1 := by
    simp only [slow, hm, Bool.false_eq_true, if_false]
    simp only [List.mem_append]
    exact Or.inl (Or.inl ((checkAddrs_report _ _ _).2 ⟨hr, hu⟩))
  have hany : i.bases.any (fun r => !s.reg r) = true :=
    List.any_eq_true.2 ⟨r, hr, by simp [hu]⟩
  unfold exec genAll
  simp only [hm, hany]
  cases i.fast
  · simpa using hsl
  · simp only [Bool.not_true, Bool.false_eq_true, if_false, if_true]
    split <;> exact hsl

theorem exec_all_flags (i : Ins) (d : Dyn) (ho : Ok i d) (s : St)
    (hr : i.readsFlags = true) (hc : i.checks = true) (hu : s.flags = false) :
    Rep.flags ∈ (exec (genAll i) i d s).1 := by
  have hcf : ∀ t : St, t.flags = false → Rep.flags ∈ (checkFlags i t).1 := by
    intro t ht; simp [checkFlags, hr, hc, ht]
  have hsl : Rep.flags ∈ (slow i d s).1 := by
    cases hm : (i.cmov && !d.cond)
    · simp only [slow, hm, Bool.false_eq_true, if_false]
      simp only [List.mem_append]
      exact Or.inl (Or.inr (hcf _ (by rw [checkAddrs_flags]; exact hu)))
    · rw [slow_still i d s hm]; exact hcf s hu
  unfold exec genAll
  simp only [hr, ho.inlineOk hc hr, hu]
  cases i.fast
  · simpa using hsl
  · simpa using hsl

theorem runAll_at : ∀ (blk : List (Ins × Dyn)) (s : St) (k : Nat) (i : Ins) (d : Dyn)
    (t : St) (reps : List Rep), blk[k]? = some (i, d) → (runAll blk s).1[k]? = some (t, reps) →
    reps = (exec (genAll i) i d t).1
  | [], _, _, _, _, _, _, h, _ => by simp at h
  | (i0, d0) :: rest, s, 0, i, d, t, reps, h, h2 => by
    simp only [List.getElem?_cons_zero, Option.some.injEq, Prod.mk.injEq] at h
    rw [runAll] at h2
    simp only [List.getElem?_cons_zero, Option.some.injEq, Prod.mk.injEq] at h2
    rw [← h2.2, ← h2.1, h.1, h.2]
  | (i0, d0) :: rest, s, k + 1, i, d, t, reps, h, h2 => by
    simp only [List.getElem?_cons_succ] at h
    rw [runAll] at h2
    simp only [List.getElem?_cons_succ] at h2
    exact runAll_at rest _ k i d t reps h h2

/-- **C62.**  When an instruction of the block goes to memory and a register of the address is undefined at
that moment, the instruction reports it. -/
theorem C62_address_partial (blk : List (Ins × Dyn)) (s : St)
    (h : ∀ p ∈ blk, Ok p.1 p.2 ∧ Scope p.1 p.2)
    (k : Nat) (i : Ins) (d : Dyn) (t : St) (reps : List Rep)
    (hk : blk[k]? = some (i, d)) (ht : (run Gen.init blk s).1[k]? = some (t, reps))
    (hacc : ¬(i.cmov = true ∧ d.cond = false))
    (r : Nat) (hr : r ∈ i.bases) (hu : t.reg r = false) :
    Rep.addr r ∈ reps := by
  rw [C62_elision_partial blk s h] at ht
  rw [runAll_at blk s k i d t reps hk ht]
  refine exec_all_addr i d t ?_ r hr hu
  cases h1 : i.cmov
  · simp
  · cases h2 : d.cond
    · exact absurd ⟨h1, h2⟩ hacc
    · simp

/-- **C62.**  When an instruction that checks what it reads (every conditional jump does) reads undefined flags, it
reports them, whether it is instrumented or not. -/
theorem C62_flags_partial (blk : List (Ins × Dyn)) (s : St)
    (h : ∀ p ∈ blk, Ok p.1 p.2 ∧ Scope p.1 p.2)
    (k : Nat) (i : Ins) (d : Dyn) (t : St) (reps : List Rep)
    (hk : blk[k]? = some (i, d)) (ht : (run Gen.init blk s).1[k]? = some (t, reps))
    (hr : i.readsFlags = true) (hc : i.checks = true) (hu : t.flags = false) :
    Rep.flags ∈ reps := by
  rw [C62_elision_partial blk s h] at ht
  rw [runAll_at blk s k i d t reps hk ht]
  exact exec_all_flags i d (h (i, d) (List.mem_of_getElem? hk)).1 t hr hc hu

/-! ## Nothing is reported without cause: every block -/

theorem slow_report (i : Ins) (d : Dyn) (s : St) :
    (∀ r, Rep.addr r ∈ (slow i d s).1 → r ∈ i.bases ∧ s.reg r = false) ∧
      (Rep.flags ∈ (slow i d s).1 → i.readsFlags = true ∧ s.flags = false) := by
  have hcfa : ∀ (t : St) r, Rep.addr r ∉ (checkFlags i t).1 := by
    intro t r; unfold checkFlags; split <;> simp
  have hcff : ∀ (t : St), Rep.flags ∈ (checkFlags i t).1 →
      i.readsFlags = true ∧ t.flags = false := by
    intro t; unfold checkFlags; split
    · rename_i h; intro _; simp at h; exact ⟨h.1.1, h.2⟩
    · intro h; simp at h
  cases hm : (i.cmov && !d.cond)
  · simp only [slow, hm, Bool.false_eq_true, if_false, List.mem_append]
    constructor
    · intro r h
      rcases h with (h | h) | h
      · exact (checkAddrs_report _ _ _).1 h
      · exact absurd h (hcfa _ r)
      · simp at h
    · intro h
      rcases h with (h | h) | h
      · rcases checkAddrs_onlyAddr _ _ _ h with ⟨r, e⟩; cases e
      · have := hcff _ h
        rw [checkAddrs_flags] at this; exact this
      · simp at h
  · rw [slow_still i d s hm]
    exact ⟨fun r h => absurd h (hcfa _ r), hcff s⟩

theorem exec_report (c : Code) (i : Ins) (d : Dyn) (s : St) :
    (∀ r, Rep.addr r ∈ (exec c i d s).1 → r ∈ i.bases ∧ s.reg r = false) ∧
      (Rep.flags ∈ (exec c i d s).1 → i.readsFlags = true ∧ s.flags = false) := by
  have hsl := slow_report i d s
  unfold exec
  repeat' split
  all_goals first
    | exact hsl
    | exact ⟨fun r h => by simp at h, fun h => by simp at h⟩

/-- **C62.**  In every block, whatever is left out: a report of an address register is made only
by an instruction that uses the register in an address while it is undefined, and a report of
the flags only by one that reads them while they are undefined. -/
theorem C62_no_false_report : ∀ (blk : List (Ins × Dyn)) (g : Gen) (s : St)
    (k : Nat) (i : Ins) (d : Dyn) (t : St) (reps : List Rep),
    blk[k]? = some (i, d) → (run g blk s).1[k]? = some (t, reps) →
    (∀ r, Rep.addr r ∈ reps → r ∈ i.bases ∧ t.reg r = false) ∧
      (Rep.flags ∈ reps → i.readsFlags = true ∧ t.flags = false)
  | [], _, _, _, _, _, _, _, h, _ => by simp at h
  | (i0, d0) :: rest, g, s, 0, i, d, t, reps, h, h2 => by
    simp only [List.getElem?_cons_zero, Option.some.injEq, Prod.mk.injEq] at h
    rw [run] at h2
    simp only [List.getElem?_cons_zero, Option.some.injEq, Prod.mk.injEq] at h2
    rw [← h2.2, ← h2.1, ← h.1]
    exact exec_report _ _ _ _
  | (i0, d0) :: rest, g, s, k + 1, i, d, t, reps, h, h2 => by
    simp only [List.getElem?_cons_succ] at h
    rw [run] at h2
    simp only [List.getElem?_cons_succ] at h2
    exact C62_no_false_report rest _ _ k i d t reps h h2

/-! ## Blocks -/

/-- An ordinary instruction with inlined code, to be filled in. -/
def plain : Ins :=
  { dsts := [], push := false, pop := false, fast := true, bases := [], cmov := false,
    jcc := false, checks := false, readsFlags := false, inlineFlags := true, flagWr := .no,
    wr := [] }

/-- `mov (%b),%r` -/
def load (b r : Nat) : Ins := { plain with dsts := [some r], bases := [b], wr := [r] }

/-- `cmp` or `test` of defined or reported operands (`instr_check_definedness`). -/
def cmp : Ins := { plain with checks := true, flagWr := .all }

/-- A conditional jump. -/
def jz : Ins := { plain with jcc := true, checks := true, readsFlags := true }

/-- `cmovz (%b),%r` -/
def cmovz (b r : Nat) : Ins :=
  { plain with dsts := [some r], bases := [b], wr := [r], cmov := true, checks := true,
               readsFlags := true }

/-- `shrb $1,(%b)`: writes flags and has no inlined code
(/repo/drmemory/fastpath_x86.c:728-735). -/
def shrb (b : Nat) : Ins := { plain with fast := false, bases := [b], flagWr := .all, dsts := [none] }

/-- `popa`: the stack pointer and seven more destinations, of which two are shown here. -/
def popa : Ins :=
  { plain with dsts := [some 4, some 0, some 3], pop := true, fast := false, bases := [4],
               wr := [0, 3] }

/-- Everything an execution yields is defined. -/
def good : Dyn :=
  { cond := true, other := fun _ => false, reports := fun _ => [], marks := fun _ => [],
    newReg := fun _ _ => true, newFlags := fun _ => true }

/-- The value loaded, or the flags computed, are undefined. -/
def bad : Dyn := { good with newReg := fun _ _ => false, newFlags := fun _ => false }

/-- All registers and the flags are defined. -/
def allDef : St := { reg := fun _ => true, flags := true }

/-- A block in scope: two loads through an undefined `%ebx` (3), the second without a check, the
first of them loading an undefined value; then a comparison and a jump without a check. -/
def blkOk : List (Ins × Dyn) :=
  [(load 3 0, bad), (load 3 1, good), (cmp, good), (jz, good)]

theorem blkOk_ok : ∀ p ∈ blkOk, Ok p.1 p.2 ∧ Scope p.1 p.2 := by
  intro p hp
  simp only [blkOk, List.mem_cons, List.not_mem_nil, or_false] at hp
  rcases hp with h | h | h | h <;> subst h <;> constructor <;> constructor <;>
    simp [load, cmp, jz, plain, good, bad, Exempt]

/-- The second load has no comparison and the jump no instrumentation; the first load reports. -/
example : (gen (gen Gen.init (load 3 0)).2 (load 3 1)).1.checkRegs = [] ∧
    (gen (gen Gen.init cmp).2 jz).1.present = false ∧
    (run Gen.init blkOk { allDef with reg := fun r => decide (r ≠ 3) }).1.map (·.2) =
      [[Rep.addr 3], [], [], []] := by decide

example : run Gen.init blkOk { allDef with reg := fun r => decide (r ≠ 3) } =
    runAll blkOk { allDef with reg := fun r => decide (r ≠ 3) } :=
  C62_elision_partial _ _ blkOk_ok

/-- The reports of a run, instruction by instruction. -/
def said (p : List (St × List Rep) × St) : List (List Rep) := p.1.map (·.2)

/-- **C62, disagreement.**  `mov (%eax),%eax; mov (%eax),%ecx` where the first load yields an
undefined value: the second load goes through an undefined pointer and says nothing.  The
destination is forgotten *before* the check of the same instruction is remembered
(/repo/drmemory/instru.c:1219 against /repo/drmemory/fastpath_x86.c:1895). -/
theorem C62_own_address :
    said (run Gen.init [(load 0 0, bad), (load 0 1, good)] allDef) = [[], []] ∧
      said (runAll [(load 0 0, bad), (load 0 1, good)] allDef) = [[], [.addr 0]] := by decide

/-- **C62, disagreement.**  `cmovz (%ebx),%eax; mov (%ebx),%ecx` with an undefined `%ebx` and
a condition that does not hold: the check is jumped over
(/repo/drmemory/fastpath_x86.c:3372-3385) and still counts as made. -/
theorem C62_cmov :
    said (run Gen.init [(cmovz 3 0, { good with cond := false }), (load 3 1, good)]
        { allDef with reg := fun r => decide (r ≠ 3) }) = [[], []] ∧
      said (runAll [(cmovz 3 0, { good with cond := false }), (load 3 1, good)]
        { allDef with reg := fun r => decide (r ≠ 3) }) = [[], [.addr 3]] := by decide

/-- **C62, disagreement.**  `mov (%eax),%ecx; popa; mov (%eax),%ecx` where `popa` loads an
undefined `%eax`: only the first destination of a pop is forgotten, which here is the stack
pointer. -/
theorem C62_popa :
    said (run Gen.init [(load 0 1, good), (popa, bad), (load 0 1, good)] allDef) =
        [[], [], []] ∧
      said (runAll [(load 0 1, good), (popa, bad), (load 0 1, good)] allDef) =
        [[], [], [.addr 0]] := by decide

/-- **C62, disagreement.**  `cmp; shrb $1,(%ebx); jz` where the shifted byte is undefined: an
instruction without inlined code does not take back that the flags are defined, and the jump
depends on undefined flags in silence. -/
theorem C62_slow_flags :
    said (run Gen.init [(cmp, good), (shrb 3, bad), (jz, good)] allDef) = [[], [], []] ∧
      said (runAll [(cmp, good), (shrb 3, bad), (jz, good)] allDef) = [[], [], [.flags]] := by
  decide

/-- All the witnesses are instructions as decoded: only `Scope` fails. -/
theorem C62_witness_ok :
    Ok (load 0 0) bad ∧ Ok (load 0 1) good ∧ Ok (cmovz 3 0) { good with cond := false } ∧
      Ok popa bad ∧ Ok cmp good ∧ Ok (shrb 3) bad ∧ Ok jz good := by
  refine ⟨?_, ?_, ?_, ?_, ?_, ?_, ?_⟩ <;> constructor <;>
    simp [load, cmp, jz, plain, good, bad, cmovz, popa, shrb]

end Verif.BlockChecks
