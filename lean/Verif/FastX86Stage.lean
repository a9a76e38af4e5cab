import Verif.FastX86Checks

/-! The emitted code up to the propagation: it goes to the slow path exactly when a check fails. -/

namespace Verif.FastX86

/-- The instructions that the theorems are about, as `opnd_ok_for_fastpath` and the decoder produce
them: operands of 1, 2 or 4 bytes, all of the same size except for movzx and movsx; ah, bh, ch and
dh have one byte; sources and destinations are filled from the front with memory first; a shift by a
constant has one operand, source and destination; an instruction that reads flags has an operand. -/
structure Ok (I : App1) : Prop where
  ss : I.srcSz = 1 ∨ I.srcSz = 2 ∨ I.srcSz = 4
  ds : I.dstSz = 1 ∨ I.dstSz = 2 ∨ I.dstSz = 4
  plain : I.ext = false → I.srcSz = I.dstSz
  ext : I.ext = true → I.srcSz < I.dstSz ∧ I.s0.isSome = true ∧ I.s1 = none ∧ I.s2 = none ∧
    I.d0.isSome = true ∧ I.d0 ≠ some .mem ∧ I.d1 = none ∧ I.rf = false ∧ I.wf = false ∧
    I.andor = false
  h0 : ∀ g, I.s0 = some (.reg g true) → I.srcSz = 1
  h1 : ∀ g, I.s1 = some (.reg g true) → I.srcSz = 1
  h2 : ∀ g, I.s2 = some (.reg g true) → I.srcSz = 1
  hd : ∀ g, I.d0 = some (.reg g true) → I.dstSz = 1
  hd1 : ∀ g, I.d1 = some (g, true) → I.dstSz = 1
  s10 : I.s1.isSome = true → I.s0.isSome = true
  s21 : I.s2.isSome = true → I.s1.isSome = true
  m1 : I.s1 ≠ some .mem
  m2 : I.s2 ≠ some .mem
  d10 : I.d1.isSome = true → I.d0.isSome = true ∧ I.d0 ≠ some .mem
  flags : I.rf = true → I.s0.isSome = true ∨ I.d0.isSome = true
  shift : I.op.shadowOp = true → I.s0.isSome = true ∧ I.d0 = I.s0 ∧ I.s1 = none ∧ I.d1 = none ∧
    I.rf = false ∧ I.andor = false

/-- A piece of code that goes to the slow path exactly if `P` is false, without changing any
shadow; `A` holds before and `B` after it. -/
def Stage (e : Env) (s : St) (c : List Ins) (P : Prop) (A B : St → Prop) : Prop :=
  ∀ s1, A s1 → (P → ∃ s2, Goes e c s1 none s2 ∧ B s2) ∧
    (¬P → ∃ s2, Goes e c s1 (some .slow) s2 ∧ Same s s2)

theorem Stage.append' {e : Env} {s : St} {c d : List Ins} {P Q : Prop} {A B C : St → Prop}
    (h : Stage e s c P A B) (h2 : P → Stage e s d Q B C) (hd : Ins.label .slow ∉ d) :
    Stage e s (c ++ d) (P ∧ Q) A C := by
  intro s1 hA
  obtain ⟨hp, hn⟩ := h s1 hA
  refine ⟨fun ⟨p, q⟩ => ?_, fun hnot => ?_⟩
  · obtain ⟨s2, g, hB⟩ := hp p
    obtain ⟨s3, g3, hC⟩ := (h2 p s2 hB).1 q
    exact ⟨s3, g.append g3, hC⟩
  · by_cases p : P
    · obtain ⟨s2, g, hB⟩ := hp p
      obtain ⟨s3, g3, hC⟩ := (h2 p s2 hB).2 (fun q => hnot ⟨p, q⟩)
      exact ⟨s3, g.append g3, hC⟩
    · obtain ⟨s2, g, hS⟩ := hn p
      exact ⟨s2, g.skip hd, hS⟩

theorem Stage.append {e : Env} {s : St} {c d : List Ins} {P Q : Prop} {A B C : St → Prop}
    (h : Stage e s c P A B) (h2 : Stage e s d Q B C) (hd : Ins.label .slow ∉ d) :
    Stage e s (c ++ d) (P ∧ Q) A C := h.append' (fun _ => h2) hd

theorem Stage.mono {e : Env} {s : St} {c : List Ins} {P Q : Prop} {A B A' B' : St → Prop}
    (h : Stage e s c P A B) (hA : ∀ x, A' x → A x) (hB : ∀ x, B x → B' x) (hP : P ↔ Q) :
    Stage e s c Q A' B' := by
  intro s1 a
  obtain ⟨x, y⟩ := h s1 (hA _ a)
  refine ⟨fun q => ?_, fun q => y (fun p => q (hP.1 p))⟩
  obtain ⟨s2, g, b⟩ := x (hP.2 q)
  exact ⟨s2, g, hB _ b⟩

/-- Nothing to do. -/
theorem Stage.nil {e : Env} {s : St} {P : Prop} {A B : St → Prop} (h : ∀ x, A x → B x) (hp : P) :
    Stage e s [] P A B :=
  fun s1 a => ⟨fun _ => ⟨s1, Goes.nil e s1, h _ a⟩, fun hn => absurd hp hn⟩

/-- A check followed by a jump to the slow path. -/
theorem Stage.check {e : Env} {s : St} {c : List Ins} {P : Prop} [Decidable P] {A B : St → Prop}
    (h : ∀ s1, A s1 → ∃ s2, Goes e c s1 none s2 ∧ B s2 ∧ s2.zf = decide P)
    (hs : ∀ x, B x → Same s x) : Stage e s (c ++ [.jcc false .slow]) P A B := by
  intro s1 a
  obtain ⟨s2, g, b, z⟩ := h s1 a
  have gj := g.append (goes_jcc e false .slow s2)
  rw [z] at gj
  refine ⟨fun p => ⟨s2, ?_, b⟩, fun p => ⟨s2, ?_, hs _ b⟩⟩
  · simpa [p] using gj
  · simpa [p] using gj

/-- The application instruction has a memory operand. -/
def App1.hasMem (I : App1) : Bool := I.load || I.store

theorem Ok.cfg {I : App1} (h : Ok I) (hm : I.hasMem = true) : MemCfg I := by
  have hx : I.load = true → I.store = false := by
    unfold App1.load; cases I.store <;> simp
  have hext := h.ext
  have hdm : I.store = true → I.d0.isSome = true ∧ I.ext = false := by
    intro hst
    have : I.d0 = some .mem := by simpa [App1.store] using hst
    refine ⟨by simp [this], ?_⟩
    cases he : I.ext
    · rfl
    · exact absurd this (hext he).2.2.2.2.2.1
  have hs0 : I.load = true → I.s0.isSome = true := by
    intro hl
    have : I.s0 = some .mem := by
      simp only [App1.load, Bool.and_eq_true, beq_iff_eq] at hl; exact hl.1
    simp [this]
  have hpl := h.plain
  constructor
  · have hss := h.ss
    have hds := h.ds
    unfold App1.memsz
    split
    · exact hds
    · split
      · exact hss
      · simp_all [App1.hasMem]
  · simpa [App1.hasMem] using hm
  · exact hx
  · -- needOffs → zeroRest
    intro hn
    have hm' : (I.load || I.store) = true := hm
    have hlt : I.memsz < 4 := by
      unfold App1.needOffs at hn
      rcases Bool.or_eq_true _ _ |>.mp hn with he | hr
      · have hext4 := he
        unfold App1.ext4 at hext4
        simp only [Bool.and_eq_true, Bool.or_eq_true, beq_iff_eq] at hext4
        have hst : I.store = false := by
          cases hst : I.store
          · rfl
          · have := (hdm hst).2; simp_all
        have hl : I.load = true := by simpa [hst] using hm'
        have : I.srcOpsz0 = I.srcSz := by simp [App1.srcOpsz0, hs0 hl]
        unfold App1.memsz
        simp only [hst, hl, if_true]
        simp
        omega
      · simp only [Bool.and_eq_true, decide_eq_true_eq] at hr
        exact hr.2.1
    simp [App1.zeroRest, hm', hn, hlt]
  · intro hst hz
    obtain ⟨hd, _⟩ := hdm hst
    have hlt : I.memsz < 4 := by
      simp only [App1.zeroRest, Bool.and_eq_true, Bool.or_eq_true, decide_eq_true_eq] at hz
      rcases hz.2 with hh | hh
      · exact hh.1.1
      · exact hh.1
    have : I.memsz = I.dstSz := by simp [App1.memsz, hst]
    have : I.opsz = I.dstSz := by simp [App1.opsz, hd]
    simp only [App1.needOffs, hd, App1.offsNull, hst]
    simp
    omega
  · intro hn
    simp only [App1.needEarly, Bool.and_eq_true] at hn
    exact hn.1.2
  · intro hn
    simp only [App1.needEarly, Bool.and_eq_true, Bool.not_eq_true'] at hn
    exact hn.1.1.1.1
  · intro hz
    simp only [App1.zeroRest, Bool.and_eq_true, Bool.or_eq_true, decide_eq_true_eq] at hz
    rcases hz.2 with hh | hh
    · exact hh.1.1
    · exact hh.1

theorem zeroRest_mem {I : App1} (h : I.zeroRest = true) : I.hasMem = true := by
  simp only [App1.zeroRest, Bool.and_eq_true] at h
  exact h.1

/-- The checks of definedness succeed. -/
def ChecksPass (I : App1) (e : Env) (s : St) : Prop :=
  I.chk = true → I.markDefined = false →
    (∀ a, I.s0 = some a → I.s1 ≠ some a → Pass I e s a) ∧
    (∀ b, I.s1 = some b → Pass I e s b ∨
      (I.andor = true ∧ I.srcOpsz = 4 ∧ I.s0 ≠ some b ∧ e.appval = true)) ∧
    (∀ c, I.s2 = some c → Pass I e s c)

/-- The checks of addressability succeed. -/
def AddrPass (I : App1) (e : Env) (s : St) : Prop :=
  (I.load = true ∧ I.checkedMem = false) ∨ I.store = true →
    if I.memsz < 4 ∧ I.needOffs = true then FieldAddr (s.cellOf e) e.off.toNat I.memsz
    else FieldAddr (s.cellOf e) 0 4

/-- No check fails. -/
def Clear (I : App1) (e : Env) (s : St) : Prop :=
  (I.checkFlags = true → s.flags = 0) ∧
  (I.hasMem = true → (∀ g ∈ I.bases, s.slots g = 0) ∧ ¬Mis I e) ∧
  ChecksPass I e s ∧ AddrPass I e s

/-- The emitted code before `propagate`. -/
def pre (I : App1) : List Ins :=
  ((((if I.hasMem then [Ins.lea .r1] else []) ++
  (if I.checkFlags then [.cmp .flags (.imm 0), .jcc false .slow] else [])) ++
  (if I.hasMem then I.bases.flatMap fun g => [.cmp (.slot g) (.imm 0), .jcc false .slow] else [])) ++
  (if I.hasMem then lookup I else [])) ++ (checks I ++ addrChecks I)

theorem fastpath_eq (I : App1) : fastpath I = pre I ++ propagate I := by
  simp [fastpath, pre, App1.hasMem, List.append_assoc]

/-- Before the translation. -/
structure Inv0 (I : App1) (e : Env) (s s' : St) : Prop where
  same : Same s s'
  r1 : I.hasMem = true → s'.r1 = e.addr

theorem stage_lea (I : App1) (e : Env) (s : St) :
    Stage e s (if I.hasMem then [Ins.lea .r1] else []) True (Same s) (Inv0 I e s) := by
  intro s1 hA
  refine ⟨fun _ => ?_, fun h => absurd trivial h⟩
  by_cases hm : I.hasMem = true
  · refine ⟨_, by simp only [hm, if_true]; exact goes_execL e _ s1 (by simp [Ins.straight]), ?_⟩
    rw [execL_one _ _ _ (by simp [Ins.ok])]
    exact ⟨⟨hA.slots, hA.flags, hA.mem, hA.wild⟩, fun _ => rfl⟩
  · refine ⟨s1, by simp only [hm]; exact Goes.nil e s1, hA, fun h => absurd h hm⟩

theorem stage_flags (I : App1) (e : Env) (s : St) :
    Stage e s (if I.checkFlags then [.cmp .flags (.imm 0), .jcc false .slow] else [])
      (I.checkFlags = true → s.flags = 0) (Inv0 I e s) (Inv0 I e s) := by
  by_cases hc : I.checkFlags = true
  · simp only [hc, if_true, forall_const]
    refine Stage.check (c := [.cmp .flags (.imm 0)]) (P := s.flags = 0) (fun s1 hA => ?_)
      (fun _ h => h.same)
    refine ⟨_, goes_execL e _ s1 (by simp [Ins.straight]), ?_⟩
    rw [execL_one _ _ _ (by simp [Ins.ok, Opnd.pairOk, Opnd.isMem])]
    refine ⟨⟨⟨hA.same.slots, hA.same.flags, hA.same.mem, hA.same.wild⟩, hA.r1⟩, ?_⟩
    simp only [exec, St.get, hA.same.flags]
    rfl
  · simp only [hc]
    exact Stage.nil (fun _ h => h) (fun h => by simp at h)

theorem stage_bases (I : App1) (e : Env) (s : St) (l : List (Fin 8)) :
    Stage e s (l.flatMap fun g => [.cmp (.slot g) (.imm 0), .jcc false .slow])
      (∀ g ∈ l, s.slots g = 0) (Inv0 I e s) (Inv0 I e s) := by
  induction l with
  | nil => exact Stage.nil (fun _ h => h) (by simp)
  | cons g l ih =>
    have h1 : Stage e s ([.cmp (.slot g) (.imm 0)] ++ [.jcc false .slow]) (s.slots g = 0)
        (Inv0 I e s) (Inv0 I e s) := by
      refine Stage.check (fun s1 hA => ?_) (fun _ h => h.same)
      refine ⟨_, goes_execL e _ s1 (by simp [Ins.straight]), ?_⟩
      rw [execL_one _ _ _ (by simp [Ins.ok, Opnd.pairOk, Opnd.isMem])]
      refine ⟨⟨⟨hA.same.slots, hA.same.flags, hA.same.mem, hA.same.wild⟩, hA.r1⟩, ?_⟩
      simp only [exec, St.get, hA.same.slots]
      rfl
    have := h1.append ih (by simp)
    simpa using this

/-- A rebased `InvMem`. -/
theorem InvMem.rebase {I : App1} {e : Env} {s s1 s2 : St} (h : InvMem I e s1 s2) (hs : Same s s1) :
    InvMem I e s s2 := by
  have hc : s1.cellOf e = s.cellOf e := by simp only [St.cellOf, hs.mem]
  exact ⟨hs.trans h.same, h.st1, h.st2, fun hl => by rw [h.ld2 hl, hc], h.ldo⟩

theorem and_one_mis {e : Env} : ((e.addr.l &&& 1) == 0) = decide (e.addr.l &&& 1 = 0) := rfl

theorem stage_lookup (I : App1) (e : Env) (s : St) (hm : I.hasMem = true) (C : MemCfg I) :
    Stage e s (lookup I) (¬Mis I e) (Inv0 I e s) (InvMem I e s) := by
  have h1 : Stage e s (if I.memsz > 1 then
      [.test (.lo .r1) (.imm (if I.memsz = 4 then 3 else 1)), .jcc false .slow] else [])
      (¬Mis I e) (Inv0 I e s) (Inv0 I e s) := by
    by_cases hz : I.memsz > 1
    · simp only [hz, if_true]
      refine Stage.check (c := [.test (.lo .r1) (.imm (if I.memsz = 4 then 3 else 1))])
        (fun s1 hA => ?_) (fun _ h => h.same)
      refine ⟨_, goes_execL e _ s1 (by simp [Ins.straight]), ?_⟩
      rw [execL_one _ _ _ (by simp [Ins.ok, Opnd.pairOk, Opnd.isMem])]
      refine ⟨⟨⟨hA.same.slots, hA.same.flags, hA.same.mem, hA.same.wild⟩, hA.r1⟩, ?_⟩
      simp only [exec, St.get, St.reg, hA.r1 hm]
      rcases C.sz with h | h | h
      · omega
      · by_cases hh : e.addr.l &&& 1#8 = 0#8 <;> simp [Mis, h, hh]
      · by_cases hh : e.addr.l &&& 3#8 = 0#8 <;> simp [Mis, h, hh]
    · simp only [hz, if_false]
      refine Stage.nil (fun _ h => h) ?_
      rintro (⟨h, _⟩ | ⟨h, _⟩) <;> omega
  have h2 : Stage e s (lookup2 I) True (Inv0 I e s) (InvMem I e s) := by
    intro s1 hA
    refine ⟨fun _ => ?_, fun h => absurd trivial h⟩
    obtain ⟨s2, g, hi⟩ := lookup2_goes I e s1 (hA.r1 hm) hA.same.wild C
    exact ⟨s2, g, hi.rebase hA.same⟩
  have hl : Ins.label .slow ∉ lookup2 I := by
    unfold lookup2
    have c1 := C.nz; have c2 := C.en
    unfold App1.memoffs
    rcases C.ls with hl | hl <;> cases hn : I.needOffs <;> cases he : I.needEarly <;>
      cases hz : I.zeroRest <;> cases hld : I.load <;>
      simp_all [Opnd.role]
  have := h1.append h2 hl
  exact this.mono (fun _ h => h) (fun _ h => h) (by simp)

end Verif.FastX86
