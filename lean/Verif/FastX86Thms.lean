import Verif.FastX86Slow

/-! The generated fast path for ordinary instructions: properties. -/

namespace Verif.FastX86

/-- The register bytes that are written: byte `j` of the shadow register `g`. -/
def Written (I : App1) (g : Fin 8) (j : Nat) : Prop :=
  ∃ b : Bool, (I.d0 = some (.reg g b) ∨ I.d1 = some (g, b)) ∧ b.toNat ≤ j ∧ j < b.toNat + I.dstSz

/-- The instruction has executed: the destinations have the state wanted, all other bytes of all
registers and of all of memory keep theirs, and the flags are defined exactly if
all of the result is. -/
structure Executed (I : App1) (e : Env) (s s' : St) : Prop where
  dst : ∀ d, I.d0 = some d → ∀ k < I.dstSz, operand e s' d k = want I e s k
  dst1 : ∀ g b, I.d1 = some (g, b) → ∀ k < I.dstSz, operand e s' (.reg g b) k = want I e s k
  regs : ∀ g, ∀ j < 4, ¬Written I g j → dig (s'.slots g) j = dig (s.slots g) j
  mem : ∀ p, ∀ j < 4, ¬(I.d0 = some .mem ∧ p = e.xl e.addr ∧ e.off.toNat ≤ j ∧ j < e.off.toNat + I.dstSz) →
    dig (s'.mem p) j = dig (s.mem p) j
  flags : I.wf = true → (s'.flags = 0 ↔ ∀ k < I.opsz, want I e s k = 0)
  flags' : I.wf = false → s'.flags = s.flags
  wild : s'.wild = false

theorem dig_setSlot (sl : Fin 8 → BitVec 8) (g g' : Fin 8) (v : BitVec 8) (j : Nat) :
    dig (setSlot sl g v g') j = if g' = g then dig v j else dig (sl g') j := by
  unfold setSlot; split <;> rfl

/-- Reading back a register destination. -/
theorem dig_setOpt (sl : Fin 8 → BitVec 8) (d : Option (Fin 8 × Bool)) (w : BitVec 8) {sz : Nat}
    (hs : sz = 1 ∨ sz = 2 ∨ sz = 4) (hb : ∀ g, d = some (g, true) → sz = 1) (g : Fin 8) {j : Nat}
    (hj : j < 4) :
    (∃ b : Bool, d = some (g, b) ∧ b.toNat ≤ j ∧ j < b.toNat + sz ∧
      dig (setOpt sl d w sz g) j = dig w (j - b.toNat)) ∨
    ((∀ b : Bool, d = some (g, b) → ¬(b.toNat ≤ j ∧ j < b.toNat + sz)) ∧
      dig (setOpt sl d w sz g) j = dig (sl g) j) := by
  cases d with
  | none => exact Or.inr ⟨fun _ h => by simp at h, rfl⟩
  | some x =>
    obtain ⟨g1, b⟩ := x
    simp only [setOpt, dig_setSlot]
    by_cases hg : g = g1
    · subst hg
      rw [if_pos rfl, dig_put _ _ hs (hi_toNat hs (fun hh => hb g (by rw [hh]))) hj]
      by_cases hc : b.toNat ≤ j ∧ j < b.toNat + sz
      · rw [if_pos hc]
        exact Or.inl ⟨b, rfl, hc.1, hc.2, rfl⟩
      · rw [if_neg hc]
        refine Or.inr ⟨fun b' hb' => ?_, rfl⟩
        simp only [Option.some.injEq, Prod.mk.injEq, true_and] at hb'
        rw [← hb']; exact hc
    · rw [if_neg hg]
      refine Or.inr ⟨fun b' hb' => ?_, rfl⟩
      simp only [Option.some.injEq, Prod.mk.injEq] at hb'
      exact absurd hb'.1.symm hg

theorem dig_ext {v w : BitVec 8} (h : ∀ k < 4, dig v k = dig w k) : v = w := by
  apply BitVec.eq_of_getLsbD_eq
  intro i hi
  have := congrArg (fun x : BitVec 2 => x.getLsbD (i % 2)) (h (i / 2) (by omega))
  simp only [dig, BitVec.getLsbD_extractLsb'] at this
  have h2 : i % 2 < 2 := Nat.mod_lt _ (by omega)
  rw [show 2 * (i / 2) + i % 2 = i by omega] at this
  simpa [h2] using this

theorem dig_mask {w : BitVec 8} {sz : Nat} (hs : sz = 1 ∨ sz = 2 ∨ sz = 4) :
    w &&& fmask sz = 0 ↔ ∀ k < sz, dig w k = 0 := by
  constructor
  · intro h k hk
    have := dig_fmask w hs (show k < 4 by omega)
    rw [h, dig_zero, if_pos hk] at this
    exact this.symm
  · intro h
    apply dig_ext
    intro k hk
    rw [dig_fmask w hs hk, dig_zero]
    split
    · next hk' => exact h k hk'
    · rfl

/-- What `Wrote` says about single bytes. -/
theorem executed {I : App1} {e : Env} {s s' : St} {w : BitVec 8} (h : Ok I)
    (hm : I.hasMem = true → ¬Mis I e)
    (hw : Wrote I s s' (setOpt (setOpt s.slots I.d0r w I.dstSz) I.d1 w I.dstSz)
        (if I.store then setMem s.mem (e.xl e.addr) (put (s.cellOf e) w e.off.toNat I.dstSz) else s.mem)
        true w I.opsz)
    (hk : ∀ k < I.opsz, dig w k = want I e s k) : Executed I e s s' := by
  have hds := h.ds
  have hd1 : ∀ g, I.d1 = some (g, true) → I.dstSz = 1 := h.hd1
  have hd0 : ∀ g, I.d0r = some (g, true) → I.dstSz = 1 := fun g hh => h.hid hh rfl
  have hops : I.d0.isSome = true → I.opsz = I.dstSz := fun hh => by simp [App1.opsz, hh]
  have hoff : I.store = true → e.off.toNat + I.dstSz ≤ 4 := fun hst => by
    have hmis := hm (by simp [App1.hasMem, hst])
    have hmem : I.memsz = I.dstSz := by simp [App1.memsz, hst]
    have hlt := e.off_lt
    rcases hds with hd | hd | hd
    · omega
    · have : e.off.toNat % 2 = 0 :=
        off_even (Classical.byContradiction fun hc => hmis (Or.inl ⟨by rw [hmem, hd], hc⟩))
      omega
    · have : e.addr.l &&& 3 = 0 :=
        Classical.byContradiction fun hc => hmis (Or.inr ⟨by omega, hc⟩)
      have : e.off.toNat = 0 := by unfold Env.off; rw [this]; rfl
      omega
  -- a byte of a register
  have hreg : ∀ g, ∀ j < 4,
      (∃ b : Bool, (I.d0 = some (.reg g b) ∨ I.d1 = some (g, b)) ∧ b.toNat ≤ j ∧ j < b.toNat + I.dstSz ∧
        dig (s'.slots g) j = dig w (j - b.toNat)) ∨
      (¬Written I g j ∧ dig (s'.slots g) j = dig (s.slots g) j) := by
    intro g j hj
    rw [hw.slots]
    rcases dig_setOpt (setOpt s.slots I.d0r w I.dstSz) I.d1 w hds hd1 g hj with
      ⟨b, hb, h1, h2, h3⟩ | ⟨hn, h3⟩
    · exact Or.inl ⟨b, Or.inr hb, h1, h2, h3⟩
    · rw [h3]
      rcases dig_setOpt s.slots I.d0r w hds hd0 g hj with ⟨b, hb, h1, h2, h4⟩ | ⟨hn', h4⟩
      · exact Or.inl ⟨b, Or.inl (d0r_some hb), h1, h2, h4⟩
      · refine Or.inr ⟨?_, h4⟩
        rintro ⟨b, hb | hb, hr⟩
        · exact hn' b (by simp [App1.d0r, hb]) hr
        · exact hn b hb hr
  have hhi : ∀ g b, (I.d0 = some (.reg g b) ∨ I.d1 = some (g, b)) → b = true → I.dstSz = 1 := by
    rintro g b (hb | hb) rfl
    · exact h.hd g hb
    · exact h.hd1 g hb
  have hregw : ∀ g b, (I.d0 = some (.reg g b) ∨ I.d1 = some (g, b)) → ∀ k < I.dstSz,
      dig (s'.slots g) (b.toNat + k) = want I e s k := by
    intro g b hb k hk'
    have hd : I.d0.isSome = true := by
      rcases hb with hb | hb
      · rw [hb]; rfl
      · exact (h.d10 (by rw [hb]; rfl)).1
    have hle := hi_toNat hds (hhi g b hb)
    rcases hreg g (b.toNat + k) (by omega) with ⟨b', hb', h1, h2, h3⟩ | ⟨hn, _⟩
    · have : b' = b := by
        have q1 := hhi g b hb
        have q2 := hhi g b' hb'
        cases b <;> cases b' <;> first | rfl | (simp at q1 q2 h1 h2; omega)
      subst this
      rw [h3, Nat.add_sub_cancel_left]
      exact hk k (by rw [hops hd]; exact hk')
    · exact absurd ⟨b, hb, by omega, by omega⟩ hn
  refine ⟨?_, ?_, ?_, ?_, ?_, ?_, hw.wild⟩
  · intro d hd k hk'
    cases d with
    | reg g b => exact hregw g b (Or.inl hd) k hk'
    | mem =>
      have hst : I.store = true := by simp [App1.store, hd]
      have := hoff hst
      simp only [operand]
      rw [hw.mem, if_pos hst]
      simp only [setMem, if_true]
      rw [dig_put _ _ hds (by omega) (by omega), if_pos (by omega), Nat.add_sub_cancel_left]
      exact hk k (by rw [hops (by rw [hd]; rfl)]; exact hk')
  · intro g b hb k hk'
    exact hregw g b (Or.inr hb) k hk'
  · intro g j hj hn
    rcases hreg g j hj with ⟨b, hb, h1, h2, _⟩ | ⟨_, h3⟩
    · exact absurd ⟨b, hb, h1, h2⟩ hn
    · exact h3
  · intro p j hj hn
    rw [hw.mem]
    cases hst : I.store
    · simp
    · have := hoff hst
      simp only [if_true, setMem]
      split
      · next hp =>
        rw [dig_put _ _ hds (by omega) hj, hp]
        split
        · next hc => exact absurd ⟨store_d0 hst, hp, hc.1, hc.2⟩ hn
        · rfl
      · rfl
  · intro hwf
    have hfl := hw.fl ⟨rfl, hwf⟩
    have hss := h.ss
    have hops : I.opsz = 1 ∨ I.opsz = 2 ∨ I.opsz = 4 := by
      simp only [App1.opsz, hwf, if_true]
      split
      · exact hds
      · split
        · exact hss
        · exact Or.inl rfl
    rw [hfl, dig_mask hops]
    exact ⟨fun hh k hk' => by rw [← hk k hk']; exact hh k hk',
      fun hh k hk' => by rw [hk k hk']; exact hh k hk'⟩
  · intro hwf
    exact hw.nofl (by simp [hwf])

/-- C61: unless it goes to the slow path, the fast path gives every destination byte the state that
follows from the bytes of the sources, and changes nothing else.  Partial: `Scope` leaves out
the shifts (`C61_shift`), the forms in which the code is wrong (`C61_high_byte_store`,
`C61_checked_part`, `C61_null_operand`), and some forms with two destinations. -/
theorem C61_result_partial (I : App1) (e : Env) (s s' : St) (h : Ok I) (hsc : Scope I e)
    (hw : s.wild = false) (hr : run e (fastpath I) none s = .done s') : Executed I e s s' := by
  by_cases hc : Clear I e s
  · obtain ⟨s2, w, hr2, hwr, hk⟩ := fast_done I e s h hsc hw hc
    rw [hr] at hr2
    simp only [Out.done.injEq] at hr2
    subst hr2
    exact executed h (fun hm => (hc.2.1 hm).2) hwr hk
  · obtain ⟨s2, hr2, _⟩ := (fast_slow I e s h hw).1 hc
    rw [hr] at hr2
    simp at hr2

/-- C61: the fast path ends, by reaching its end or at the slow path; if it goes to the slow path, no
shadow has been changed. -/
theorem C61_ends_partial (I : App1) (e : Env) (s : St) (h : Ok I) (hsc : Scope I e) (hw : s.wild = false) :
    (∃ s', run e (fastpath I) none s = .done s') ∨
    (∃ s', run e (fastpath I) none s = .slow s' ∧ s'.slots = s.slots ∧ s'.mem = s.mem ∧
      s'.flags = s.flags) := by
  by_cases hc : Clear I e s
  · obtain ⟨s2, w, hr2, _⟩ := fast_done I e s h hsc hw hc
    exact Or.inl ⟨s2, hr2⟩
  · obtain ⟨s2, hr2, hs⟩ := (fast_slow I e s h hw).1 hc
    exact Or.inr ⟨s2, hr2, hs.slots, hs.mem, hs.flags⟩

/-- C61: a jump to the slow path leaves every shadow as it was, for all instructions. -/
theorem C61_slow_unchanged (I : App1) (e : Env) (s s' : St) (h : Ok I) (hw : s.wild = false)
    (hr : run e (fastpath I) none s = .slow s') :
    s'.slots = s.slots ∧ s'.mem = s.mem ∧ s'.flags = s.flags ∧ s'.wild = false := by
  by_cases hc : Clear I e s
  · exact absurd hr ((fast_slow I e s h hw).2 hc s')
  · obtain ⟨s2, hr2, hs⟩ := (fast_slow I e s h hw).1 hc
    rw [hr] at hr2
    simp only [Out.slow.injEq] at hr2
    subst hr2
    exact ⟨hs.slots, hs.mem, hs.flags, hs.wild⟩

theorem memsz_cases {I : App1} (h : Ok I) (hm : I.hasMem = true) :
    I.memsz = 1 ∨ I.memsz = 2 ∨ I.memsz = 4 := by
  have hss := h.ss
  have hds := h.ds
  simp only [App1.hasMem, Bool.or_eq_true] at hm
  unfold App1.memsz
  split
  · exact hds
  · next hst =>
    rcases hm with hm | hm
    · rw [if_pos hm]; exact hss
    · exact absurd hm hst

/-- C61: whatever could have to be reported goes to the slow path.  At the end of the fast path the
registers of the address are defined, the memory operand lies in one shadow byte and all of its
bytes are addressable, and if definedness is to be checked then all sources are defined; only the
second source of `and` or `or` may be undefined when the other value decides the result. -/
theorem C61_guard (I : App1) (e : Env) (s : St) (h : Ok I) (hw : s.wild = false)
    (hr : ∀ s', run e (fastpath I) none s ≠ .slow s') :
    (I.s0 = some .mem ∨ I.d0 = some .mem →
      (∀ g ∈ I.bases, s.slots g = 0) ∧ e.off.toNat + I.memsz ≤ 4 ∧
      ∀ k < I.memsz, operand e s .mem k = 0 ∨ operand e s .mem k = 3) ∧
    (I.icd = true → (I.rf = true → s.flags = 0) ∧ (I.always = false →
      ∀ a, I.s0 = some a ∨ I.s1 = some a ∨ I.s2 = some a →
        (I.s1 = some a → ¬(I.andor = true ∧ e.appval = true)) →
        ∀ k < I.srcSz, operand e s a k = 0)) := by
  have hc : Clear I e s := Classical.byContradiction fun hn => by
    obtain ⟨s2, hr2, _⟩ := (fast_slow I e s h hw).1 hn
    exact hr s2 hr2
  obtain ⟨hf, hmem, hck, had⟩ := hc
  refine ⟨fun hm => ?_, fun hi => ⟨fun hrf => ?_, fun ha a hsrc hex k hk => ?_⟩⟩
  · have hm' : I.hasMem = true := by
      rcases hm with hm | hm
      · cases hst : I.store <;> simp [App1.hasMem, App1.load, hst, hm]
      · simp [App1.hasMem, App1.store, hm]
    obtain ⟨hb, hmis⟩ := hmem hm'
    have hms := memsz_cases h hm'
    have hlt := e.off_lt
    have hle : e.off.toNat + I.memsz ≤ 4 := by
      rcases hms with hd | hd | hd
      · omega
      · have : e.off.toNat % 2 = 0 :=
          off_even (Classical.byContradiction fun hc => hmis (Or.inl ⟨hd, hc⟩))
        omega
      · have : e.addr.l &&& 3 = 0 :=
          Classical.byContradiction fun hc => hmis (Or.inr ⟨hd, hc⟩)
        have : e.off.toNat = 0 := by unfold Env.off; rw [this]; rfl
        omega
    refine ⟨hb, hle, fun k hk => ?_⟩
    by_cases hcm : I.load = true ∧ I.checkedMem = true
    · left
      obtain ⟨h0, hst⟩ := load_s0 hcm.1
      have hcm' := hcm.2
      simp only [App1.checkedMem, Bool.and_eq_true, Bool.not_eq_true'] at hcm'
      have hp := (hck hcm'.1.1.1 hcm'.1.1.2).1 .mem h0 h.m1
      refine pass_operand h hp (fun _ => h0) (by rw [h0]; rfl) ?_
      have : I.memsz = I.srcSz := by simp [App1.memsz, hst, hcm.1]
      omega
    · have := had (by
        simp only [App1.hasMem, Bool.or_eq_true] at hm'
        rcases hm' with hl | hst
        · left
          refine ⟨hl, ?_⟩
          cases hq : I.checkedMem
          · rfl
          · exact absurd ⟨hl, hq⟩ hcm
        · exact Or.inr hst)
      split at this
      · exact this k hk
      · have := this (e.off.toNat + k) (by omega)
        rw [Nat.zero_add] at this
        exact this
  · have hchk : I.chk = true := by simp [App1.chk, hi]
    exact hf (by simp [App1.checkFlags, hrf, App1.flagSrc, hchk])
  · have hchk : I.chk = true := by simp [App1.chk, hi]
    have h0s : I.s0.isSome = true := by
      rcases hsrc with hq | hq | hq
      · rw [hq]; rfl
      · exact h.s10 (by rw [hq]; rfl)
      · exact h.s10 (h.s21 (by rw [hq]; rfl))
    have hmd : I.markDefined = false := by
      have h0n : I.s0.isNone = false := by
        cases hq : I.s0 with
        | none => simp [hq] at h0s
        | some x => rfl
      have hn : (I.nprop0 == 0) = false := by
        simp only [App1.nprop0, App1.nsrc, h0s, if_true, beq_eq_false_iff_ne]; omega
      simp [App1.markDefined, ha, h0n, hn]
    obtain ⟨c0, c1, c2⟩ := hck hchk hmd
    have s1pass : I.s1 = some a → Pass I e s a := fun hq => by
      rcases c1 a hq with hp | hp
      · exact hp
      · exact absurd ⟨hp.1, hp.2.2.2⟩ (hex hq)
    rcases hsrc with hq | hq | hq
    · by_cases h1 : I.s1 = some a
      · exact pass_operand h (s1pass h1) (fun hm => by rw [← hm]; exact hq) h0s hk
      · exact pass_operand h (c0 a hq h1) (fun hm => by rw [← hm]; exact hq) h0s hk
    · exact pass_operand h (s1pass hq) (fun hm => absurd (hm ▸ hq) h.m1) h0s hk
    · exact pass_operand h (c2 a hq) (fun hm => absurd (hm ▸ hq) h.m2) h0s hk

/-- C61: with everything defined and the operand aligned, the slow path is not taken. -/
theorem C61_taken (I : App1) (e : Env) (s : St) (h : Ok I) (hw : s.wild = false)
    (hf : I.rf = true → s.flags = 0)
    (hsrc : ∀ g b, I.s0 = some (.reg g b) ∨ I.s1 = some (.reg g b) ∨ I.s2 = some (.reg g b) →
      s.slots g = 0)
    (hm : I.s0 = some .mem ∨ I.d0 = some .mem → (∀ g ∈ I.bases, s.slots g = 0) ∧
      s.mem (e.xl e.addr) = 0 ∧ e.off.toNat % I.memsz = 0) :
    ∀ s', run e (fastpath I) none s ≠ .slow s' := by
  refine (fast_slow I e s h hw).2 ⟨fun hcf => hf ?_, fun hhm => ?_, fun _ _ => ?_, fun hh => ?_⟩
  · simp only [App1.checkFlags, Bool.and_eq_true] at hcf; exact hcf.1
  · have hmo : I.s0 = some .mem ∨ I.d0 = some .mem := by
      simp only [App1.hasMem, Bool.or_eq_true] at hhm
      rcases hhm with hl | hst
      · exact Or.inl (load_s0 hl).1
      · exact Or.inr (store_d0 hst)
    obtain ⟨hb, _, ha⟩ := hm hmo
    refine ⟨hb, ?_⟩
    have hl : e.off.toNat = e.addr.l.toNat % 4 := by
      have h2 : e.off.toNat = e.addr.l.toNat &&& 3 := by simp [Env.off]
      rw [h2, show (3 : Nat) = 2 ^ 2 - 1 by rfl, Nat.and_two_pow_sub_one_eq_mod]
    rintro (⟨hq, hc⟩ | ⟨hq, hc⟩)
    · rw [hq] at ha
      apply hc
      apply BitVec.eq_of_toNat_eq
      have : (e.addr.l &&& 1).toNat = e.addr.l.toNat % 2 := by
        simp [Nat.and_one_is_mod]
      rw [this]
      show _ = 0
      omega
    · rw [hq] at ha
      apply hc
      apply BitVec.eq_of_toNat_eq
      show e.off.toNat = 0
      have := e.off_lt
      omega
  · have hp : ∀ a, I.s0 = some a ∨ I.s1 = some a ∨ I.s2 = some a → Pass I e s a := by
      intro a ha
      cases a with
      | mem =>
        have h0 : I.s0 = some .mem := by
          rcases ha with ha | ha | ha
          · exact ha
          · exact absurd ha h.m1
          · exact absurd ha h.m2
        have hz : s.cellOf e = 0 := (hm (Or.inl h0)).2.1
        simp only [Pass]
        split
        · rw [hz]; exact fun k _ => dig_zero _
        · exact hz
      | reg g b =>
        have hz := hsrc g b ha
        simp only [Pass]
        split
        · rw [hz]; exact fun k _ => dig_zero _
        · exact hz
    exact ⟨fun a ha _ => hp a (Or.inl ha), fun b hb => Or.inl (hp b (Or.inr (Or.inl hb))),
      fun c hc => hp c (Or.inr (Or.inr hc))⟩
  · have hmo : I.s0 = some .mem ∨ I.d0 = some .mem := by
      rcases hh with hl | hst
      · exact Or.inl (load_s0 hl.1).1
      · exact Or.inr (store_d0 hst)
    have hz : s.cellOf e = 0 := (hm hmo).2.1
    rw [hz]
    split <;> exact fun k _ => Or.inl (dig_zero _)

end Verif.FastX86
