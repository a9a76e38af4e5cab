import Verif.FastX86Shape

/-! What the fast path should compute, and that it does so for instructions without memory. -/

namespace Verif.FastX86

/-- The state of byte `k` of an operand: two bits of the shadow byte of the dword of the memory
operand, or of the shadow register. -/
def operand (e : Env) (s : St) : App → Nat → BitVec 2
  | .mem, k => dig (s.mem (e.xl e.addr)) (e.off.toNat + k)
  | .reg g h, k => dig (s.slots g) (h.toNat + k)

/-- The same for an operand that may not be there. -/
def operandOpt (e : Env) (s : St) : Option App → Nat → BitVec 2
  | some a, k => operand e s a k
  | none, _ => 0

/-- The state that byte `k` of the result should get: defined if the instruction always defines its
result, otherwise the union of byte `k` of all sources (with movzx 0 beyond the source, with movsx
its last byte). -/
def want (I : App1) (e : Env) (s : St) (k : Nat) : BitVec 2 :=
  if I.always = true ∨ (I.andor = true ∧ e.appval = true) then 0
  else if I.op = .movzx then (if k < I.srcSz then operandOpt e s I.s0 k else 0)
  else if I.op = .movsx then operandOpt e s I.s0 (min k (I.srcSz - 1))
  else operandOpt e s I.s0 k ||| operandOpt e s I.s1 k ||| operandOpt e s I.s2 k |||
    (if I.rf then dig s.flags k else 0)

theorem dig_shr (v : BitVec 8) (j k : Nat) : dig (v >>> (2 * j)) k = dig v (j + k) := by
  apply BitVec.eq_of_getLsbD_eq
  intro i hi
  simp only [dig, BitVec.getLsbD_extractLsb', BitVec.getLsbD_ushiftRight]
  congr 2
  omega

theorem dig_or (x y : BitVec 8) (k : Nat) : dig (x ||| y) k = dig x k ||| dig y k := by
  apply BitVec.eq_of_getLsbD_eq
  intro i hi
  simp [dig, hi]

theorem dig_zero (k : Nat) : dig 0 k = 0 := by
  apply BitVec.eq_of_getLsbD_eq
  intro i hi
  simp [dig]

theorem put_self (x : BitVec 8) {j sz : Nat} (hs : sz = 1 ∨ sz = 2 ∨ sz = 4) (hj : j + sz ≤ 4) :
    put x (x >>> (2 * j)) j sz = x := by
  have hj' : j = 0 ∨ j = 1 ∨ j = 2 ∨ j = 3 := by omega
  rcases hs with rfl | rfl | rfl <;> rcases hj' with rfl | rfl | rfl | rfl <;>
    first
    | omega
    | x86_bits

theorem setSlot_self (sl : Fin 8 → BitVec 8) (g : Fin 8) : setSlot sl g (sl g) = sl := by
  funext k
  simp only [setSlot]
  split
  · next hk => rw [hk]
  · rfl

theorem fmask_four (x : BitVec 8) : x &&& fmask 4 = x := by
  simp only [fmask]; x86_bits

theorem dig_fmask (x : BitVec 8) {sz k : Nat} (hs : sz = 1 ∨ sz = 2 ∨ sz = 4) (hk : k < 4) :
    dig (x &&& fmask sz) k = if k < sz then dig x k else 0 := by
  have hk' : k = 0 ∨ k = 1 ∨ k = 2 ∨ k = 3 := by omega
  rcases hs with rfl | rfl | rfl <;> rcases hk' with rfl | rfl | rfl | rfl <;>
    (apply BitVec.eq_of_getLsbD_eq; intro i hi
     have hi' : i = 0 ∨ i = 1 := by omega
     rcases hi' with rfl | rfl <;> simp [dig, fmask])

theorem dig_extend_zx (x : BitVec 8) {sz k : Nat} (hs : sz = 1 ∨ sz = 2) (hk : k < 4) :
    dig (extend .movzx sz x) k = if k < sz then dig x k else 0 := by
  rw [extend, if_neg (by simp), dig_fmask x (by omega) hk]

theorem dig_extend_sx (x : BitVec 8) {sz k : Nat} (hs : sz = 1 ∨ sz = 2) (hk : k < 4) :
    dig (extend .movsx sz x) k = dig x (min k (sz - 1)) := by
  have hk' : k = 0 ∨ k = 1 ∨ k = 2 ∨ k = 3 := by omega
  rcases hs with rfl | rfl <;> rcases hk' with rfl | rfl | rfl | rfl <;>
    (apply BitVec.eq_of_getLsbD_eq; intro i hi
     have hi' : i = 0 ∨ i = 1 := by omega
     rcases hi' with rfl | rfl <;> simp [dig, extend, sext1, sext2])

/-- What the propagation has to achieve. -/
def Done (I : App1) (e : Env) (s s' : St) : Prop :=
  ∃ w, WroteBy I e (propagate I) s'
      (setOpt (setOpt s.slots I.d0r w I.dstSz) I.d1 w I.dstSz)
      (if I.store then setMem s.mem (e.xl e.addr) (put (s.cellOf e) w e.off.toNat I.dstSz) else s.mem)
      true w I.opsz ∧
    ∀ k < I.opsz, dig w k = want I e s k

/-- An instruction outside the known defects, and with at most one destination in the sub-dword
forms. -/
structure Scope (I : App1) (e : Env) : Prop where
  noshift : I.op.shadowOp = false
  s2 : I.s2.isSome = true → I.srcSz ≠ 1
  d1 : I.d1.isSome = true → I.markDefined = true ∨ I.chk = true ∨ I.dstSz = 4 ∨
    (I.dstSz = 2 ∧ I.hasMem = false ∧ I.alu = false ∧ I.skipDst = false)
  /-- a one-byte store of ah, bh, ch or dh to an address that is a multiple of 4 -/
  hiStore : I.store = true → I.dstSz = 1 → e.off.toNat = 0 → I.chk = false → I.markDefined = false →
    hiOf I.s0 = false ∧ hiOf I.s1 = false
  /-- definedness is checked, and less than a dword is written -/
  chkSub : I.chk = true → I.d0.isSome = true → I.opsz = 4
  /-- no operand at all, only flags to be marked -/
  nullSub : I.markDefined = true → I.d0 = none → I.wf = true → I.chk = false → I.opsz = 4

theorem operand_reg (e : Env) (s : St) (o : Option App) (ho : o ≠ some .mem) (k : Nat) :
    operandOpt e s o k = dig (val s o) ((hiOf o).toNat + k) := by
  cases o with
  | none => exact (dig_zero _).symm
  | some a => cases a with
    | mem => exact absurd rfl ho
    | reg g h => rfl

theorem want_plain {I : App1} {e : Env} {s : St} {k : Nat} (ha : I.always = false)
    (ho : I.andor = false) (hx : I.ext = false) :
    want I e s k = operandOpt e s I.s0 k ||| operandOpt e s I.s1 k ||| operandOpt e s I.s2 k |||
      (if I.rf then dig s.flags k else 0) := by
  have h1 : I.op ≠ .movzx := fun hc => by simp [App1.ext, hc] at hx
  have h2 : I.op ≠ .movsx := fun hc => by simp [App1.ext, hc] at hx
  simp [want, ha, ho, h1, h2]

theorem chk_false {I : App1} (h : I.chk = false) :
    I.andor = false ∧ (I.ext = true → I.ext4 = true) ∧
    (I.opsz < 4 → 2 ≤ I.nsrc → I.alu = false → I.s1.isSome = true → offs0 I.s1 = offs0 I.s0) := by
  simp only [App1.chk, Bool.or_eq_false_iff] at h
  refine ⟨h.1.1.1.1.2, ?_, ?_⟩
  · intro hx
    have := h.1.1.2
    simpa [hx] using this
  · intro h4 hn ha hs
    have := h.2
    simpa [h4, hn, ha, hs] using this

theorem md_false {I : App1} (h : I.markDefined = false) : I.always = false := by
  simp only [App1.markDefined, Bool.or_eq_false_iff] at h
  exact h.1.1

/-- Flags are propagated, or not read, or defined. -/
theorem flags_part {I : App1} {s : St} (hf : I.checkFlags = true → s.flags = 0) (k : Nat) :
    (if I.rf then dig s.flags k else 0) = dig (fval I s) k := by
  unfold fval
  cases hr : I.rf
  · have : I.flagSrc = false := by simp [App1.flagSrc, hr]
    simp only [this, Bool.false_eq_true, if_false, dig_zero]
  · cases hs : I.flagSrc
    · have : s.flags = 0 := hf (by simp [App1.checkFlags, hr, hs])
      simp only [this, if_true, Bool.false_eq_true, if_false]
    · rfl

theorem slots_same (s : St) {g : Fin 8} {b : Bool} (w : BitVec 8) (sz : Nat)
    (hs : sz = 1 ∨ sz = 2 ∨ sz = 4) (hb : b.toNat + sz ≤ 4) (hw : w = s.slots g >>> (2 * b.toNat)) :
    setOpt s.slots (some (g, b)) w sz = s.slots := by
  simp only [setOpt, hw, put_self _ hs hb, setSlot_self]

theorem hi_toNat {b : Bool} {sz : Nat} (hs : sz = 1 ∨ sz = 2 ∨ sz = 4) (h : b = true → sz = 1) :
    b.toNat + sz ≤ 4 := by
  cases b
  · simp; omega
  · simp [h rfl]

theorem Ok.hi0 {I : App1} (h : Ok I) : hiOf I.s0 = true → I.srcSz = 1 := by
  intro hh
  cases h0 : I.s0 with
  | none => simp [h0, hiOf] at hh
  | some a => cases a with
    | mem => simp [h0, hiOf] at hh
    | reg g b => simp only [h0, hiOf] at hh; exact h.h0 g (by rw [h0, hh])

theorem Ok.hi1 {I : App1} (h : Ok I) : hiOf I.s1 = true → I.srcSz = 1 := by
  intro hh
  cases h0 : I.s1 with
  | none => simp [h0, hiOf] at hh
  | some a => cases a with
    | mem => simp [h0, hiOf] at hh
    | reg g b => simp only [h0, hiOf] at hh; exact h.h1 g (by rw [h0, hh])

theorem Ok.hi2 {I : App1} (h : Ok I) : hiOf I.s2 = true → I.srcSz = 1 := by
  intro hh
  cases h0 : I.s2 with
  | none => simp [h0, hiOf] at hh
  | some a => cases a with
    | mem => simp [h0, hiOf] at hh
    | reg g b => simp only [h0, hiOf] at hh; exact h.h2 g (by rw [h0, hh])

theorem Ok.hid {I : App1} (h : Ok I) {g : Fin 8} {b : Bool} (hd : I.d0r = some (g, b)) :
    b = true → I.dstSz = 1 := by
  intro hb
  unfold App1.d0r at hd
  cases h0 : I.d0 with
  | none => simp [h0] at hd
  | some a => cases a with
    | mem => simp [h0] at hd
    | reg g' b' =>
      simp only [h0, Option.some.injEq, Prod.mk.injEq] at hd
      exact h.hd g' (by rw [h0, hd.2, hb])

theorem d0r_none {I : App1} (hst : I.store = false) (h : I.d0r = none) : I.d0 = none := by
  unfold App1.d0r at h
  cases h0 : I.d0 with
  | none => rfl
  | some a => cases a with
    | mem => simp [App1.store, h0] at hst
    | reg g b => simp [h0] at h

theorem d0r_some {I : App1} {g : Fin 8} {b : Bool} (h : I.d0r = some (g, b)) :
    I.d0 = some (.reg g b) := by
  unfold App1.d0r at h
  cases h0 : I.d0 with
  | none => simp [h0] at h
  | some a => cases a with
    | mem => simp [h0] at h
    | reg g' b' => simp only [h0, Option.some.injEq, Prod.mk.injEq] at h; rw [h.1, h.2]

/-- One destination at most. -/
theorem addDst2_one (I : App1) (mo : Offs) (d : Option (Fin 8 × Bool)) (o : Offs) (a : Option App)
    (src : Info) (ss ds : Nat) (scr : Role) (alu : Bool) :
    addDst2 I mo (infoOpt d o a) (infoOpt none .null none) src ss ds scr true alu =
      if d.isSome || I.wf then addDst I mo (infoOpt d o a) src ss ds scr true alu false else [] := by
  unfold addDst2
  have : (infoOpt d o a).shadow.isSome = d.isSome := by cases d <;> rfl
  rw [this]
  simp [infoOpt]

theorem WroteBy.noflags {I : App1} {e : Env} {c : List Ins} {s : St} {sl : Fin 8 → BitVec 8}
    {m : R → BitVec 8} {v w : BitVec 8} {n sz : Nat} (hw : I.wf = false)
    (h : WroteBy I e c s sl m true v n) : WroteBy I e c s sl m true w sz :=
  ⟨h.1, h.2.slots, h.2.mem, h.2.wild, fun hh => by simp [hw] at hh, h.2.nofl⟩

/-- With one source only, equal to the destination. -/
theorem skip_facts {I : App1} (h : Ok I) (hk : I.skipDst = true) (h0 : I.s0.isSome = true) :
    I.s0 = I.d0 ∧ I.s1 = none ∧ I.s2 = none ∧ I.flagSrc = false := by
  simp only [App1.skipDst, Bool.and_eq_true, beq_iff_eq] at hk
  obtain ⟨⟨hn, _⟩, hsame⟩ := hk
  simp only [App1.same, Bool.and_eq_true, beq_iff_eq] at hsame
  refine ⟨hsame.1, ?_⟩
  have h21 := h.s21
  unfold App1.nprop0 App1.nsrc at hn
  cases h1 : I.s1 <;> cases h2 : I.s2 <;> cases hf : I.flagSrc <;> simp_all

/-- Instructions without memory. -/
theorem reg_done (I : App1) (e : Env) (s s' : St) (h : Ok I) (hsc : Scope I e)
    (hm : I.hasMem = false) (hmd : I.markDefined = false) (hck : I.chk = false)
    (hf : I.checkFlags = true → s.flags = 0) (hs : Same s s') : Done I e s s' := by
  obtain ⟨code, a, hp, hex⟩ := shape_reg I h hm hmd hck
  obtain ⟨z, hx⟩ := hex e s'
  have hst : I.store = false := by
    unfold App1.hasMem at hm; simp only [Bool.or_eq_false_iff] at hm; exact hm.2
  have hld : I.load = false := by
    unfold App1.hasMem at hm; simp only [Bool.or_eq_false_iff] at hm; exact hm.1
  have hs0 : I.s0 ≠ some .mem := fun hc => by simp [App1.load, hc, hst] at hld
  have hal := md_false hmd
  obtain ⟨hao, hx4, hoff⟩ := chk_false hck
  have hv : ∀ o, val s' o = val s o := fun o => by
    cases o with
    | none => rfl
    | some a => cases a <;> simp [val, hs.slots]
  have hfv : fval I s' = fval I s := by simp [fval, hs.flags]
  rw [hv, hv, hv, hfv] at hx
  unfold Done
  simp only [hst, Bool.false_eq_true, if_false]
  rw [hp]
  -- the state after the loads
  generalize hV : val s I.s0 ||| (if I.aluSub = true then 0 else val s I.s1) ||| val s I.s2 |||
    fval I s = V at hx
  have key : ∀ (sl : Fin 8 → BitVec 8) (w : BitVec 8) (sz : Nat) (d : List Ins),
      WroteBy I e d { s' with r1 := { s'.r1 with l := V }, zf := z } sl s.mem true w sz →
      WroteBy I e (code ++ d) s' sl s.mem true w sz :=
    fun sl w sz d hd => WroteBy.pre hx rfl hd
  have t1 : ({ s' with r1 := { s'.r1 with l := V }, zf := z } : St).slots = s.slots := hs.slots
  have t2 : ({ s' with r1 := { s'.r1 with l := V }, zf := z } : St).mem = s.mem := hs.mem
  have t3 : ({ s' with r1 := { s'.r1 with l := V }, zf := z } : St).wild = false := hs.wild
  have t4 : ({ s' with r1 := { s'.r1 with l := V }, zf := z } : St).r1.l = V := rfl
  generalize ({ s' with r1 := { s'.r1 with l := V }, zf := z } : St) = t at key t1 t2 t3 t4
  have hss := h.ss
  have hds := h.ds
  by_cases hext : I.ext = true
  · -- movzx and movsx to 4 bytes
    obtain ⟨hlt, h0s, h1, h2, hd0s, hd0m, hd1, hrf, hwf, _⟩ := h.ext hext
    have hx4' := hx4 hext
    have hx5 := hx4'
    simp only [App1.ext4, Bool.and_eq_true, Bool.or_eq_true, beq_iff_eq] at hx5
    have hso : I.srcOpsz0 = I.srcSz := by simp [App1.srcOpsz0, h0s]
    have hso2 : I.srcOpsz = I.srcSz := by simp [App1.srcOpsz, hx4', hso]
    have h4 := hx5.1.2
    have hd4 : I.dstSz = 4 := by simpa [App1.opsz, hd0s] using h4
    have hsz : I.srcSz = 1 ∨ I.srcSz = 2 := by rw [← hso]; exact hx5.2
    have hal : I.aluSub = false := by simp [App1.aluSub, h4]
    have hsk : I.skipDst = false := by
      have : I.same I.s0 = false := by
        cases hq : I.s0 with
        | none => simp [hq] at h0s
        | some x => simp [App1.same]; omega
      simp [App1.skipDst, this]
    have hfs : I.flagSrc = false := by simp [App1.flagSrc, hrf]
    obtain ⟨g, hg⟩ : ∃ g, I.d0r = some (g, false) := by
      cases hq : I.d0r with
      | none => rw [d0r_none hst hq] at hd0s; simp at hd0s
      | some x =>
        obtain ⟨g, b⟩ := x
        cases b
        · exact ⟨g, rfl⟩
        · have := h.hid hq rfl; omega
    have hop : I.op = .movzx ∨ I.op = .movsx := by simpa [App1.ext] using hext
    have hVe : V = val s I.s0 := by rw [← hV]; simp [hal, h1, h2, val, fval, hfs]
    refine ⟨extend I.op I.srcSz (V >>> (2 * (hiOf I.s0).toNat)), ?_, ?_⟩
    · have := addDst_ext_reg I e t g (hiOf I.s0) a I.srcSz hop hst true hwf t3 hsz
        (fun hh => h.hi0 hh)
      rw [t1, t2, t4] at this
      rw [hsk, hd1, addDst2_one, hg, hal, hso2, h4]
      simp only [Bool.false_eq_true, if_false, Option.isSome_some, Bool.true_or, if_true]
      refine key _ _ _ _ (WroteBy.noflags (v := 0) (n := 4) hwf ?_)
      · simpa [setOpt, hd4, put_four, infoOpt] using this
    · intro k hk
      rw [h4] at hk
      rw [hVe]
      rcases hop with hop | hop
      · rw [hop, dig_extend_zx _ hsz hk]
        simp only [want, hao, hop, md_false hmd, Bool.false_eq_true, false_and, or_self, if_false,
          if_true, operand_reg e s _ hs0, dig_shr]
      · rw [hop, dig_extend_sx _ hsz hk]
        simp only [want, hao, hop, md_false hmd, Bool.false_eq_true, false_and, or_self, if_false,
          if_true, operand_reg e s _ hs0, dig_shr]
        rw [if_neg (by simp)]
  · have hext : I.ext = false := by simpa using hext
    have hsz := h.plain hext
    have hfl := fun k => flags_part (I := I) (s := s) hf k
    by_cases h4 : I.opsz = 4
    · have hd4 : I.d0.isSome = true → I.dstSz = 4 := fun hd => by simpa [App1.opsz, hd] using h4
      have hs4 : I.s0.isSome = true → I.srcSz = 4 := fun h0 => by
        cases hd : I.d0.isSome
        · have := h4
          simp only [App1.opsz, hd, h0, Bool.false_eq_true, if_false, if_true] at this
          split at this <;> omega
        · rw [hsz]; exact hd4 hd
      have hso : I.srcOpsz = 4 := by
        simp only [App1.srcOpsz, hext, Bool.false_and, Bool.false_eq_true, if_false, App1.srcOpsz0]
        split
        · next h0 => exact hs4 h0
        · next h0 =>
          have hrf : I.rf = true := by
            simp only [App1.markDefined, Bool.or_eq_false_iff] at hmd
            have h0n : I.s0.isNone = true := by simpa using h0
            simpa [h0n] using hmd.1.2
          simp [hrf, h4]
      have hal : I.aluSub = false := by simp [App1.aluSub, h4]
      have hlo : ∀ o : Option App, (hiOf o = true → I.srcSz = 1) → (o.isSome = true → I.s0.isSome = true) →
          hiOf o = false := fun o ho hos => by
        cases hh : hiOf o
        · rfl
        · have h1 := ho hh
          have : o.isSome = true := by cases o <;> simp_all [hiOf]
          have := hs4 (hos this)
          omega
      have l0 := hlo I.s0 h.hi0 id
      have l1 := hlo I.s1 h.hi1 h.s10
      have l2 := hlo I.s2 h.hi2 (fun hh => h.s10 (h.s21 hh))
      have hd0f : ∀ g b, I.d0r = some (g, b) → b = false := fun g b hd => by
        cases b
        · rfl
        · have h1 := h.hid hd rfl
          have := hd4 (by rw [d0r_some hd]; rfl)
          omega
      have hd1f : ∀ g b, I.d1 = some (g, b) → b = false := fun g b hd => by
        cases b
        · rfl
        · have h1 := h.hd1 g hd
          have := hd4 (h.d10 (by rw [hd]; rfl)).1
          omega
      refine ⟨V, ?_, ?_⟩
      · rw [hso, h4]
        refine key _ _ _ _ ?_
        have := addDst2_dword I e t (if I.skipDst then none else I.d0r) I.d1
          (if I.skipDst then .const 0 else .null) .null (if I.skipDst then I.d0 else none) none a
          (.const (if hiOf I.s0 then 1 else 0)) (.lo .r1) (Or.inr (Or.inl rfl)) .r3 I.aluSub (.const 0)
          hsc.noshift hst 4 (fun g b hh => by
            split at hh
            · simp at hh
            · exact hd0f g b hh) hd1f t3
        have hget : t.get (.lo .r1) = V := t4
        rw [hget, t1, t2] at this
        have hslots : setOpt (setOpt s.slots (if I.skipDst then none else I.d0r) V 4) I.d1 V 4 =
            setOpt (setOpt s.slots I.d0r V I.dstSz) I.d1 V I.dstSz := by
          cases hd : I.d0r with
          | none =>
            have hd0 := d0r_none hst hd
            have : I.d1 = none := by
              cases hq : I.d1 with
              | none => rfl
              | some x => have := (h.d10 (by rw [hq]; rfl)).1; simp [hd0] at this
            simp [this, setOpt]
          | some x =>
            obtain ⟨g, b⟩ := x
            have hd0 := d0r_some hd
            rw [hd4 (by rw [hd0]; rfl)]
            cases hk : I.skipDst
            · simp
            · simp only [if_true]
              have h0s : I.s0.isSome = true := by
                have : I.s0 = I.d0 := by
                  simp only [App1.skipDst, Bool.and_eq_true, App1.same, beq_iff_eq] at hk
                  exact hk.2.1
                rw [this, hd0]; rfl
              obtain ⟨k0, k1, k2, kf⟩ := skip_facts h hk h0s
              have hb := hd0f g b hd
              subst hb
              have hVe : V = s.slots g := by
                rw [← hV, hal, k0, k1, k2, hd0]; simp [val, fval, kf]
              rw [slots_same s V 4 (by omega) (by simp) (by simp [hVe])]
              rfl
        rw [hslots] at this
        exact this
      · intro k hk
        rw [want_plain (md_false hmd) hao hext, hfl, operand_reg e s _ hs0, operand_reg e s _ h.m1,
          operand_reg e s _ h.m2, l0, l1, l2, ← hV, hal]
        simp only [dig_or, Bool.false_eq_true, if_false, Bool.toNat_false, Nat.zero_add]
    · -- one or two bytes
      have hsz2 : ∀ g b, I.d0r = some (g, b) → I.opsz = I.srcSz := fun g b hd => by
        simp [App1.opsz, d0r_some hd, hsz]
      have hlt : I.opsz < 4 := by
        cases hd : I.d0 with
        | some x =>
          have : I.opsz = I.dstSz := by simp [App1.opsz, hd]
          omega
        | none =>
          simp only [App1.opsz, hd, Option.isSome_none, Bool.false_eq_true, if_false] at h4 ⊢
          revert h4
          cases I.wf <;> cases I.s0.isSome <;> simp <;> omega
      have hfs : I.flagSrc = false := by
        have : ¬4 ≤ I.opsz := by omega
        simp [App1.flagSrc, this]
      have h0s : I.s0.isSome = true := by
        cases hq : I.s0 with
        | some x => rfl
        | none =>
          exfalso
          have h1 : I.s1.isSome = false := by
            cases h1 : I.s1.isSome
            · rfl
            · have := h.s10 h1; simp [hq] at this
          have h2 : I.s2.isSome = false := by
            cases h2 : I.s2.isSome
            · rfl
            · have := h.s21 h2; simp [h1] at this
          have hrf : I.rf = true := by
            simp only [App1.markDefined, Bool.or_eq_false_iff] at hmd
            simpa [hq] using hmd.1.2
          have hd : I.d0.isSome = true := by
            rcases h.flags hrf with hh | hh
            · simp [hq] at hh
            · exact hh
          simp [App1.markDefined, App1.nprop0, App1.nsrc, hld, hq, hfs, h1, h2, hd] at hmd
      have hso : I.srcOpsz = I.srcSz := by
        simp [App1.srcOpsz, hext, App1.srcOpsz0, h0s]
      have hl2 : I.s2.isSome = true → hiOf I.s2 = false ∧ hiOf I.s0 = false := fun hh => by
        have := hsc.s2 hh
        constructor
        · cases hq : hiOf I.s2
          · rfl
          · exact absurd (h.hi2 hq) this
        · cases hq : hiOf I.s0
          · rfl
          · exact absurd (h.hi0 hq) this
      have d2 : ∀ k, operandOpt e s I.s2 k = dig (val s I.s2) ((hiOf I.s0).toNat + k) := fun k => by
        rw [operand_reg e s _ h.m2]
        cases hq : I.s2 with
        | none => simp only [val, dig_zero]
        | some x =>
          have := hl2 (by rw [hq]; rfl)
          rw [hq] at this
          rw [this.1, this.2]
      -- the digits of the result
      have digs : ∀ x : BitVec 8, (∀ k, dig x k = operandOpt e s I.s1 k) → ∀ k,
          dig ((val s I.s0 ||| val s I.s2) >>> (2 * (hiOf I.s0).toNat) ||| x) k = want I e s k := by
        intro x hx k
        rw [want_plain (md_false hmd) hao hext, hfl, operand_reg e s _ hs0, d2, dig_or, dig_shr, dig_or, hx]
        simp only [fval, hfs, Bool.false_eq_true, if_false, dig_zero]
        rw [show ∀ x y z : BitVec 2, x ||| y ||| z ||| (0 : BitVec 2) = x ||| z ||| y from by decide +revert]
      have digs' : I.aluSub = false → ∀ k, dig (V >>> (2 * (hiOf I.s0).toNat)) k = want I e s k := by
        intro hal k
        have hoff1 : I.s1.isSome = true → hiOf I.s1 = hiOf I.s0 := fun hh => by
          have ha : I.alu = false := by simpa [App1.aluSub, hlt, hh] using hal
          have := hoff hlt (by simp only [App1.nsrc, h0s, hh, if_true]; omega) ha hh
          cases hq1 : I.s1 with
          | none => simp [hq1] at hh
          | some x1 =>
            cases hq0 : I.s0 with
            | none => simp [hq0] at h0s
            | some x0 =>
              cases x1 with
              | mem => exact absurd hq1 h.m1
              | reg g1 b1 => cases x0 with
                | mem => exact absurd hq0 hs0
                | reg g0 b0 => rw [hq0, hq1] at this; simpa [offs0, hiOf] using this
        have h1 : ∀ k, dig (val s I.s1 >>> (2 * (hiOf I.s0).toNat)) k = operandOpt e s I.s1 k := fun k => by
          rw [operand_reg e s _ h.m1, dig_shr]
          cases hq : I.s1 with
          | none => simp only [val, dig_zero]
          | some x => rw [← hoff1 (by rw [hq]; rfl), hq]
        rw [← digs _ h1 k, ← hV, hal]
        simp only [fval, hfs, Bool.false_eq_true, if_false, dig_or, dig_shr, dig_zero]
        rw [show ∀ x y z : BitVec 2, x ||| y ||| z ||| (0 : BitVec 2) = x ||| z ||| y from by decide +revert]
      have hc := h.hi0
      rw [hso]
      cases hd : I.d0r with
      | none =>
        have hd0 := d0r_none hst hd
        have hd1 : I.d1 = none := by
          cases hq : I.d1 with
          | none => rfl
          | some x => have := (h.d10 (by rw [hq]; rfl)).1; simp [hd0] at this
        have hal : I.aluSub = false := by
          cases h1 : I.s1 <;> simp [App1.aluSub, App1.alu, App1.same, hst, hd0, h1]
        have hsk : I.skipDst = false := by
          cases hq : I.s0 with
          | none => simp [hq] at h0s
          | some x => simp [App1.skipDst, App1.same, hq, hd0]
        refine ⟨V >>> (2 * (hiOf I.s0).toNat), ?_, fun k _ => digs' hal k⟩
        refine key _ _ _ _ ?_
        rw [hd1, addDst2_one]
        simp only [hsk, Bool.false_eq_true, if_false, Option.isSome_none, Bool.false_or, setOpt, hal]
        cases hwf : I.wf
        · simp only [Bool.false_eq_true, if_false]
          have := WroteBy.nil (I := I) (e := e) (v := V >>> (2 * (hiOf I.s0).toNat)) (sz := I.opsz) t3 hwf
          rw [t1, t2] at this
          exact this
        · have ho : I.opsz = I.srcSz := by simp [App1.opsz, hd0, hwf, h0s]
          simp only [if_true]
          rw [ho]
          have := addDst_none_reg I e t (hiOf I.s0) a none .null (Or.inr rfl) I.srcSz hsc.noshift true t3
            (by omega) hc
          rw [t1, t2, t4] at this
          exact this
      | some x =>
        obtain ⟨g, b⟩ := x
        have hd0 := d0r_some hd
        have ho := hsz2 g b hd
        have hb := h.hid hd
        rw [ho, ← hsz]
        have hs2 : I.srcSz = 1 ∨ I.srcSz = 2 := by omega
        rw [← hsz] at hb
        cases hq1 : I.d1 with
        | some x =>
          obtain ⟨g1, b1⟩ := x
          obtain ⟨hd2, _, ha, hsk⟩ : I.dstSz = 2 ∧ I.hasMem = false ∧ I.alu = false ∧
              I.skipDst = false := by
            rcases hsc.d1 (by rw [hq1]; rfl) with hh | hh | hh | hh
            · simp [hh] at hmd
            · simp [hh] at hck
            · omega
            · exact hh
          have hal : I.aluSub = false := by simp [App1.aluSub, ha]
          have hsz' : I.srcSz = 2 := by omega
          have hc0 : hiOf I.s0 = false := by
            cases hq : hiOf I.s0
            · rfl
            · have := hc hq; omega
          have hb0 : b = false := by
            cases b
            · rfl
            · have := hb rfl; omega
          have hb1 : b1 = false := by
            cases b1
            · rfl
            · have := h.hd1 g1 hq1; omega
          subst hb0 hb1
          refine ⟨V, ?_, fun k _ => by have := digs' hal k; rw [hc0] at this; simpa using this⟩
          refine key _ _ _ _ ?_
          rw [hal, hsk, hsz', hc0]
          simp only [infoOpt, Bool.false_eq_true, if_false, setOpt, addDst2, Info.ofReg, Option.isSome_some,
            Bool.true_or, if_true, Bool.toNat_false]
          obtain ⟨k1, k2⟩ := addDst_reg_keep I e t g a hsc.noshift hst true t3
          rw [t1, t2, t4] at k1
          rw [t4] at k2
          refine WroteBy.append k1 ?_
          have := addDst_reg_reg I e _ g1 false false a 2 hsc.noshift hst true k1.2.wild (Or.inr rfl)
            (by simp) (by simp)
          rw [k1.2.slots, k1.2.mem, k2] at this
          simpa [Info.ofReg] using this
        | none =>
          rw [addDst2_one]
          cases hsk : I.skipDst
          · cases hal : I.aluSub
            · refine ⟨V >>> (2 * (hiOf I.s0).toNat), ?_, fun k _ => digs' hal k⟩
              refine key _ _ _ _ ?_
              simp only [Bool.false_eq_true, if_false, Option.isSome_some, Bool.true_or, if_true, infoOpt, setOpt]
              have := addDst_reg_reg I e t g b (hiOf I.s0) a I.srcSz hsc.noshift hst true t3 hs2 hb hc
              rw [t1, t2, t4] at this
              exact this
            · have hs1 : I.s1 = I.d0 := by
                simp only [App1.aluSub, App1.alu, App1.same, hst, Bool.and_eq_true, Bool.or_eq_true,
                  beq_iff_eq, Bool.false_eq_true, false_and, false_or] at hal
                exact hal.1.2.2.1
              have hVe : V = val s I.s0 ||| val s I.s2 := by
                rw [← hV, hal]; simp [fval, hfs]
              refine ⟨V >>> (2 * (hiOf I.s0).toNat) ||| s.slots g >>> (2 * b.toNat), ?_, fun k _ => by
                rw [hVe]
                refine digs _ (fun k => ?_) k
                rw [operand_reg e s _ h.m1, hs1, hd0, dig_shr]; rfl⟩
              refine key _ _ _ _ ?_
              simp only [Bool.false_eq_true, if_false, Option.isSome_some, Bool.true_or, if_true, infoOpt, setOpt]
              have := addDst_reg_reg_alu I e t g b (hiOf I.s0) a I.srcSz hsc.noshift hst true t3 hs2 hb hc
              rw [t1, t2, t4] at this
              exact this
          · obtain ⟨k0, k1, k2, kf⟩ := skip_facts h hsk h0s
            have hal : I.aluSub = false := by simp [App1.aluSub, k1]
            refine ⟨V >>> (2 * (hiOf I.s0).toNat), ?_, fun k _ => digs' hal k⟩
            refine key _ _ _ _ ?_
            have hVe : V = s.slots g := by
              rw [← hV, hal, k0, k1, k2, hd0]; simp [val, fval, kf]
            have hcb : hiOf I.s0 = b := by rw [k0, hd0]; rfl
            have hslots : setOpt (setOpt s.slots (some (g, b)) (V >>> (2 * (hiOf I.s0).toNat)) I.srcSz) none
                (V >>> (2 * (hiOf I.s0).toNat)) I.srcSz = s.slots := by
              rw [slots_same s _ I.srcSz (by omega) (hi_toNat (by omega) hb) (by rw [hVe, hcb])]
              rfl
            rw [hslots, hal]
            simp only [if_true, Option.isSome_none, Bool.false_or, infoOpt]
            cases hwf : I.wf
            · simp only [Bool.false_eq_true, if_false]
              have := WroteBy.nil (I := I) (e := e) (v := V >>> (2 * (hiOf I.s0).toNat)) (sz := I.srcSz)
                t3 hwf
              rw [t1, t2] at this
              exact this
            · simp only [if_true]
              have := addDst_none_reg I e t (hiOf I.s0) a I.d0 (.const 0) (Or.inl rfl) I.srcSz hsc.noshift
                true t3 hs2 hc
              rw [t1, t2, t4] at this
              exact this

end Verif.FastX86
