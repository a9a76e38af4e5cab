import Verif.FastX86Run

/-! The part of the emitted code before the propagation: translation and checks. -/

namespace Verif.FastX86

/-- The offset of the memory operand in its dword. -/
def Env.off (e : Env) : BitVec 8 := e.addr.l &&& 3

/-- The shadow byte of the memory operand. -/
def St.cellOf (s : St) (e : Env) : BitVec 8 := s.mem (e.xl e.addr)

/-- The memory operand crosses its natural alignment. -/
def Mis (I : App1) (e : Env) : Prop :=
  (I.memsz = 2 ∧ e.addr.l &&& 1 ≠ 0) ∨ (I.memsz = 4 ∧ e.addr.l &&& 3 ≠ 0)

instance (I : App1) (e : Env) : Decidable (Mis I e) := by unfold Mis; infer_instance

/-- The registers after the translation. -/
structure InvMem (I : App1) (e : Env) (s s' : St) : Prop where
  same : Same s s'
  st1 : I.store = true → s'.r1 = e.xl e.addr
  st2 : I.store = true → I.zeroRest = true → s'.r2 = ⟨0, e.off, 0⟩
  ld2 : I.load = true → s'.r2 = ⟨0, 0, s.cellOf e⟩
  ldo : I.load = true → I.zeroRest = true → ∃ o r, I.memoffs = .reg o ∧ o = .hi r ∧ r ≠ .r2 ∧
    s'.reg r = ⟨0, e.off, 0⟩ ∧ (I.needOffs = true → r = .r1)

/-- How the settings for a memory operand depend on each other. -/
structure MemCfg (I : App1) : Prop where
  sz : I.memsz = 1 ∨ I.memsz = 2 ∨ I.memsz = 4
  ls : I.load = true ∨ I.store = true
  excl : I.load = true → I.store = false
  nz : I.needOffs = true → I.zeroRest = true
  sn : I.store = true → I.zeroRest = true → I.needOffs = true
  el : I.needEarly = true → I.load = true
  en : I.needEarly = true → I.needOffs = false
  sub : I.zeroRest = true → I.memsz < 4

theorem lookup2_goes (I : App1) (e : Env) (s : St) (h1 : s.r1 = e.addr) (hw : s.wild = false)
    (C : MemCfg I) : ∃ s', Goes e (lookup2 I) s none s' ∧ InvMem I e s s' := by
  refine ⟨execL e (lookup2 I) s, goes_execL e _ s ?_, ?_⟩
  · have := C.nz; have := C.en
    unfold lookup2 App1.memoffs
    rcases C.ls with hl | hl <;> cases hn : I.needOffs <;> cases he : I.needEarly <;>
      cases hz : I.zeroRest <;> cases hld : I.load <;>
      simp_all [Ins.straight, Opnd.role]
  · have c1 := C.nz; have c2 := C.en; have c3 := C.sn; have c4 := C.excl; have c5 := C.el
    rcases C.ls with hl | hl <;> cases hn : I.needOffs <;> cases he : I.needEarly <;>
      cases hz : I.zeroRest <;> cases hld : I.load <;> cases hst : I.store <;>
      simp_all <;>
      (constructor <;>
        simp_all [lookup2, App1.memoffs, execL, exec, Ins.ok, Opnd.role, Opnd.pairOk, Opnd.isMem,
          St.set, St.get, St.reg, St.setReg, Env.off, St.cellOf]
       try (constructor <;> simp_all))

theorem toNat_dig (v : BitVec 8) (j : Nat) : (dig v j).toNat = ShadowTables.digit v.toNat j := by
  simp only [dig, BitVec.extractLsb'_toNat, ShadowTables.digit, Nat.shiftRight_eq_div_pow,
    Nat.pow_mul]

theorem dig_eq_zero (v : BitVec 8) (j : Nat) : dig v j = 0 ↔ ShadowTables.digit v.toNat j = 0 := by
  rw [← toNat_dig, BitVec.toNat_eq]; simp

theorem dig_eq_three (v : BitVec 8) (j : Nat) : dig v j = 3 ↔ ShadowTables.digit v.toNat j = 3 := by
  rw [← toNat_dig, BitVec.toNat_eq]; simp

/-- Byte `j` is defined or undefined: addressable, and not tracked bit by bit. -/
def Addr (v : BitVec 8) (j : Nat) : Prop := dig v j = 0 ∨ dig v j = 3

instance (v : BitVec 8) (j : Nat) : Decidable (Addr v j) := by unfold Addr; infer_instance

theorem tbl_byteDefined (v : BitVec 8) {o : Nat} (ho : o < 4) :
    Tbl.byteDefined.list[256 * o + v.toNat]? = some (if dig v o = 0 then 1 else 0) := by
  rw [Tbl.list, ShadowTables.C12_byte_defined.2 o ho _ v.isLt]
  simp only [dig_eq_zero]

theorem tbl_wordDefined (v : BitVec 8) {o : Nat} (ho : o < 4) :
    Tbl.wordDefined.list[256 * o + v.toNat]? =
      some (if o % 2 = 0 ∧ dig v o = 0 ∧ dig v (o + 1) = 0 then 1 else 0) := by
  rw [Tbl.list, ShadowTables.C12_word_defined.2 o ho _ v.isLt]
  simp only [dig_eq_zero]

theorem tbl_byteAddr (v : BitVec 8) {o : Nat} (ho : o < 4) :
    Tbl.byteAddrNotBit.list[256 * o + v.toNat]? = some (if Addr v o then 1 else 0) := by
  rw [Tbl.list, ShadowTables.C12_byte_addr_not_bit.2 o ho _ v.isLt]
  simp only [Addr, dig_eq_zero, dig_eq_three]

theorem tbl_wordAddr (v : BitVec 8) {o : Nat} (ho : o < 4) :
    Tbl.wordAddrNotBit.list[256 * o + v.toNat]? =
      some (if o % 2 = 0 ∧ Addr v o ∧ Addr v (o + 1) then 1 else 0) := by
  rw [Tbl.list, ShadowTables.C12_word_addr_not_bit.2 o ho _ v.isLt]
  simp only [Addr, dig_eq_zero, dig_eq_three]

theorem tbl_dwordAddr (v : BitVec 8) :
    Tbl.dwordAddrNotBit.list[v.toNat]? =
      some (if Addr v 0 ∧ Addr v 1 ∧ Addr v 2 ∧ Addr v 3 then 1 else 0) := by
  rw [Tbl.list, ShadowTables.C12_dword_is_addr_not_bit.2 _ v.isLt]
  simp only [Addr, dig_eq_zero, dig_eq_three]

/-- A comparison with an entry of a table. -/
theorem exec_cmpTbl {e : Env} {s : St} {t : Tbl} {d n : Nat} {b : Role} {i : Option Role} {P : Prop}
    [Decidable P]
    (hn : d + (s.reg b).num + s.idx i = n)
    (ht : t.list[n]? = some (if P then 1 else 0)) :
    exec e s (.cmpTbl t d b i) = { s with zf := decide P } := by
  simp only [exec]
  rw [hn, ht]
  by_cases h : P <;> simp [h]

theorem R.num_lo (v : BitVec 8) : R.num ⟨0, 0, v⟩ = v.toNat := by simp [R.num]

theorem R.num_hi (v : BitVec 8) : R.num ⟨0, v, 0⟩ = v.toNat * 256 := by simp [R.num]

theorem Env.off_lt (e : Env) : e.off.toNat < 4 := by
  have : e.off.toNat = e.addr.l.toNat &&& 3 := by simp [Env.off]
  have := Nat.and_le_right (n := e.addr.l.toNat) (m := 3)
  omega

theorem off_even {e : Env} (h : e.addr.l &&& 1 = 0) : e.off.toNat % 2 = 0 := by
  have h1 : e.addr.l.toNat &&& 1 = 0 := by
    have := congrArg BitVec.toNat h
    simpa using this
  have h2 : e.off.toNat = e.addr.l.toNat &&& 3 := by simp [Env.off]
  rw [Nat.and_one_is_mod] at h1
  rw [h2, show (3 : Nat) = 2 ^ 2 - 1 by rfl, Nat.and_two_pow_sub_one_eq_mod]
  omega

/-- All of `sz` bytes from `o` on are defined. -/
def FieldDef (v : BitVec 8) (o sz : Nat) : Prop := ∀ k < sz, dig v (o + k) = 0

instance (v : BitVec 8) (o sz : Nat) : Decidable (FieldDef v o sz) := by
  unfold FieldDef; infer_instance

/-- All of `sz` bytes from `o` on are addressable. -/
def FieldAddr (v : BitVec 8) (o sz : Nat) : Prop := ∀ k < sz, Addr v (o + k)

instance (v : BitVec 8) (o sz : Nat) : Decidable (FieldAddr v o sz) := by
  unfold FieldAddr; infer_instance

theorem forall_lt_one {P : Nat → Prop} : (∀ k < 1, P k) ↔ P 0 :=
  ⟨fun h => h 0 (by omega), fun h k hk => by rw [show k = 0 by omega]; exact h⟩

theorem forall_lt_two {P : Nat → Prop} : (∀ k < 2, P k) ↔ P 0 ∧ P 1 :=
  ⟨fun h => ⟨h 0 (by omega), h 1 (by omega)⟩, fun h k hk => by
    rcases (show k = 0 ∨ k = 1 by omega) with rfl | rfl
    · exact h.1
    · exact h.2⟩

theorem forall_lt_four {P : Nat → Prop} : (∀ k < 4, P k) ↔ P 0 ∧ P 1 ∧ P 2 ∧ P 3 :=
  ⟨fun h => ⟨h 0 (by omega), h 1 (by omega), h 2 (by omega), h 3 (by omega)⟩, fun h k hk => by
    rcases (show k = 0 ∨ k = 1 ∨ k = 2 ∨ k = 3 by omega) with rfl | rfl | rfl | rfl
    · exact h.1
    · exact h.2.1
    · exact h.2.2.1
    · exact h.2.2.2⟩

/-- A table of definedness for 1 or 2 bytes at an even offset. -/
theorem tbl_defined (v : BitVec 8) {o sz : Nat} (ho : o < 4) (hs : sz = 1 ∨ sz = 2)
    (ha : sz = 2 → o % 2 = 0) :
    (if sz = 1 then Tbl.byteDefined else .wordDefined).list[256 * o + v.toNat]? =
      some (if FieldDef v o sz then 1 else 0) := by
  rcases hs with rfl | rfl
  · simp only [if_true, tbl_byteDefined v ho, FieldDef, forall_lt_one, Nat.add_zero]
  · simp only [show ¬(2 = 1) by omega, if_false, tbl_wordDefined v ho, FieldDef, forall_lt_two,
      Nat.add_zero, ha rfl, true_and]

/-- A table of addressability for 1 or 2 bytes at an even offset. -/
theorem tbl_addr (v : BitVec 8) {o sz : Nat} (ho : o < 4) (hs : sz = 1 ∨ sz = 2)
    (ha : sz = 2 → o % 2 = 0) :
    (if sz = 1 then Tbl.byteAddrNotBit else .wordAddrNotBit).list[256 * o + v.toNat]? =
      some (if FieldAddr v o sz then 1 else 0) := by
  rcases hs with rfl | rfl
  · simp only [if_true, tbl_byteAddr v ho, FieldAddr, forall_lt_one, Nat.add_zero]
  · simp only [show ¬(2 = 1) by omega, if_false, tbl_wordAddr v ho, FieldAddr, forall_lt_two,
      Nat.add_zero, ha rfl, true_and]

theorem tbl_addr4 (v : BitVec 8) :
    Tbl.dwordAddrNotBit.list[v.toNat]? = some (if FieldAddr v 0 4 then 1 else 0) := by
  simp only [tbl_dwordAddr, FieldAddr, forall_lt_four, Nat.zero_add]

end Verif.FastX86
