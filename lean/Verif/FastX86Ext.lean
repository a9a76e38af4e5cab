import Verif.FastX86Dst3

/-! movzx and movsx to 4 bytes, and the first of two destinations. -/

namespace Verif.FastX86

set_option linter.unusedSimpArgs false

/-- The first two bytes, the second one repeated. -/
def sext2 (x : BitVec 8) : BitVec 8 :=
  (x &&& 15#8) ||| ((x &&& 12#8) <<< 2) ||| ((x &&& 12#8) <<< 4)

/-- The first byte repeated. -/
def sext1 (x : BitVec 8) : BitVec 8 :=
  (x &&& 3#8) ||| ((x &&& 3#8) <<< 2) ||| ((x &&& 3#8) <<< 4) ||| ((x &&& 3#8) <<< 6)

theorem tbl_two (x : BitVec 8) :
    Tbl.twoToDword.list[(x &&& 3#8).toNat]? = some (sext1 x).toNat := by
  have h : ∀ n < 256, Tbl.twoToDword.list[(BitVec.ofNat 8 n &&& 3#8).toNat]? =
      some (sext1 (BitVec.ofNat 8 n)).toNat := by decide +kernel
  have := h x.toNat x.isLt
  rwa [BitVec.ofNat_toNat, BitVec.setWidth_eq] at this

theorem tbl_four (x : BitVec 8) :
    Tbl.fourToDword.list[(x &&& 15#8).toNat]? = some (sext2 x).toNat := by
  have h : ∀ n < 256, Tbl.fourToDword.list[(BitVec.ofNat 8 n &&& 15#8).toNat]? =
      some (sext2 (BitVec.ofNat 8 n)).toNat := by decide +kernel
  have := h x.toNat x.isLt
  rwa [BitVec.ofNat_toNat, BitVec.setWidth_eq] at this

theorem R.num_lo' (v : BitVec 8) : R.num ⟨0#16, 0#8, v⟩ = v.toNat := R.num_lo v

/-- The extension of the first `sz` bytes to four. -/
def extend (op : Op) (sz : Nat) (x : BitVec 8) : BitVec 8 :=
  if op = .movsx then (if sz = 1 then sext1 x else sext2 x) else x &&& fmask sz

/-- An extension of a register. -/
theorem addDst_ext_reg (I : App1) (e : Env) (s : St) (g : Fin 8) (c : Bool) (a : Option App)
    (sz : Nat) (hop : I.op = .movzx ∨ I.op = .movsx) (hst : I.store = false) (fl : Bool)
    (hwf : I.wf = false) (hw : s.wild = false) (hsz : sz = 1 ∨ sz = 2) (hc : c = true → sz = 1) :
    WroteBy I e (addDst I (.const 0) (.ofReg g false)
        ⟨a, some (.lo .r1), .const (if c then 1 else 0)⟩ sz 4 .r3 fl false false) s
      (setSlot s.slots g (extend I.op sz (s.r1.l >>> (2 * c.toNat)))) s.mem fl 0 4 := by
  have hso : I.op.shadowOp = false := by rcases hop with h | h <;> rw [h] <;> rfl
  have hso := shadowOp_nil hso
  rcases hsz with rfl | rfl <;> cases c <;> cases fl <;> rcases hop with hop | hop <;>
    unfold WroteBy
  all_goals first | (exfalso; simp at hc; done) | skip
  all_goals
    (simp [addDst, Info.ofReg, on, writeFlags, checkDatastore, getShift, exe, Ins.ok,
        Opnd.pairOk, Opnd.isMem, Opnd.role, exec, St.get, St.set, St.reg, St.setReg, keepMask,
        restMask, St.count, R.num_lo', tbl_two, tbl_four, extend, shadowOp,
        -BitVec.toNat_and, *]
     constructor
     · funext k
       by_cases hk : k = g
       · simp only [setSlot, hk, if_true, sext1, sext2] <;> x86_bits
       · simp only [setSlot, hk, if_false]
     · rfl
     · rfl
     · intro hfl
       exact absurd (show true = false from hfl.2.symm.trans (by assumption)) (by decide)
     · intro hfl; rfl)

/-- An extension of memory. -/
theorem addDst_ext_mem (I : App1) (e : Env) (s : St) (g : Fin 8) (a : Option App)
    (sz : Nat) (hop : I.op = .movzx ∨ I.op = .movsx) (hst : I.store = false) (fl : Bool)
    (hr : s.r1.h = e.off)
    (hwf : I.wf = false) (hw : s.wild = false) (hsz : sz = 1 ∨ sz = 2)
    (hal : sz = 2 → e.off.toNat % 2 = 0) :
    WroteBy I e (addDst I (.reg (.hi .r1)) (.ofReg g false)
        ⟨a, some (.lo .r2), .reg (.hi .r1)⟩ sz 4 .r3 fl false false) s
      (setSlot s.slots g (extend I.op sz (s.r2.l >>> (2 * e.off.toNat)))) s.mem fl 0 4 := by
  have hso : I.op.shadowOp = false := by rcases hop with h | h <;> rw [h] <;> rfl
  have hso := shadowOp_nil hso
  rcases hsz with rfl | rfl <;> cases fl <;> rcases hop with hop | hop <;>
    unfold WroteBy
  all_goals
    rcases off_cases e with ho | ho | ho | ho <;> rw [ho] at hr ⊢ <;>
    first
    | (exfalso; simp [ho] at hal; done)
    | (simp [addDst, Info.ofReg, on, writeFlags, checkDatastore, getShift, exe, Ins.ok,
        Opnd.pairOk, Opnd.isMem, Opnd.role, exec, St.get, St.set, St.reg, St.setReg, keepMask,
        restMask, St.count, R.num_lo', tbl_two, tbl_four, extend, shadowOp,
        -BitVec.toNat_and, *]
       constructor
       · funext k
         by_cases hk : k = g
         · simp only [setSlot, hk, if_true, sext1, sext2] <;> x86_bits
         · simp only [setSlot, hk, if_false]
       · rfl
       · rfl
       · intro hfl
         exact absurd (show true = false from hfl.2.symm.trans (by assumption)) (by decide)
       · intro hfl; rfl)

/-- The first of two register destinations of 2 bytes; the value is kept. -/
theorem addDst_reg_keep (I : App1) (e : Env) (s : St) (g : Fin 8) (a : Option App)
    (hop : I.op.shadowOp = false) (hst : I.store = false) (fl : Bool) (hw : s.wild = false) :
    WroteBy I e (addDst I (.const 0) (.ofReg g false)
        ⟨a, some (.lo .r1), .const 0⟩ 2 2 .r3 fl false true) s
      (setSlot s.slots g (put (s.slots g) s.r1.l 0 2)) s.mem fl s.r1.l 2 ∧
    (exe e (addDst I (.const 0) (.ofReg g false)
        ⟨a, some (.lo .r1), .const 0⟩ 2 2 .r3 fl false true) none s).2.r1.l = s.r1.l := by
  have hso := shadowOp_nil hop
  cases fl <;> cases hwf : I.wf <;> unfold WroteBy
  all_goals x86_run; x86_wrote g

/-- Writing a dword to a register keeps the value. -/
theorem addDst4_keep (I : App1) (e : Env) (s : St) (g : Fin 8) (a d : Option App) (do_ o : Offs)
    (sh : Opnd) (hsh : sh = .imm 0 ∨ sh = .lo .r1 ∨ sh = .lo .r2) (scr : Role) (alu pr : Bool)
    (mo : Offs) (hop : I.op.shadowOp = false) (hst : I.store = false) (fl : Bool)
    (dsz : Nat) :
    (exe e (addDst I mo ⟨d, some (.slot g), do_⟩ ⟨a, some sh, o⟩ 4 dsz scr fl alu pr) none s).2.get sh
      = s.get sh := by
  have hso := shadowOp_nil hop
  rcases hsh with rfl | rfl | rfl <;> cases fl <;> cases hwf : I.wf <;> x86_run

end Verif.FastX86
