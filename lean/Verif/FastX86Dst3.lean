import Verif.FastX86Dst2

/-! Writes of constants, of whole dwords, of flags only, and of the first of two registers. -/

namespace Verif.FastX86

/-- Like `x86_wrote`, when only flags may change. -/
macro "x86_wroteF" : tactic => `(tactic|
  (constructor
   · rfl
   · rfl
   · first | rfl | assumption
   · intro hfl
     first
       | (simp at hfl; done)
       | exact absurd (show true = false from hfl.2.symm.trans (by assumption)) (by decide)
       | (x86_bits; done)
   · intro hfl
     first
       | rfl
       | exact absurd (And.intro rfl (by assumption)) hfl))

/-- No destination, from a register. -/
theorem addDst_none_reg (I : App1) (e : Env) (s : St) (c : Bool) (a d : Option App) (o : Offs)
    (ho : o = .const 0 ∨ o = .null)
    (sz : Nat) (hop : I.op.shadowOp = false) (fl : Bool)
    (hw : s.wild = false) (hsz : sz = 1 ∨ sz = 2) (hc : c = true → sz = 1) :
    WroteBy I e (addDst I (.const 0) ⟨d, none, o⟩
        ⟨a, some (.lo .r1), .const (if c then 1 else 0)⟩ sz sz .r3 fl false false) s
      s.slots s.mem fl (s.r1.l >>> (2 * c.toNat)) sz := by
  have hso := shadowOp_nil hop
  rcases ho with rfl | rfl <;> rcases hsz with rfl | rfl <;> cases c <;> cases fl <;>
    cases hwf : I.wf <;> unfold WroteBy
  all_goals first | (exfalso; simp at hc; done) | skip
  all_goals x86_run; x86_wroteF

/-- No destination, from memory. -/
theorem addDst_none_load (I : App1) (e : Env) (s : St) (a d : Option App) (o : Offs)
    (ho : o = .const 0 ∨ o = .null)
    (sz : Nat) (hop : I.op.shadowOp = false) (fl : Bool) (hr : s.r1.h = e.off)
    (hw : s.wild = false) (hsz : sz = 1 ∨ sz = 2) (hal : sz = 2 → e.off.toNat % 2 = 0) :
    WroteBy I e (addDst I (.reg (.hi .r1)) ⟨d, none, o⟩
        ⟨a, some (.lo .r2), .reg (.hi .r1)⟩ sz sz .r3 fl false false) s
      s.slots s.mem fl (s.r2.l >>> (2 * e.off.toNat)) sz := by
  have hso := shadowOp_nil hop
  rcases ho with rfl | rfl <;> rcases hsz with rfl | rfl <;> cases fl <;>
    cases hwf : I.wf <;> unfold WroteBy
  all_goals
    rcases off_cases e with ho | ho | ho | ho <;> rw [ho] at hr ⊢ <;>
    first | (exfalso; simp [ho] at hal; done) | (x86_run; x86_wroteF)

/-- No destination to be written, from the memory that is source and destination. -/
theorem addDst_none_store (I : App1) (e : Env) (s : St) (a d : Option App) (o : Offs)
    (ho : o = .const 0 ∨ o = .null)
    (sz : Nat) (hop : I.op.shadowOp = false) (fl : Bool) (hr : s.r2.h = e.off)
    (hw : s.wild = false) (hsz : sz = 1 ∨ sz = 2) (hal : sz = 2 → e.off.toNat % 2 = 0) :
    WroteBy I e (addDst I (.reg (.hi .r2)) ⟨d, none, o⟩
        ⟨a, some (.lo .r2), .reg (.hi .r2)⟩ sz sz .r3 fl false false) s
      s.slots s.mem fl (s.r2.l >>> (2 * e.off.toNat)) sz := by
  have hso := shadowOp_nil hop
  rcases ho with rfl | rfl <;> rcases hsz with rfl | rfl <;> cases fl <;>
    cases hwf : I.wf <;> unfold WroteBy
  all_goals
    rcases off_cases e with ho | ho | ho | ho <;> rw [ho] at hr ⊢ <;>
    first | (exfalso; simp [ho] at hal; done) | (x86_run; x86_wroteF)

/-- A register destination is marked defined. -/
theorem addDst_zero_reg (I : App1) (e : Env) (s : St) (g : Fin 8) (b : Bool) (a : Option App)
    (mo : Offs) (scr : Role) (pr : Bool)
    (sz : Nat) (hst : I.store = false) (fl : Bool)
    (hw : s.wild = false) (hsz : sz = 1 ∨ sz = 2) (hb : b = true → sz = 1) :
    WroteBy I e (addDst I mo (.ofReg g b) ⟨a, some (.imm 0), .const 0⟩ sz sz scr fl false pr) s
      (setSlot s.slots g (put (s.slots g) 0 b.toNat sz)) s.mem fl 0 sz := by
  rcases hsz with rfl | rfl <;> cases b <;> cases fl <;>
    cases hwf : I.wf <;> unfold WroteBy
  all_goals first | (exfalso; simp at hb; done) | skip
  all_goals x86_run; x86_wrote g

/-- A memory destination is marked defined. -/
theorem addDst_zero_mem (I : App1) (e : Env) (s : St) (a d : Option App)
    (sz : Nat) (hst : I.store = true) (fl : Bool) (hr : s.r2.h = e.off)
    (hw : s.wild = false) (hsz : sz = 1 ∨ sz = 2) (hal : sz = 2 → e.off.toNat % 2 = 0) :
    WroteBy I e (addDst I (.reg (.hi .r2)) ⟨d, some .cell, .reg (.hi .r2)⟩
        ⟨a, some (.imm 0), .const 0⟩ sz sz .r2 fl false false) s
      s.slots (setMem s.mem s.r1 (put (s.mem s.r1) 0 e.off.toNat sz)) fl 0 sz := by
  rcases hsz with rfl | rfl <;> cases fl <;> cases hwf : I.wf <;> unfold WroteBy
  all_goals
    rcases off_cases e with ho | ho | ho | ho <;> rw [ho] at hr ⊢ <;>
    first
      | (exfalso; simp [ho] at hal; done)
      | (x86_runM s.r1)

theorem put_four (x y : BitVec 8) : put x y 0 4 = y := by
  simp [put, fmask]; simp [bv8_ext]

/-- The operands that hold a value to be propagated. -/
def St.srcVal (s : St) (o : Opnd) : BitVec 8 := s.get o

/-- A whole dword, to a register. -/
theorem addDst4_reg (I : App1) (e : Env) (s : St) (g : Fin 8) (a d : Option App) (do_ o : Offs)
    (sh : Opnd) (hsh : sh = .imm 0 ∨ sh = .lo .r1 ∨ sh = .lo .r2) (scr : Role) (alu pr : Bool)
    (mo : Offs) (hop : I.op.shadowOp = false) (hst : I.store = false) (fl : Bool)
    (dsz : Nat) (hw : s.wild = false) :
    WroteBy I e (addDst I mo ⟨d, some (.slot g), do_⟩ ⟨a, some sh, o⟩ 4 dsz scr fl alu pr) s
      (setSlot s.slots g (s.get sh)) s.mem fl (s.get sh) 4 := by
  have hso := shadowOp_nil hop
  rcases hsh with rfl | rfl | rfl <;> cases fl <;> cases hwf : I.wf <;> unfold WroteBy
  all_goals x86_run; x86_wrote g

/-- A whole dword, to memory. -/
theorem addDst4_mem (I : App1) (e : Env) (s : St) (a d : Option App) (do_ o : Offs)
    (sh : Opnd) (hsh : sh = .imm 0 ∨ sh = .lo .r1 ∨ sh = .lo .r2) (scr : Role) (alu pr : Bool)
    (mo : Offs) (hop : I.op.shadowOp = false) (hst : I.store = true) (fl : Bool)
    (dsz : Nat) (hw : s.wild = false) :
    WroteBy I e (addDst I mo ⟨d, some .cell, do_⟩ ⟨a, some sh, o⟩ 4 dsz scr fl alu pr) s
      s.slots (setMem s.mem s.r1 (s.get sh)) fl (s.get sh) 4 := by
  have hso := shadowOp_nil hop
  rcases hsh with rfl | rfl | rfl <;> cases fl <;> cases hwf : I.wf <;> unfold WroteBy
  all_goals x86_runM s.r1

/-- A whole dword, flags only. -/
theorem addDst4_none (I : App1) (e : Env) (s : St) (a d : Option App) (do_ o : Offs)
    (sh : Opnd) (hsh : sh = .imm 0 ∨ sh = .lo .r1 ∨ sh = .lo .r2) (scr : Role) (alu pr : Bool)
    (mo : Offs) (hop : I.op.shadowOp = false) (fl : Bool)
    (dsz : Nat) (hw : s.wild = false) :
    WroteBy I e (addDst I mo ⟨d, none, do_⟩ ⟨a, some sh, o⟩ 4 dsz scr fl alu pr) s
      s.slots s.mem fl (s.get sh) 4 := by
  have hso := shadowOp_nil hop
  rcases hsh with rfl | rfl | rfl <;> cases fl <;> cases hwf : I.wf <;> unfold WroteBy
  all_goals x86_run; x86_wroteF

end Verif.FastX86
