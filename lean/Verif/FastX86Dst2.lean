import Verif.FastX86Dst

/-! Further forms of writing a destination: memory, two registers, flags only. -/

namespace Verif.FastX86

/-- A shadow byte in memory replaced. -/
def setMem (m : R → BitVec 8) (p : R) (v : BitVec 8) : R → BitVec 8 :=
  fun q => if q = p then v else m q

/-- Like `x86_wrote`, for a write to memory. -/
macro "x86_wroteM" p:term : tactic => `(tactic|
  (constructor
   · rfl
   · funext k
     by_cases hk : k = $p
     · simp only [setMem, hk, if_true] <;> x86_bits
     · simp only [setMem, hk, if_false]
   · first | rfl | assumption
   · intro hfl
     first
       | (simp at hfl; done)
       | exact absurd (show true = false from hfl.2.symm.trans (by assumption)) (by decide)
       | (x86_bits; done)
   · intro hfl
     first
       | rfl
       | exact absurd (And.intro rfl (by assumption)) hfl))

/-- Like `x86_run`, without hypotheses. -/
macro "x86_run0" : tactic => `(tactic|
  simp (config := { failIfUnchanged := false, maxSteps := 400000 })
    [exe, Ins.ok, Opnd.pairOk, Opnd.isMem, Opnd.role, exec, St.get, St.set, St.reg, St.setReg,
      keepMask, restMask, St.count])

/-- Runs code with one conditional jump. -/
macro "x86_runM" p:term : tactic => `(tactic|
  (x86_run
   split
   · next hif =>
     x86_run0
     x86_wroteM $p
   · next hif =>
     clear hif
     x86_run
     x86_wroteM $p))

/-- A memory destination, from a register. -/
theorem addDst_mem_reg (I : App1) (e : Env) (s : St) (c : Bool) (a d : Option App)
    (sz : Nat) (hop : I.op.shadowOp = false) (hst : I.store = true) (fl : Bool)
    (hr : s.r2.h = e.off) (hw : s.wild = false) (hsz : sz = 1 ∨ sz = 2)
    (hc : c = true → sz = 1) (hal : sz = 2 → e.off.toNat % 2 = 0)
    (hA : c = true → e.off.toNat ≠ 0) :
    WroteBy I e (addDst I (.reg (.hi .r2)) ⟨d, some .cell, .reg (.hi .r2)⟩
        ⟨a, some (.lo .r2), .const (if c then 1 else 0)⟩ sz sz .r3 fl false false) s
      s.slots (setMem s.mem s.r1 (put (s.mem s.r1) (s.r2.l >>> (2 * c.toNat)) e.off.toNat sz))
      fl (s.r2.l >>> (2 * c.toNat)) sz := by
  have hso := shadowOp_nil hop
  rcases hsz with rfl | rfl <;> cases c <;> cases fl <;> cases hwf : I.wf <;> unfold WroteBy
  all_goals first | (exfalso; simp at hc; done) | skip
  all_goals
    rcases off_cases e with ho | ho | ho | ho <;> rw [ho] at hr hA ⊢ <;>
    first
      | (exfalso; simp [ho] at hal; done)
      | (exfalso; simp at hA; done)
      | (x86_runM s.r1)

/-- A memory destination that is also a source, from a register. -/
theorem addDst_mem_reg_alu (I : App1) (e : Env) (s : St) (c : Bool) (a d : Option App)
    (sz : Nat) (hop : I.op.shadowOp = false) (hst : I.store = true) (fl : Bool)
    (hr : s.r2.h = e.off) (hw : s.wild = false) (hsz : sz = 1 ∨ sz = 2)
    (hc : c = true → sz = 1) (hal : sz = 2 → e.off.toNat % 2 = 0)
    (hA : c = true → e.off.toNat ≠ 0) :
    WroteBy I e (addDst I (.reg (.hi .r2)) ⟨d, some .cell, .reg (.hi .r2)⟩
        ⟨a, some (.lo .r2), .const (if c then 1 else 0)⟩ sz sz .r3 fl true false) s
      s.slots (setMem s.mem s.r1 (put (s.mem s.r1)
        ((s.r2.l >>> (2 * c.toNat)) ||| (s.mem s.r1 >>> (2 * e.off.toNat))) e.off.toNat sz))
      fl ((s.r2.l >>> (2 * c.toNat)) ||| (s.mem s.r1 >>> (2 * e.off.toNat))) sz := by
  have hso := shadowOp_nil hop
  rcases hsz with rfl | rfl <;> cases c <;> cases fl <;> cases hwf : I.wf <;> unfold WroteBy
  all_goals first | (exfalso; simp at hc; done) | skip
  all_goals
    rcases off_cases e with ho | ho | ho | ho <;> rw [ho] at hr hA ⊢ <;>
    first
      | (exfalso; simp [ho] at hal; done)
      | (exfalso; simp at hA; done)
      | (x86_runM s.r1)

end Verif.FastX86
