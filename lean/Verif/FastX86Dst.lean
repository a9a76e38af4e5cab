import Verif.FastX86Clear

/-! Writing a destination: the sub-dword forms compute `put`. -/

namespace Verif.FastX86

theorem bv8_ext (x y : BitVec 8) : x = y ↔
    x.getLsbD 0 = y.getLsbD 0 ∧ x.getLsbD 1 = y.getLsbD 1 ∧ x.getLsbD 2 = y.getLsbD 2 ∧
    x.getLsbD 3 = y.getLsbD 3 ∧ x.getLsbD 4 = y.getLsbD 4 ∧ x.getLsbD 5 = y.getLsbD 5 ∧
    x.getLsbD 6 = y.getLsbD 6 ∧ x.getLsbD 7 = y.getLsbD 7 := by
  constructor
  · rintro rfl; simp
  · rintro ⟨h0, h1, h2, h3, h4, h5, h6, h7⟩
    apply BitVec.eq_of_getLsbD_eq
    intro i hi
    have : i = 0 ∨ i = 1 ∨ i = 2 ∨ i = 3 ∨ i = 4 ∨ i = 5 ∨ i = 6 ∨ i = 7 := by omega
    rcases this with rfl | rfl | rfl | rfl | rfl | rfl | rfl | rfl <;> assumption

/-- What one write of a destination does: `g`, `m` are the new shadow registers and memory, `v` the
value, of `sz` bytes. -/
structure Wrote (I : App1) (s s2 : St) (sl : Fin 8 → BitVec 8) (mem : R → BitVec 8)
    (flags : Bool) (v : BitVec 8) (sz : Nat) : Prop where
  slots : s2.slots = sl
  mem : s2.mem = mem
  wild : s2.wild = false
  fl : flags = true ∧ I.wf = true → (s2.flags = 0 ↔ v &&& fmask sz = 0)
  nofl : ¬(flags = true ∧ I.wf = true) → s2.flags = s.flags

/-- A shadow register with a field replaced. -/
def setSlot (sl : Fin 8 → BitVec 8) (g : Fin 8) (v : BitVec 8) : Fin 8 → BitVec 8 :=
  fun k => if k = g then v else sl k

theorem off_cases (e : Env) : e.off = 0#8 ∨ e.off = 1#8 ∨ e.off = 2#8 ∨ e.off = 3#8 := by
  have := e.off_lt
  rcases (show e.off.toNat = 0 ∨ e.off.toNat = 1 ∨ e.off.toNat = 2 ∨ e.off.toNat = 3 by omega)
    with h | h | h | h
  · exact Or.inl (BitVec.eq_of_toNat_eq h)
  · exact Or.inr (Or.inl (BitVec.eq_of_toNat_eq h))
  · exact Or.inr (Or.inr (Or.inl (BitVec.eq_of_toNat_eq h)))
  · exact Or.inr (Or.inr (Or.inr (BitVec.eq_of_toNat_eq h)))

/-- Running a piece of code as a function. -/
def exe (e : Env) : List Ins → Option Lbl → St → Option Lbl × St
  | [], l, s => (l, s)
  | i :: is, some l, s => if i = .label l then exe e is none s else exe e is (some l) s
  | i :: is, none, s =>
    match i with
    | .jcc eq l => exe e is (if s.zf = eq then some l else none) s
    | i => exe e is none (if i.ok then exec e s i else { s with wild := true })

theorem run_exe (e : Env) (c rest : List Ins) (l : Option Lbl) (s : St) :
    run e (c ++ rest) l s = run e rest (exe e c l s).1 (exe e c l s).2 := by
  induction c generalizing l s with
  | nil => rfl
  | cons i is ih =>
    cases l with
    | some l =>
      simp only [List.cons_append, run, exe]
      split
      · exact ih _ _
      · exact ih _ _
    | none => cases i <;> simp only [List.cons_append, run, exe] <;> exact ih _ _

theorem goes_exe (e : Env) (c : List Ins) (s : St) {l : Option Lbl} (h : (exe e c none s).1 = l) :
    Goes e c s l (exe e c none s).2 := fun rest => by rw [run_exe, h]

theorem exe_append (e : Env) (c d : List Ins) (l : Option Lbl) (s : St) :
    exe e (c ++ d) l s = exe e d (exe e c l s).1 (exe e c l s).2 := by
  induction c generalizing l s with
  | nil => rfl
  | cons i is ih =>
    cases l with
    | some l =>
      simp only [List.cons_append, exe]
      split
      · exact ih _ _
      · exact ih _ _
    | none => cases i <;> simp only [List.cons_append, exe] <;> exact ih _ _

theorem shadowOp_nil {op : Op} (h : op.shadowOp = false) (n : Nat) (o p : Opnd) :
    shadowOp op n o p = [] := by
  unfold shadowOp; unfold Op.shadowOp at h; split <;> simp_all

/-- The result of writing a destination. -/
def WroteBy (I : App1) (e : Env) (c : List Ins) (s : St) (sl : Fin 8 → BitVec 8) (mem : R → BitVec 8)
    (flags : Bool) (v : BitVec 8) (sz : Nat) : Prop :=
  (exe e c none s).1 = none ∧ Wrote I s (exe e c none s).2 sl mem flags v sz

/-- Runs emitted code whose operands are known. -/
macro "x86_run" : tactic => `(tactic|
  simp (config := { failIfUnchanged := false, maxSteps := 400000 })
    [addDst, Info.ofReg, on, writeFlags, checkDatastore, getShift, exe, Ins.ok,
        Opnd.pairOk, Opnd.isMem, Opnd.role, exec, St.get, St.set, St.reg, St.setReg, keepMask,
        restMask, St.count, *])

/-- Compares shadow bytes bit by bit. -/
macro "x86_bits" : tactic => `(tactic|
  first
    | with_reducible rfl
    | (simp only [bv8_ext, put, fmask]; done)
    | (simp only [bv8_ext, put, fmask]
       simp [BitVec.getLsbD_rotateRight, BitVec.getLsbD_rotateLeft]
       try grind))

macro "x86_wrote" g:term : tactic => `(tactic|
  (constructor
   · funext k
     by_cases hk : k = $g
     · simp only [setSlot, hk, if_true] <;> x86_bits
     · simp only [setSlot, hk, if_false]
   · rfl
   · first | rfl | assumption
   · intro hfl
     first
       | (simp at hfl; done)
       | (simp_all; done)
       | (x86_bits; done)
   · intro hfl
     first
       | rfl
       | (exfalso; apply hfl; simp [*]; done)))

/-- A register destination, from memory. -/
theorem addDst_reg_mem (I : App1) (e : Env) (s : St) (g : Fin 8) (b : Bool) (a : Option App)
    (sz : Nat) (hop : I.op.shadowOp = false) (hst : I.store = false) (fl : Bool)
    (hr : s.r1.h = e.off) (hw : s.wild = false) (hsz : sz = 1 ∨ sz = 2)
    (hb : b = true → sz = 1) (hal : sz = 2 → e.off.toNat % 2 = 0) :
    WroteBy I e (addDst I (.reg (.hi .r1)) (.ofReg g b) ⟨a, some (.lo .r2), .reg (.hi .r1)⟩
        sz sz .r3 fl false false) s
      (setSlot s.slots g (put (s.slots g) (s.r2.l >>> (2 * e.off.toNat)) b.toNat sz))
      s.mem fl (s.r2.l >>> (2 * e.off.toNat)) sz := by
  have hso := shadowOp_nil hop
  rcases hsz with rfl | rfl <;> cases b <;> cases fl <;> cases hwf : I.wf <;> unfold WroteBy
  all_goals first | (exfalso; simp at hb; done) | skip
  all_goals
    rcases off_cases e with ho | ho | ho | ho <;> rw [ho] at hr ⊢ <;>
    first | (exfalso; simp [ho] at hal; done) | (x86_run; x86_wrote g)

/-- A register destination that is also a source, from memory. -/
theorem addDst_reg_mem_alu (I : App1) (e : Env) (s : St) (g : Fin 8) (b : Bool) (a : Option App)
    (sz : Nat) (hop : I.op.shadowOp = false) (hst : I.store = false) (fl : Bool)
    (hr : s.r1.h = e.off) (hw : s.wild = false) (hsz : sz = 1 ∨ sz = 2)
    (hb : b = true → sz = 1) (hal : sz = 2 → e.off.toNat % 2 = 0) :
    WroteBy I e (addDst I (.reg (.hi .r1)) (.ofReg g b) ⟨a, some (.lo .r2), .reg (.hi .r1)⟩
        sz sz .r3 fl true false) s
      (setSlot s.slots g (put (s.slots g)
        ((s.r2.l >>> (2 * e.off.toNat)) ||| (s.slots g >>> (2 * b.toNat))) b.toNat sz))
      s.mem fl ((s.r2.l >>> (2 * e.off.toNat)) ||| (s.slots g >>> (2 * b.toNat))) sz := by
  have hso := shadowOp_nil hop
  rcases hsz with rfl | rfl <;> cases b <;> cases fl <;> cases hwf : I.wf <;> unfold WroteBy
  all_goals first | (exfalso; simp at hb; done) | skip
  all_goals
    rcases off_cases e with ho | ho | ho | ho <;> rw [ho] at hr ⊢ <;>
    first | (exfalso; simp [ho] at hal; done) | (x86_run; x86_wrote g)

/-- A register destination, from a register. -/
theorem addDst_reg_reg (I : App1) (e : Env) (s : St) (g : Fin 8) (b c : Bool) (a : Option App)
    (sz : Nat) (hop : I.op.shadowOp = false) (hst : I.store = false) (fl : Bool)
    (hw : s.wild = false) (hsz : sz = 1 ∨ sz = 2)
    (hb : b = true → sz = 1) (hc : c = true → sz = 1) :
    WroteBy I e (addDst I (.const 0) (.ofReg g b)
        ⟨a, some (.lo .r1), .const (if c then 1 else 0)⟩ sz sz .r3 fl false false) s
      (setSlot s.slots g (put (s.slots g) (s.r1.l >>> (2 * c.toNat)) b.toNat sz))
      s.mem fl (s.r1.l >>> (2 * c.toNat)) sz := by
  have hso := shadowOp_nil hop
  rcases hsz with rfl | rfl <;> cases b <;> cases c <;> cases fl <;> cases hwf : I.wf <;>
    unfold WroteBy
  all_goals first | (exfalso; simp at hb; done) | (exfalso; simp at hc; done) | skip
  all_goals x86_run; x86_wrote g

/-- A register destination that is also a source, from a register. -/
theorem addDst_reg_reg_alu (I : App1) (e : Env) (s : St) (g : Fin 8) (b c : Bool) (a : Option App)
    (sz : Nat) (hop : I.op.shadowOp = false) (hst : I.store = false) (fl : Bool)
    (hw : s.wild = false) (hsz : sz = 1 ∨ sz = 2)
    (hb : b = true → sz = 1) (hc : c = true → sz = 1) :
    WroteBy I e (addDst I (.const 0) (.ofReg g b)
        ⟨a, some (.lo .r1), .const (if c then 1 else 0)⟩ sz sz .r3 fl true false) s
      (setSlot s.slots g (put (s.slots g)
        ((s.r1.l >>> (2 * c.toNat)) ||| (s.slots g >>> (2 * b.toNat))) b.toNat sz))
      s.mem fl ((s.r1.l >>> (2 * c.toNat)) ||| (s.slots g >>> (2 * b.toNat))) sz := by
  have hso := shadowOp_nil hop
  rcases hsz with rfl | rfl <;> cases b <;> cases c <;> cases fl <;> cases hwf : I.wf <;>
    unfold WroteBy
  all_goals first | (exfalso; simp at hb; done) | (exfalso; simp at hc; done) | skip
  all_goals x86_run; x86_wrote g

end Verif.FastX86
