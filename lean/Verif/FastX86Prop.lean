import Verif.FastX86Ext

/-! The propagation: what the emitted code does after the checks. -/

namespace Verif.FastX86

theorem Wrote.trans {I : App1} {s s1 s2 : St} {sl sl' : Fin 8 → BitVec 8} {m m' : R → BitVec 8}
    {fl : Bool} {v : BitVec 8} {sz : Nat} (h : Wrote I s s1 sl m fl v sz)
    (h2 : Wrote I s1 s2 sl' m' fl v sz) : Wrote I s s2 sl' m' fl v sz :=
  ⟨h2.slots, h2.mem, h2.wild, h2.fl, fun hn => (h2.nofl hn).trans (h.nofl hn)⟩

theorem WroteBy.append {I : App1} {e : Env} {c d : List Ins} {s : St} {sl sl' : Fin 8 → BitVec 8}
    {m m' : R → BitVec 8} {fl : Bool} {v : BitVec 8} {sz : Nat}
    (h : WroteBy I e c s sl m fl v sz)
    (h2 : WroteBy I e d (exe e c none s).2 sl' m' fl v sz) :
    WroteBy I e (c ++ d) s sl' m' fl v sz := by
  unfold WroteBy at *
  rw [exe_append, h.1]
  exact ⟨h2.1, h.2.trans h2.2⟩

/-- Code that only changes scratch registers, first. -/
theorem WroteBy.pre {I : App1} {e : Env} {c d : List Ins} {s s1 : St} {sl : Fin 8 → BitVec 8}
    {m : R → BitVec 8} {fl : Bool} {v : BitVec 8} {sz : Nat}
    (h : exe e c none s = (none, s1)) (hf : s1.flags = s.flags)
    (h2 : WroteBy I e d s1 sl m fl v sz) : WroteBy I e (c ++ d) s sl m fl v sz := by
  unfold WroteBy at *
  rw [exe_append, h]
  exact ⟨h2.1, h2.2.slots, h2.2.mem, h2.2.wild, h2.2.fl, fun hn => (h2.2.nofl hn).trans hf⟩

theorem WroteBy.nil {I : App1} {e : Env} {s : St} {v : BitVec 8} {sz : Nat} (hw : s.wild = false)
    (hf : I.wf = false) : WroteBy I e [] s s.slots s.mem true v sz :=
  ⟨rfl, rfl, rfl, hw, fun hh => by simp [hf] at hh, fun _ => rfl⟩

/-- A change of one shadow register, or none. -/
def setOpt (sl : Fin 8 → BitVec 8) (d : Option (Fin 8 × Bool)) (v : BitVec 8) (sz : Nat) :
    Fin 8 → BitVec 8 :=
  match d with
  | some (g, b) => setSlot sl g (put (sl g) v b.toNat sz)
  | none => sl

/-- The operand of a register destination, or of none. -/
def infoOpt (d : Option (Fin 8 × Bool)) (o : Offs) (a : Option App) : Info :=
  match d with
  | some (g, b) => .ofReg g b
  | none => ⟨a, none, o⟩

/-- Dword destinations. -/
theorem addDst2_dword (I : App1) (e : Env) (s : St) (d0 d1 : Option (Fin 8 × Bool))
    (o o1 : Offs) (a0 a1 : Option App) (a : Option App) (so : Offs) (sh : Opnd)
    (hsh : sh = .imm 0 ∨ sh = .lo .r1 ∨ sh = .lo .r2) (scr : Role) (alu : Bool)
    (mo : Offs) (hop : I.op.shadowOp = false) (hst : I.store = false) (dsz : Nat)
    (h0 : ∀ g b, d0 = some (g, b) → b = false) (h1 : ∀ g b, d1 = some (g, b) → b = false)
    (hw : s.wild = false) :
    WroteBy I e (addDst2 I mo (infoOpt d0 o a0) (infoOpt d1 o1 a1) ⟨a, some sh, so⟩ 4 dsz scr true alu)
      s (setOpt (setOpt s.slots d0 (s.get sh) 4) d1 (s.get sh) 4) s.mem true (s.get sh) 4 := by
  -- the second write, from any state with the same value
  have second : ∀ (t : St) (sl : Fin 8 → BitVec 8), t.wild = false → t.get sh = s.get sh → t.slots = sl →
      t.mem = s.mem → d1.isSome = true →
      WroteBy I e (addDst I mo (infoOpt d1 o1 a1) ⟨a, some sh, so⟩ 4 dsz scr true alu false) t
        (setOpt sl d1 (s.get sh) 4) s.mem true (s.get sh) 4 := by
    intro t sl htw hv hsl hm hs
    match d1, hs with
    | some (g, b), _ =>
      have hb := h1 g b rfl
      subst hb
      have := addDst4_reg I e t g a (some (.reg g false)) (.const 0) so sh hsh scr alu false mo hop
        hst true dsz htw
      simp only [setOpt, Bool.toNat_false, put_four]
      rw [← hsl, ← hm, ← hv]
      exact this
  have first : ∀ pr, d0.isSome = true ∨ I.wf = true →
      WroteBy I e (addDst I mo (infoOpt d0 o a0) ⟨a, some sh, so⟩ 4 dsz scr true alu pr) s
        (setOpt s.slots d0 (s.get sh) 4) s.mem true (s.get sh) 4 ∧
      (exe e (addDst I mo (infoOpt d0 o a0) ⟨a, some sh, so⟩ 4 dsz scr true alu pr) none s).2.get sh
        = s.get sh := by
    intro pr _
    match d0 with
    | some (g, b) =>
      have hb := h0 g b rfl
      subst hb
      refine ⟨?_, addDst4_keep I e s g a (some (.reg g false)) (.const 0) so sh hsh scr alu pr mo hop
        hst true dsz⟩
      simp only [setOpt, Bool.toNat_false, put_four]
      exact addDst4_reg I e s g a (some (.reg g false)) (.const 0) so sh hsh scr alu pr mo hop
        hst true dsz hw
    | none =>
      refine ⟨addDst4_none I e s a a0 o so sh hsh scr alu pr mo hop true dsz hw, ?_⟩
      have hso := shadowOp_nil hop
      simp only [infoOpt]
      rcases hsh with rfl | rfl | rfl <;> cases hwf : I.wf <;> x86_run
  have hi0 : (infoOpt d0 o a0).shadow.isSome = d0.isSome := by
    cases d0 <;> rfl
  have hi1 : (infoOpt d1 o1 a1).shadow.isSome = d1.isSome := by
    cases d1 <;> rfl
  unfold addDst2
  rw [hi0, hi1]
  by_cases hc : d0.isSome = true ∨ I.wf = true
  · rw [if_pos (by simpa using hc)]
    obtain ⟨hf, hk⟩ := first d1.isSome hc
    cases hd1 : d1.isSome
    · have : d1 = none := by simpa using hd1
      subst this
      rw [hd1] at hf
      simpa [setOpt] using hf
    · simp only [if_true]
      rw [hd1] at hf hk
      refine hf.append ?_
      exact second _ _ hf.2.wild hk hf.2.slots hf.2.mem hd1
  · rw [if_neg (by simpa using hc)]
    have hd0 : d0 = none := by
      cases d0 with
      | none => rfl
      | some x => exact absurd (Or.inl rfl) hc
    subst hd0
    have hwf : I.wf = false := by
      cases hwf : I.wf
      · rfl
      · exact absurd (Or.inr hwf) hc
    cases hd1 : d1.isSome
    · have : d1 = none := by simpa using hd1
      subst this
      exact WroteBy.nil hw hwf
    · simp only [if_true, List.nil_append]
      exact second s _ hw rfl rfl rfl hd1

/-- Sub-dword register destinations marked defined. -/
theorem addDst2_zero (I : App1) (e : Env) (s : St) (d0 d1 : Option (Fin 8 × Bool))
    (o o1 : Offs) (a0 a1 : Option App) (a : Option App) (scr : Role)
    (mo : Offs) (hst : I.store = false) (sz : Nat) (hsz : sz = 1 ∨ sz = 2)
    (h0 : ∀ g b, d0 = some (g, b) → b = true → sz = 1)
    (h1 : ∀ g b, d1 = some (g, b) → b = true → sz = 1)
    (hE : d0 = none → I.wf = false)
    (hw : s.wild = false) :
    WroteBy I e (addDst2 I mo (infoOpt d0 o a0) (infoOpt d1 o1 a1) ⟨a, some (.imm 0), .const 0⟩
        sz sz scr true false)
      s (setOpt (setOpt s.slots d0 0 sz) d1 0 sz) s.mem true 0 sz := by
  have second : ∀ (t : St) (sl : Fin 8 → BitVec 8), t.wild = false → t.slots = sl →
      t.mem = s.mem → d1.isSome = true →
      WroteBy I e (addDst I mo (infoOpt d1 o1 a1) ⟨a, some (.imm 0), .const 0⟩ sz sz scr true false
        false) t (setOpt sl d1 0 sz) s.mem true 0 sz := by
    intro t sl htw hsl hm hs
    match d1, hs with
    | some (g, b), _ =>
      simp only [setOpt, infoOpt]
      rw [← hsl, ← hm]
      exact addDst_zero_reg I e t g b a mo scr false sz hst true htw hsz (h1 g b rfl)
  have hi0 : (infoOpt d0 o a0).shadow.isSome = d0.isSome := by
    cases d0 <;> rfl
  have hi1 : (infoOpt d1 o1 a1).shadow.isSome = d1.isSome := by
    cases d1 <;> rfl
  unfold addDst2
  rw [hi0, hi1]
  match d0 with
  | some (g, b) =>
    have hf : ∀ pr, WroteBy I e (addDst I mo (.ofReg g b) ⟨a, some (.imm 0), .const 0⟩ sz sz scr true
        false pr) s (setSlot s.slots g (put (s.slots g) 0 b.toNat sz)) s.mem true 0 sz := fun pr =>
      addDst_zero_reg I e s g b a mo scr pr sz hst true hw hsz (h0 g b rfl)
    simp only [Option.isSome_some, Bool.true_or, if_true, infoOpt]
    cases hd1 : d1.isSome
    · have : d1 = none := by simpa using hd1
      subst this
      simpa [setOpt] using hf false
    · simp only [if_true]
      exact (hf true).append (second _ _ (hf true).2.wild (hf true).2.slots (hf true).2.mem hd1)
  | none =>
    have hwf := hE rfl
    simp only [Option.isSome_none, hwf, Bool.or_false, Bool.and_false, Bool.false_eq_true, if_false,
      List.nil_append]
    cases hd1 : d1.isSome
    · have : d1 = none := by simpa using hd1
      subst this
      exact WroteBy.nil hw hwf
    · simp only [if_true]
      exact second s _ hw rfl rfl hd1

end Verif.FastX86
