import Verif.Spill

/-!
# C63: spilling over a whole block is transparent

`C63_transparent_partial`: a block with any instrumentation that keeps to what it asked for
leaves registers, flags and memory exactly as the block without instrumentation.  Since memory
may be anything, it can record all that the application's instructions ever see.
-/

namespace Verif.Spill

variable {μ : Type}

/-! ## Application instructions and instrumentation -/

/-- Two states agree where the instruction reads, apart from the registers `ex`. -/
structure Agree (i : Ins μ) (ex : Nat → Prop) (a b : A μ) : Prop where
  mem : a.mem = b.mem
  reg : ∀ r, ¬ex r → i.reads r = true → a.reg r = b.reg r
  flag : ∀ f, f < 6 → i.fReads f = true → a.flag f = b.flag f

/-- The results of the instruction in the two states agree where it writes unconditionally and
completely, and where the states agreed before. -/
structure Same (i : Ins μ) (a b : A μ) : Prop where
  mem : (i.sem a).mem = (i.sem b).mem
  reg : ∀ r, i.exact r = true → i.must r = true → (i.sem a).reg r = (i.sem b).reg r
  flag : ∀ f, f < 6 → i.fMust f = true → (i.sem a).flag f = (i.sem b).flag f
  regKeep : ∀ r, a.reg r = b.reg r → (i.sem a).reg r = (i.sem b).reg r
  flagKeep : ∀ f, f < 6 → a.flag f = b.flag f → (i.sem a).flag f = (i.sem b).flag f

/-- The operands of an instruction are as decoded. -/
structure Decoded (i : Ins μ) : Prop where
  keepReg : ∀ a r, i.may r = false → (i.sem a).reg r = a.reg r
  keepFlag : ∀ a f, f < 6 → i.fMay f = false → (i.sem a).flag f = a.flag f
  mustMay : ∀ r, i.must r = true → i.may r = true
  fMustMay : ∀ f, i.fMust f = true → i.fMay f = true
  same : ∀ a b, Agree i (fun _ => False) a b → Same i a b

/-- The instrumentation changes a scratch register or the flags only if it asked for them, and leaves the
slots of the block alone. -/
structure BodyOk (c : Cfg) (i : Ins μ) : Prop where
  mem : ∀ m, (i.body m).mem = m.mem
  slot : ∀ m k, k = s1 ∨ k = s2 ∨ k = sE → (i.body m).slot k = m.slot k
  reg : ∀ m r, (r = c.r1 → .r1 ∉ i.marks) → (r = c.r2 → .r2 ∉ i.marks) →
    (i.body m).reg r = m.reg r
  flag : ∀ m f, f < 6 → (∀ b, .fl b ∉ i.marks) → (i.body m).flag f = m.flag f
  added : i.added = false → i.marks = []

/-- The hypothesis that the code does not establish: an instruction whose result is always the
same does not use a scratch register at all, in particular not in an address. -/
def Scope (c : Cfg) (i : Ins μ) : Prop :=
  i.skip = true →
    (∀ a b, Agree i (fun r => r = c.r1 ∨ r = c.r2) a b → Same i a b) ∧
    (∀ r, r = c.r1 ∨ r = c.r2 → i.may r = true → i.exact r = true ∧ i.must r = true)

/-! ## Flags in a register -/

theorem unpack_pack (c p a z s : Bool) (al hi f : Nat) (hf : f < 5) :
    unpack { al := al, ah := pack c p a z s, hi := hi } f =
      [c, p, a, z, s].getD f false := by
  have h : f = 0 ∨ f = 1 ∨ f = 2 ∨ f = 3 ∨ f = 4 := by omega
  unfold unpack
  rw [if_pos hf]
  rcases h with h | h | h | h | h <;> subst h <;>
    (show (pack c p a z s).testBit _ = _; clear hf al hi; revert c p a z s; decide +kernel)

theorem unpack_of (ah hi : Nat) (o : Bool) :
    unpack { al := b2n o, ah := ah, hi := hi } 5 = o := by
  unfold unpack
  rw [if_neg (by decide)]
  cases o <;> rfl

theorem exec_append (x y : List (Op μ)) (m : M μ) : exec (x ++ y) m = exec y (exec x m) := by
  unfold exec; rw [List.foldl_append]

theorem exec_nil (m : M μ) : exec ([] : List (Op μ)) m = m := rfl

theorem exec_cons (o : Op μ) (x : List (Op μ)) (m : M μ) :
    exec (o :: x) m = exec x (step m o) := rfl

/-- What a flag move may change among the registers. -/
def Free (c : Cfg) (ed av1 av2 : Bool) (r : Nat) : Prop :=
  (r = eax ∧ ed = true) ∨ (r = c.r1 ∧ av1 = true) ∨ (r = c.r2 ∧ av2 = true)

theorem eaxFree_iff (c : Cfg) (ed av1 av2 : Bool) :
    eaxFree c ed av1 av2 = true ↔ Free c ed av1 av2 eax := by
  unfold eaxFree Free
  rw [show (eax = c.r1) = (c.r1 = eax) from propext eq_comm,
    show (eax = c.r2) = (c.r2 = eax) from propext eq_comm]
  cases ed <;> cases av1 <;> cases av2 <;> simp

/-- `saveFlags` stores the flags and keeps the rest. -/
structure SaveSpec (c : Cfg) (ed av1 av2 : Bool) (af : AF) (m m' : M μ) : Prop where
  mem : m'.mem = m.mem
  flag : m'.flag = m.flag
  slot : ∀ k, k ≠ sE → k ≠ s5 → m'.slot k = m.slot k
  low : ∀ f, f < 5 → unpack (m'.slot sE) f = m.flag f
  of : af ≠ .ofDead → unpack (m'.slot sE) 5 = m.flag 5
  reg : ∀ r, ¬Free c ed av1 av2 r → m'.reg r = m.reg r

/-- Where eax is put. -/
theorem putAway_spec (c : Cfg) (ed av1 av2 : Bool) (h : ¬Free c ed av1 av2 eax) (m : M μ)
    (g : M μ → M μ) (hg5 : ∀ m, (g m).slot s5 = m.slot s5)
    (hgr : ∀ m r, r ≠ eax → (g m).reg r = m.reg r) :
    (exec (getBack c av1 av2) (g (exec (putAway c av1 av2) m))).reg eax = m.reg eax ∧
      (∀ r, ¬Free c ed av1 av2 r →
        (exec (getBack c av1 av2) (g (exec (putAway c av1 av2) m))).reg r = m.reg r) ∧
      (exec (putAway c av1 av2) m).flag = m.flag ∧ (exec (putAway c av1 av2) m).mem = m.mem ∧
      (∀ k, k ≠ s5 → (exec (putAway c av1 av2) m).slot k = m.slot k) ∧
      (∀ n : M μ, (exec (getBack c av1 av2) n).flag = n.flag ∧
        (exec (getBack c av1 av2) n).mem = n.mem ∧
        (exec (getBack c av1 av2) n).slot = n.slot) := by
  have hr1 : av1 = true → c.r1 ≠ eax := fun h1 e => h (Or.inr (Or.inl ⟨e.symm, h1⟩))
  have hr2 : av2 = true → c.r2 ≠ eax := fun h1 e => h (Or.inr (Or.inr ⟨e.symm, h1⟩))
  cases h1 : av1
  · cases h2 : av2
    · have e1 : (putAway c false false : List (Op μ)) = [.store s5 eax] := rfl
      have e2 : (getBack c false false : List (Op μ)) = [.load eax s5] := rfl
      rw [e1, e2]
      simp only [exec_cons, exec_nil, step]
      refine ⟨?_, ?_, by first | rfl | trivial, by first | rfl | trivial, ?_, fun n => by first | rfl | trivial⟩
      · simp [upd, hg5]
      · intro r _
        by_cases hr : r = eax
        · subst hr; simp [upd, hg5]
        · simp only [upd, hr, if_false]; rw [hgr _ r hr]
      · intro k hk; simp [upd, hk]
    · have e1 : (putAway c false true : List (Op μ)) = [.xchg c.r2] := rfl
      have e2 : (getBack c false true : List (Op μ)) = [.xchg c.r2] := rfl
      have n2 := hr2 h2
      rw [e1, e2]
      simp only [exec_cons, exec_nil, step]
      refine ⟨?_, ?_, by first | rfl | trivial, by first | rfl | trivial, ?_, fun n => by first | rfl | trivial⟩
      · simp [upd, Ne.symm n2]
        rw [hgr _ _ n2]; simp [upd]
      · intro r hr
        have hrn : r ≠ c.r2 := fun e => hr (Or.inr (Or.inr ⟨e, rfl⟩))
        by_cases hre : r = eax
        · subst hre
          simp [upd, Ne.symm n2]
          rw [hgr _ _ n2]; simp [upd]
        · simp only [upd, hrn, hre, if_false]; rw [hgr _ r hre]; simp [upd, hrn, hre]
      · intro k _; first | rfl | trivial
  · have e1 : (putAway c true av2 : List (Op μ)) = [.xchg c.r1] := rfl
    have e2 : (getBack c true av2 : List (Op μ)) = [.xchg c.r1] := rfl
    have n1 := hr1 h1
    rw [e1, e2]
    simp only [exec_cons, exec_nil, step]
    refine ⟨?_, ?_, by first | rfl | trivial, by first | rfl | trivial, ?_, fun n => by first | rfl | trivial⟩
    · simp [upd, Ne.symm n1]
      rw [hgr _ _ n1]; simp [upd]
    · intro r hr
      have hrn : r ≠ c.r1 := fun e => hr (Or.inr (Or.inl ⟨e, rfl⟩))
      by_cases hre : r = eax
      · subst hre
        simp [upd, Ne.symm n1]
        rw [hgr _ _ n1]; simp [upd]
      · simp only [upd, hrn, hre, if_false]; rw [hgr _ r hre]; simp [upd, hrn, hre]
    · intro k _; first | rfl | trivial

/-- The middle of a save. -/
def saveMid (af : AF) : List (Op μ) :=
  [.lahf] ++ (if af = .ofDead then [] else [.seto]) ++ [.store sE eax]

theorem saveMid_spec (af : AF) (m : M μ) :
    (exec (saveMid af) m).flag = m.flag ∧ (exec (saveMid af) m).mem = m.mem ∧
      (∀ k, k ≠ sE → (exec (saveMid af) m).slot k = m.slot k) ∧
      (∀ f, f < 5 → unpack ((exec (saveMid af) m).slot sE) f = m.flag f) ∧
      (af ≠ .ofDead → unpack ((exec (saveMid af) m).slot sE) 5 = m.flag 5) ∧
      (∀ r, r ≠ eax → (exec (saveMid af) m).reg r = m.reg r) := by
  have five : ∀ f, f < 5 → [m.flag 0, m.flag 1, m.flag 2, m.flag 3, m.flag 4].getD f false =
      m.flag f := by
    intro f hf
    have h : f = 0 ∨ f = 1 ∨ f = 2 ∨ f = 3 ∨ f = 4 := by omega
    rcases h with h | h | h | h | h <;> subst h <;> rfl
  unfold saveMid
  by_cases ha : af = .ofDead
  · simp only [ha, if_true, List.append_nil, List.cons_append,
      List.nil_append, exec_cons, exec_nil, step]
    refine ⟨trivial, trivial, ?_, ?_, ?_, ?_⟩
    · intro k hk; simp [upd, hk]
    · intro f hf
      simp only [upd, if_true]
      rw [unpack_pack _ _ _ _ _ _ _ _ hf]; exact five f hf
    · intro h; exact absurd rfl h
    · intro r hr; simp [upd, hr]
  · simp only [ha, if_false, List.cons_append,
      List.nil_append, exec_cons, exec_nil, step]
    refine ⟨trivial, trivial, ?_, ?_, ?_, ?_⟩
    · intro k hk; simp [upd, hk]
    · intro f hf
      simp only [upd, if_true]
      rw [unpack_pack _ _ _ _ _ _ _ _ hf]; exact five f hf
    · intro _
      simp only [upd, if_true, OF]
      rw [unpack_of]
    · intro r hr; simp [upd, hr]

theorem saveFlags_spec (c : Cfg) (ed av1 av2 : Bool) (af : AF) (h : af ≠ .allDead) (m : M μ) :
    SaveSpec c ed av1 av2 af m (exec (saveFlags c ed av1 av2 af) m) := by
  by_cases hf : eaxFree c ed av1 av2 = true
  · have e : (saveFlags c ed av1 av2 af : List (Op μ)) = saveMid af := by
      unfold saveFlags saveMid; simp only [h, hf, if_false, if_true, List.nil_append,
        List.append_nil]
    rw [e]
    obtain ⟨h1, h2, h3, h4, h5, h6⟩ := saveMid_spec af m
    refine ⟨h2, h1, fun k hk _ => h3 k hk, h4, h5, fun r hr => h6 r ?_⟩
    intro he; subst he
    exact hr ((eaxFree_iff _ _ _ _).1 hf)
  · have hn : ¬Free c ed av1 av2 eax := fun h => hf ((eaxFree_iff _ _ _ _).2 h)
    have e : (saveFlags c ed av1 av2 af : List (Op μ)) =
        putAway c av1 av2 ++ (saveMid af ++ getBack c av1 av2) := by
      unfold saveFlags saveMid
      simp only [h, if_false, hf, List.append_assoc, Bool.false_eq_true]
    rw [e, exec_append, exec_append]
    have hg5 : ∀ n : M μ, (exec (saveMid af) n).slot s5 = n.slot s5 :=
      fun n => (saveMid_spec af n).2.2.1 s5 (by decide)
    have hgr : ∀ (n : M μ) r, r ≠ eax → (exec (saveMid af) n).reg r = n.reg r :=
      fun n r hr => (saveMid_spec af n).2.2.2.2.2 r hr
    obtain ⟨_, p2, p3, p4, p5, p6⟩ :=
      putAway_spec c ed av1 av2 hn m (exec (saveMid af)) hg5 hgr
    obtain ⟨h1, h2, h3, h4, h5, _⟩ := saveMid_spec af (exec (putAway c av1 av2) m)
    obtain ⟨q1, q2, q3⟩ := p6 (exec (saveMid af) (exec (putAway c av1 av2) m))
    refine ⟨?_, ?_, ?_, ?_, ?_, p2⟩
    · rw [q2, h2, p4]
    · rw [q1, h1, p3]
    · intro k hk hk5; rw [q3, h3 k hk, p5 k hk5]
    · intro f hf5; rw [q3, h4 f hf5, p3]
    · intro ho; rw [q3, h5 ho, p3]

/-- `restoreFlags` puts the stored flags back and keeps the rest. -/
structure RestSpec (c : Cfg) (ed av1 av2 : Bool) (af : AF) (m m' : M μ) : Prop where
  mem : m'.mem = m.mem
  slot : ∀ k, k ≠ s5 → m'.slot k = m.slot k
  low : ∀ f, f < 5 → m'.flag f = unpack (m.slot sE) f
  of : af ≠ .ofDead → m'.flag 5 = unpack (m.slot sE) 5
  reg : ∀ r, ¬Free c ed av1 av2 r → m'.reg r = m.reg r

/-- The middle of a restore. -/
def restMid (af : AF) : List (Op μ) :=
  [.load eax sE] ++ (if af = .ofDead then [] else [.addAl]) ++ [.sahf]

theorem restMid_spec (af : AF) (m : M μ) :
    (exec (restMid af) m).mem = m.mem ∧ (exec (restMid af) m).slot = m.slot ∧
      (∀ f, f < 5 → (exec (restMid af) m).flag f = unpack (m.slot sE) f) ∧
      (af ≠ .ofDead → (exec (restMid af) m).flag 5 = unpack (m.slot sE) 5) ∧
      (∀ r, r ≠ eax → (exec (restMid af) m).reg r = m.reg r) := by
  unfold restMid
  by_cases ha : af = .ofDead
  · simp only [ha, if_true, List.append_nil, List.cons_append,
      List.nil_append, exec_cons, exec_nil, step]
    refine ⟨trivial, trivial, ?_, ?_, ?_⟩
    · intro f hf; simp [upd, hf]
    · intro h; exact absurd rfl h
    · intro r hr; simp [upd, hr]
  · simp only [ha, if_false, List.cons_append,
      List.nil_append, exec_cons, exec_nil, step]
    refine ⟨trivial, trivial, ?_, ?_, ?_⟩
    · intro f hf
      simp only [hf, if_true, upd]
      unfold unpack
      rw [if_pos hf, if_pos hf]
    · intro _
      simp [upd, OF]
    · intro r hr; simp [upd, hr]

theorem restoreFlags_spec (c : Cfg) (ed av1 av2 : Bool) (af : AF) (m : M μ) :
    RestSpec c ed av1 av2 af m (exec (restoreFlags c ed av1 av2 af) m) := by
  by_cases hf : eaxFree c ed av1 av2 = true
  · have e : (restoreFlags c ed av1 av2 af : List (Op μ)) = restMid af := by
      unfold restoreFlags restMid; simp only [hf, if_true, List.nil_append, List.append_nil]
    rw [e]
    obtain ⟨h1, h2, h3, h4, h5⟩ := restMid_spec af m
    refine ⟨h1, fun k _ => by rw [h2], h3, h4, fun r hr => h5 r ?_⟩
    intro he; subst he
    exact hr ((eaxFree_iff _ _ _ _).1 hf)
  · have hn : ¬Free c ed av1 av2 eax := fun h => hf ((eaxFree_iff _ _ _ _).2 h)
    have e : (restoreFlags c ed av1 av2 af : List (Op μ)) =
        putAway c av1 av2 ++ (restMid af ++ getBack c av1 av2) := by
      unfold restoreFlags restMid
      simp only [hf, if_false, List.append_assoc, Bool.false_eq_true]
    rw [e, exec_append, exec_append]
    have hg5 : ∀ n : M μ, (exec (restMid af) n).slot s5 = n.slot s5 :=
      fun n => by rw [(restMid_spec af n).2.1]
    have hgr : ∀ (n : M μ) r, r ≠ eax → (exec (restMid af) n).reg r = n.reg r :=
      fun n r hr => (restMid_spec af n).2.2.2.2 r hr
    obtain ⟨_, p2, p3, p4, p5, p6⟩ :=
      putAway_spec c ed av1 av2 hn m (exec (restMid af)) hg5 hgr
    obtain ⟨h1, h2, h3, h4, _⟩ := restMid_spec af (exec (putAway c av1 av2) m)
    obtain ⟨q1, q2, q3⟩ := p6 (exec (restMid af) (exec (putAway c av1 av2) m))
    have hE : (exec (putAway c av1 av2) m).slot sE = m.slot sE := p5 sE (by decide)
    refine ⟨?_, ?_, ?_, ?_, p2⟩
    · rw [q2, h1, p4]
    · intro k hk5; rw [q3, h2, p5 k hk5]
    · intro f hf5; rw [q1, h3 f hf5, hE]
    · intro ho; rw [q1, h4 ho, hE]

/-! ## Liveness -/

/-- A flag is written before it is read. -/
def deadF (f : Nat) : List (Ins μ) → Bool
  | [] => false
  | i :: rest =>
    if i.fReads f then false
    else if i.fMust f then true
    else if i.cti then false
    else deadF f rest

theorem aflagsFrom_all : ∀ (l : List (Ins μ)) (w : Nat → Bool), aflagsFrom w l = .allDead →
    ∀ f, f < 6 → w f = false → deadF f l = true
  | [], w, h, _, _, _ => by
    unfold aflagsFrom at h; split at h <;> cases h
  | i :: rest, w, h, f, hf, hw => by
    have hmem : f ∈ six := by
      have : f = 0 ∨ f = 1 ∨ f = 2 ∨ f = 3 ∨ f = 4 ∨ f = 5 := by omega
      rcases this with h | h | h | h | h | h <;> subst h <;> decide
    rw [aflagsFrom] at h
    split at h
    · cases h
    · rename_i hr
      have hnr : i.fReads f = false := by
        cases hq : i.fReads f
        · rfl
        · exact absurd (List.any_eq_true.2 ⟨f, hmem, by simp [hq, hw]⟩) hr
      rw [deadF, if_neg (by simp [hnr])]
      split
      · rfl
      · rename_i hm
        split at h
        · rename_i ha
          have := List.all_eq_true.1 ha f hmem
          simp only [wrote, hw, Bool.false_or] at this
          exact absurd this hm
        · split at h
          · split at h <;> cases h
          · rename_i hc
            rw [if_neg hc]
            exact aflagsFrom_all rest _ h f hf (by simp [wrote, hw, hm])

theorem aflagsFrom_of : ∀ (l : List (Ins μ)) (w : Nat → Bool), aflagsFrom w l = .ofDead →
    w OF = true ∨ deadF 5 l = true
  | [], w, h => by
    unfold aflagsFrom at h
    split at h
    · rename_i hw; exact Or.inl hw
    · cases h
  | i :: rest, w, h => by
    cases hw : w OF
    · right
      rw [aflagsFrom] at h
      split at h
      · cases h
      · rename_i hr
        have hnr : i.fReads 5 = false := by
          cases hq : i.fReads 5
          · rfl
          · exact absurd (List.any_eq_true.2 ⟨5, by decide, by
              have : w 5 = false := hw
              simp [hq, this]⟩) hr
        rw [deadF, if_neg (by simp [hnr])]
        split
        · rfl
        · rename_i hm
          have hm2 : wrote w i OF = false := by
            have : i.fMust OF = false := by
              show i.fMust 5 = false
              simpa using hm
            simp [wrote, hw, this]
          split at h
          · cases h
          · split at h
            · rw [hm2] at h; simp at h
            · rename_i hc
              rw [if_neg hc]
              rcases aflagsFrom_of rest _ h with h2 | h2
              · rw [hm2] at h2; cases h2
              · exact h2
    · exact Or.inl rfl

theorem aflags_all {l : List (Ins μ)} (h : aflags l = .allDead) (f : Nat) (hf : f < 6) :
    deadF f l = true := aflagsFrom_all l _ h f hf rfl

theorem aflags_of {l : List (Ins μ)} (h : aflags l = .ofDead) : deadF 5 l = true := by
  rcases aflagsFrom_of l _ h with h | h
  · cases h
  · exact h

theorem dead_step {i : Ins μ} {rest : List (Ins μ)} {r : Nat} (h : dead r (i :: rest) = true) :
    i.reads r = false ∧ ((i.exact r = true ∧ i.must r = true) ∨ dead r rest = true) := by
  rw [dead] at h
  split at h
  · cases h
  · split at h
    · cases h
    · rename_i hr
      refine ⟨by simpa using hr, ?_⟩
      split at h
      · rename_i hx; exact Or.inl (by simpa using hx)
      · exact Or.inr h

theorem deadF_step {i : Ins μ} {rest : List (Ins μ)} {f : Nat}
    (h : deadF f (i :: rest) = true) :
    i.fReads f = false ∧ (i.fMust f = true ∨ deadF f rest = true) := by
  rw [deadF] at h
  split at h
  · cases h
  · rename_i hr
    refine ⟨by simpa using hr, ?_⟩
    split at h
    · rename_i hx; exact Or.inl hx
    · split at h
      · cases h
      · exact Or.inr h

/-! ## The invariant -/

/-- A register is a scratch register of the block that is in use. -/
def InUse (c : Cfg) (b : Bi) (r : Nat) : Prop :=
  (r = c.r1 ∧ b.used1 = true) ∨ (r = c.r2 ∧ b.used2 = true)

/-- The machine `m` stands for the application state `a` before the instructions `l`. -/
structure Inv (c : Cfg) (b : Bi) (a : A μ) (m : M μ) (l : List (Ins μ)) : Prop where
  mem : m.mem = a.mem
  reg : ∀ r, ¬InUse c b r → m.reg r = a.reg r ∨ dead r l = true
  slot1 : b.used1 = true → m.slot s1 = a.reg c.r1 ∨ dead c.r1 l = true
  slot2 : b.used2 = true → m.slot s2 = a.reg c.r2 ∨ dead c.r2 l = true
  flag : b.eflagsUsed = false → ∀ f, f < 6 → m.flag f = a.flag f ∨ deadF f l = true
  slotE : b.eflagsUsed = true → ∀ f, f < 6 →
    unpack (m.slot sE) f = a.flag f ∨ deadF f l = true
  plain : b.added = false → b.eflagsUsed = false ∧
    ∀ r, m.reg r = a.reg r ∨ dead r l = true

theorem six_cases {f : Nat} (hf : f < 6) : f < 5 ∨ f = 5 := by omega

theorem mem_six {f : Nat} (hf : f < 6) : f ∈ six := by
  have : f = 0 ∨ f = 1 ∨ f = 2 ∨ f = 3 ∨ f = 4 ∨ f = 5 := by omega
  rcases this with h | h | h | h | h | h <;> subst h <;> decide

/-! ## The marks -/

/-- What is known of the code at the top after some marks `ms`. -/
structure TopOk (c : Cfg) (i : Ins μ) (rest : List (Ins μ)) (b0 : Bi) (ms : List Mark)
    (p : Top μ × Bi) : Prop where
  used1 : p.2.used1 = true ↔ (b0.used1 = true ∨ .r1 ∈ ms)
  used2 : p.2.used2 = true ↔ (b0.used2 = true ∨ .r2 ∈ ms)
  added : p.2.added = b0.added
  spills : ∀ m : M μ, (exec p.1.spills m).reg = m.reg ∧ (exec p.1.spills m).flag = m.flag ∧
    (exec p.1.spills m).mem = m.mem ∧ (exec p.1.spills m).slot sE = m.slot sE ∧
    (exec p.1.spills m).slot s1 =
      (if p.2.used1 = true ∧ b0.used1 = false ∧ dead c.r1 (i :: rest) = false
       then m.reg c.r1 else m.slot s1) ∧
    (exec p.1.spills m).slot s2 =
      (if p.2.used2 = true ∧ b0.used2 = false ∧ dead c.r2 (i :: rest) = false
       then m.reg c.r2 else m.slot s2)
  flags : (p.2.eflagsUsed = b0.eflagsUsed ∧ p.1.flags = []) ∨
    (b0.eflagsUsed = false ∧ p.2.eflagsUsed = true ∧ aflags (i :: rest) ≠ .allDead ∧
      ∃ av2, (av2 = true → p.2.used2 = true) ∧
        p.1.flags = saveFlags c (dead eax (i :: rest)) false av2 (aflags (i :: rest)))
  asked : (∃ x, .fl x ∈ ms) → p.2.eflagsUsed = true ∨ aflags (i :: rest) = .allDead

theorem top_mark (c : Cfg) (i : Ins μ) (rest : List (Ins μ)) (b0 : Bi) (ms : List Mark)
    (p : Top μ × Bi) (h : TopOk c i rest b0 ms p) (x : Mark) :
    TopOk c i rest b0 (ms ++ [x]) (mark c i rest p x) := by
  cases x with
  | r1 =>
    by_cases hu : p.2.used1 = true
    · have e : mark c i rest p .r1 = p := by simp [mark, hu]
      rw [e]
      refine ⟨?_, ?_, h.added, h.spills, h.flags, ?_⟩
      · simp [hu]
      · rw [h.used2]; simp
      · rintro ⟨y, hy⟩; exact h.asked ⟨y, by simpa using hy⟩
    · have hb0 : b0.used1 = false := by
        cases hb : b0.used1
        · rfl
        · exact absurd (h.used1.2 (Or.inl hb)) hu
      have e : mark c i rest p .r1 =
          ({ p.1 with spills :=
              (if dead c.r1 (i :: rest) then [] else [.store s1 c.r1]) ++ p.1.spills },
            { p.2 with used1 := true }) := by simp [mark, hu]
      rw [e]
      refine ⟨by simp, ?_, h.added, ?_, h.flags, ?_⟩
      · show p.2.used2 = true ↔ _
        rw [h.used2]; simp
      · intro m
        show (exec (_ ++ p.1.spills) m).reg = m.reg ∧ _
        rw [exec_append]
        cases hd : dead c.r1 (i :: rest)
        · simp only [Bool.false_eq_true, if_false, exec_cons, exec_nil, step]
          obtain ⟨g1, g2, g3, g4, g5, g6⟩ := h.spills
            { m with slot := upd m.slot s1 (m.reg c.r1) }
          refine ⟨g1, g2, g3, ?_, ?_, ?_⟩
          · rw [g4]; rfl
          · rw [g5, if_neg (by simp [hu])]; simp [upd, hb0]
          · rw [g6]; rfl
        · simp only [if_true, exec_nil]
          obtain ⟨g1, g2, g3, g4, g5, g6⟩ := h.spills m
          refine ⟨g1, g2, g3, g4, ?_, g6⟩
          rw [g5]; simp [hd]
      · rintro ⟨y, hy⟩; exact h.asked ⟨y, by simpa using hy⟩
  | r2 =>
    by_cases hu : p.2.used2 = true
    · have e : mark c i rest p .r2 = p := by simp [mark, hu]
      rw [e]
      refine ⟨?_, ?_, h.added, h.spills, h.flags, ?_⟩
      · rw [h.used1]; simp
      · simp [hu]
      · rintro ⟨y, hy⟩; exact h.asked ⟨y, by simpa using hy⟩
    · have hb0 : b0.used2 = false := by
        cases hb : b0.used2
        · rfl
        · exact absurd (h.used2.2 (Or.inl hb)) hu
      have e : mark c i rest p .r2 =
          ({ p.1 with spills :=
              (if dead c.r2 (i :: rest) then [] else [.store s2 c.r2]) ++ p.1.spills },
            { p.2 with used2 := true }) := by simp [mark, hu]
      rw [e]
      refine ⟨?_, by simp, h.added, ?_, ?_, ?_⟩
      · show p.2.used1 = true ↔ _
        rw [h.used1]; simp
      · intro m
        show (exec (_ ++ p.1.spills) m).reg = m.reg ∧ _
        rw [exec_append]
        cases hd : dead c.r2 (i :: rest)
        · simp only [Bool.false_eq_true, if_false, exec_cons, exec_nil, step]
          obtain ⟨g1, g2, g3, g4, g5, g6⟩ := h.spills
            { m with slot := upd m.slot s2 (m.reg c.r2) }
          refine ⟨g1, g2, g3, ?_, ?_, ?_⟩
          · rw [g4]; rfl
          · rw [g5]; rfl
          · rw [g6, if_neg (by simp [hu])]; simp [upd, hb0]
        · simp only [if_true, exec_nil]
          obtain ⟨g1, g2, g3, g4, g5, g6⟩ := h.spills m
          refine ⟨g1, g2, g3, g4, g5, ?_⟩
          rw [g6]; simp [hd]
      · rcases h.flags with hf | ⟨f1, f2, f3, av2, f4, f5⟩
        · exact Or.inl hf
        · exact Or.inr ⟨f1, f2, f3, av2, fun _ => rfl, f5⟩
      · rintro ⟨y, hy⟩; exact h.asked ⟨y, by simpa using hy⟩
  | fl at_ =>
    by_cases hu : (p.2.eflagsUsed || aflags (i :: rest) == .allDead) = true
    · have e : mark c i rest p (.fl at_) = p := by simp only [mark, hu, if_true]
      rw [e]
      refine ⟨?_, ?_, h.added, h.spills, h.flags, ?_⟩
      · rw [h.used1]; simp
      · rw [h.used2]; simp
      · intro _
        simpa using hu
    · have hu2 : p.2.eflagsUsed = false ∧ aflags (i :: rest) ≠ .allDead := by
        simpa using hu
      have e : mark c i rest p (.fl at_) =
          ({ p.1 with flags :=
              (saveFlags c (dead eax (i :: rest)) false (p.2.used2 && !(i.cmov && at_))
                (aflags (i :: rest))) },
            { p.2 with eflagsUsed := true }) := by
        simp only [mark]; rw [if_neg hu]
      rw [e]
      refine ⟨?_, ?_, h.added, h.spills, ?_, fun _ => Or.inl rfl⟩
      · show p.2.used1 = true ↔ _
        rw [h.used1]; simp
      · show p.2.used2 = true ↔ _
        rw [h.used2]; simp
      · refine Or.inr ⟨?_, rfl, hu2.2, (p.2.used2 && !(i.cmov && at_)), ?_, rfl⟩
        · rcases h.flags with hf | hf
          · rw [← hf.1]; exact hu2.1
          · rw [hf.2.1] at hu2; cases hu2.1
        · intro hh
          show p.2.used2 = true
          cases hq : p.2.used2
          · rw [hq] at hh; simp at hh
          · rfl

theorem top_marks (c : Cfg) (i : Ins μ) (rest : List (Ins μ)) (b0 : Bi) :
    ∀ (todo done : List Mark) (p : Top μ × Bi), TopOk c i rest b0 done p →
      TopOk c i rest b0 (done ++ todo) (todo.foldl (mark c i rest) p)
  | [], done, p, h => by simpa using h
  | x :: todo, done, p, h => by
    have h2 := top_marks c i rest b0 todo (done ++ [x]) _ (top_mark c i rest b0 done p h x)
    simpa using h2

theorem marks_ok (c : Cfg) (i : Ins μ) (rest : List (Ins μ)) (b : Bi) :
    TopOk c i rest { b with added := b.added || i.added } i.marks (marks c i rest b) := by
  have h0 : TopOk c i rest { b with added := b.added || i.added } []
      (({ spills := [], flags := [] }, { b with added := b.added || i.added }) : Top μ × Bi) := by
    refine ⟨by simp, by simp, rfl, ?_, Or.inl ⟨rfl, rfl⟩, ?_⟩
    · intro m
      refine ⟨rfl, rfl, rfl, rfl, ?_, ?_⟩
      · rw [if_neg]
        · rfl
        · intro h
          have h1 := h.1
          rw [h.2.1] at h1; cases h1
      · rw [if_neg]
        · rfl
        · intro h
          have h1 := h.1
          rw [h.2.1] at h1; cases h1
    · rintro ⟨x, hx⟩; cases hx
  have := top_marks c i rest _ i.marks [] _ h0
  simpa [marks] using this

/-- The instrumentation keeps the invariant. -/
theorem top_inv (c : Cfg) (hc : c.r1 ≠ c.r2) (b : Bi) (i : Ins μ) (rest : List (Ins μ))
    (hb : BodyOk c i) (a : A μ) (m : M μ) (h : Inv c b a m (i :: rest)) :
    Inv c (marks c i rest b).2 a
      (exec ((marks c i rest b).1.spills ++ (marks c i rest b).1.flags ++ [.body i.body]) m)
      (i :: rest) := by
  have t := marks_ok c i rest b
  generalize hp : marks c i rest b = p at t
  rw [exec_append, exec_append]
  -- after the spills
  obtain ⟨g1, g2, g3, g4, g5, g6⟩ := t.spills m
  generalize hm1 : exec p.1.spills m = m1 at g1 g2 g3 g4 g5 g6
  have k1 : p.2.used1 = true → m1.slot s1 = a.reg c.r1 ∨ dead c.r1 (i :: rest) = true := by
    intro hu
    rw [g5]
    cases hb1 : b.used1
    · cases hd : dead c.r1 (i :: rest)
      · rw [if_pos ⟨hu, rfl, rfl⟩]
        have hnu : ¬InUse c b c.r1 := by
          intro hh
          rcases hh with hh | hh
          · rw [hb1] at hh; cases hh.2
          · exact hc hh.1
        rcases h.reg c.r1 hnu with hh | hh
        · exact Or.inl hh
        · rw [hd] at hh; cases hh
      · exact Or.inr rfl
    · rw [if_neg (by simp)]
      exact h.slot1 hb1
  have k2 : p.2.used2 = true → m1.slot s2 = a.reg c.r2 ∨ dead c.r2 (i :: rest) = true := by
    intro hu
    rw [g6]
    cases hb1 : b.used2
    · cases hd : dead c.r2 (i :: rest)
      · rw [if_pos ⟨hu, rfl, rfl⟩]
        have hnu : ¬InUse c b c.r2 := by
          intro hh
          rcases hh with hh | hh
          · exact hc hh.1.symm
          · rw [hb1] at hh; cases hh.2
        rcases h.reg c.r2 hnu with hh | hh
        · exact Or.inl hh
        · rw [hd] at hh; cases hh
      · exact Or.inr rfl
    · rw [if_neg (by simp)]
      exact h.slot2 hb1
  have use_mono : ∀ r, ¬InUse c p.2 r → ¬InUse c b r := by
    intro r hr hh
    rcases hh with hh | hh
    · exact hr (Or.inl ⟨hh.1, t.used1.2 (Or.inl hh.2)⟩)
    · exact hr (Or.inr ⟨hh.1, t.used2.2 (Or.inl hh.2)⟩)
  have hpl : p.2.added = false → p.1.flags = [] ∧ p.2.eflagsUsed = false ∧ i.marks = [] ∧
      b.added = false := by
    intro ha
    have ha2 : (b.added || i.added) = false := by rw [← ha]; exact t.added.symm
    have hbi : b.added = false ∧ i.added = false := by simpa using ha2
    have hem := hb.added hbi.2
    have hbf := (h.plain hbi.1).1
    have e : p = ({ spills := [], flags := [] }, { b with added := b.added || i.added }) := by
      rw [← hp]; unfold marks; rw [hem]; rfl
    rw [e]
    exact ⟨rfl, hbf, hem, hbi.1⟩
  -- after the flags
  have key : ∃ m2, exec p.1.flags m1 = m2 ∧ m2.mem = m.mem ∧
      m2.slot s1 = m1.slot s1 ∧ m2.slot s2 = m1.slot s2 ∧
      (∀ r, ¬InUse c p.2 r → m2.reg r = a.reg r ∨ dead r (i :: rest) = true) ∧
      (p.2.eflagsUsed = false → m2.flag = m.flag ∧ b.eflagsUsed = false) ∧
      (p.2.eflagsUsed = true → ∀ f, f < 6 →
        unpack (m2.slot sE) f = a.flag f ∨ deadF f (i :: rest) = true) ∧
      (p.2.added = false → m2 = m1) := by
    refine ⟨_, rfl, ?_⟩
    rcases t.flags with ⟨f1, f2⟩ | ⟨f1, f2, f3, av2, f4, f5⟩
    · have f1' : p.2.eflagsUsed = b.eflagsUsed := f1
      rw [f2, exec_nil]
      refine ⟨g3, rfl, rfl, ?_, ?_, ?_, fun _ => rfl⟩
      · intro r hr; rw [g1]; exact h.reg r (use_mono r hr)
      · intro hh; exact ⟨g2, by rw [← f1']; exact hh⟩
      · intro hh f hf
        rw [g4]; exact h.slotE (by rw [← f1']; exact hh) f hf
    · have sp := saveFlags_spec c (dead eax (i :: rest)) false av2 (aflags (i :: rest)) f3 m1
      rw [← f5] at sp
      have hreal : ∀ f, f < 6 → m1.flag f = a.flag f ∨ deadF f (i :: rest) = true := by
        intro f hf; rw [g2]; exact h.flag f1 f hf
      refine ⟨by rw [sp.mem, g3], sp.slot s1 (by decide) (by decide),
        sp.slot s2 (by decide) (by decide), ?_, ?_, ?_, ?_⟩
      · intro r hr
        by_cases hd : dead r (i :: rest) = true
        · exact Or.inr hd
        · rw [sp.reg r, g1]
          · exact h.reg r (use_mono r hr)
          · intro hfree
            rcases hfree with hh | hh | hh
            · rw [hh.1] at hd; exact hd hh.2
            · cases hh.2
            · exact hr (Or.inr ⟨hh.1, f4 hh.2⟩)
      · intro hh; rw [f2] at hh; cases hh
      · intro _ f hf
        rcases six_cases hf with h5 | h5
        · rw [sp.low f h5]; exact hreal f hf
        · subst h5
          by_cases ho : aflags (i :: rest) = .ofDead
          · exact Or.inr (aflags_of ho)
          · rw [sp.of ho]; exact hreal 5 hf
      · intro ha
        have := (hpl ha).2.1
        rw [f2] at this; cases this
  obtain ⟨m2, e2, q1, q2, q3, q4, q5, q6, q7⟩ := key
  rw [e2]
  show Inv c p.2 a (i.body m2) (i :: rest)
  have hs1 : (i.body m2).slot s1 = m2.slot s1 := hb.slot m2 s1 (Or.inl rfl)
  have hs2 : (i.body m2).slot s2 = m2.slot s2 := hb.slot m2 s2 (Or.inr (Or.inl rfl))
  have hsE : (i.body m2).slot sE = m2.slot sE := hb.slot m2 sE (Or.inr (Or.inr rfl))
  refine ⟨by rw [hb.mem, q1, h.mem], ?_, ?_, ?_, ?_, ?_, ?_⟩
  · intro r hr
    have : (i.body m2).reg r = m2.reg r := by
      refine hb.reg m2 r ?_ ?_
      · intro e hm; exact hr (Or.inl ⟨e, t.used1.2 (Or.inr hm)⟩)
      · intro e hm; exact hr (Or.inr ⟨e, t.used2.2 (Or.inr hm)⟩)
    rw [this]; exact q4 r hr
  · intro hu; rw [hs1, q2]; exact k1 hu
  · intro hu; rw [hs2, q3]; exact k2 hu
  · intro hu f hf
    by_cases hask : ∃ x, Mark.fl x ∈ i.marks
    · rcases t.asked hask with hh | hh
      · rw [hu] at hh; cases hh
      · exact Or.inr (aflags_all hh f hf)
    · rw [hb.flag m2 f hf (fun x hx => hask ⟨x, hx⟩)]
      obtain ⟨r1, r2⟩ := q5 hu
      rw [r1]; exact h.flag r2 f hf
  · intro hu f hf; rw [hsE]; exact q6 hu f hf
  · intro ha
    obtain ⟨_, p2, p3, p4⟩ := hpl ha
    refine ⟨p2, fun r => ?_⟩
    have e : (i.body m2).reg r = m2.reg r := by
      refine hb.reg m2 r ?_ ?_ <;> intro _ <;> rw [p3] <;> simp
    rw [e, q7 ha, g1]
    exact (h.plain p4).2 r

/-! ## The application instruction -/

/-- What is known when the application instruction runs. -/
structure Ready (c : Cfg) (b : Bi) (a : A μ) (m : M μ) (i : Ins μ) (rest : List (Ins μ)) :
    Prop where
  inv : Inv c b a m (i :: rest)
  scratch1 : (i.skip = false ∧ needsReg i c.r1 = true) →
    m.reg c.r1 = a.reg c.r1 ∨ dead c.r1 (i :: rest) = true
  scratch2 : (i.skip = false ∧ needsReg i c.r2 = true) →
    m.reg c.r2 = a.reg c.r2 ∨ dead c.r2 (i :: rest) = true
  noFlags : b.eflagsUsed = true → six.any i.fReads = false ∧
    (six.any i.fMay = false ∨ aflags (i :: rest) = .allDead)

/-- The application part of a machine state. -/
def M.app (m : M μ) : A μ := { reg := m.reg, flag := m.flag, mem := m.mem }

theorem any_false {p : Nat → Bool} (h : six.any p = false) {f : Nat} (hf : f < 6) :
    p f = false := by
  cases hp : p f
  · rfl
  · have : six.any p = true := List.any_eq_true.2 ⟨f, mem_six hf, hp⟩
    rw [h] at this; cases this

theorem needs_of_partial {i : Ins μ} {r : Nat} (h : needsReg i r = false)
    (hm : i.may r = true) : i.exact r = true ∧ i.must r = true := by
  unfold needsReg at h
  cases h1 : i.exact r <;> cases h2 : i.must r <;> simp_all

/-- What the application instruction yields. -/
theorem app_step (c : Cfg) (b : Bi) (a : A μ) (m : M μ) (i : Ins μ) (rest : List (Ins μ))
    (hd : Decoded i) (hs : Scope c i) (h : Ready c b a m i rest) :
    (i.sem m.app).mem = (i.sem a).mem ∧
      (∀ r, (m.reg r = a.reg r ∨ dead r (i :: rest) = true) →
        (i.sem m.app).reg r = (i.sem a).reg r ∨ dead r rest = true) ∧
      (∀ r, InUse c b r → i.may r = true →
        (i.sem m.app).reg r = (i.sem a).reg r ∨ dead r rest = true) ∧
      ((∀ f, f < 6 → m.flag f = a.flag f ∨ deadF f (i :: rest) = true) →
        ∀ f, f < 6 → (i.sem m.app).flag f = (i.sem a).flag f ∨ deadF f rest = true) := by
  have hinv := h.inv
  have hflag : ∀ f, f < 6 → i.fReads f = true → m.flag f = a.flag f := by
    intro f hf hr
    cases hb : b.eflagsUsed
    · rcases hinv.flag hb f hf with hh | hh
      · exact hh
      · rw [(deadF_step hh).1] at hr; cases hr
    · have := any_false (h.noFlags hb).1 hf
      rw [this] at hr; cases hr
  have good : ∀ r, i.reads r = true → (m.reg r = a.reg r ∨ dead r (i :: rest) = true) →
      m.reg r = a.reg r := by
    intro r hr hh
    rcases hh with hh | hh
    · exact hh
    · rw [(dead_step hh).1] at hr; cases hr
  have hsame : Same i m.app a := by
    by_cases hsk : i.skip = true
    · refine (hs hsk).1 _ _ ⟨hinv.mem, ?_, hflag⟩
      intro r hx hr
      refine good r hr (hinv.reg r ?_)
      intro hu
      rcases hu with hu | hu
      · exact hx (Or.inl hu.1)
      · exact hx (Or.inr hu.1)
    · have hsk2 : i.skip = false := by simpa using hsk
      refine hd.same _ _ ⟨hinv.mem, ?_, hflag⟩
      intro r _ hr
      have hn : needsReg i r = true := by simp [needsReg, hr]
      by_cases h1 : r = c.r1
      · subst h1; exact good _ hr (h.scratch1 ⟨hsk2, hn⟩)
      · by_cases h2 : r = c.r2
        · subst h2; exact good _ hr (h.scratch2 ⟨hsk2, hn⟩)
        · refine good r hr (hinv.reg r ?_)
          intro hu
          rcases hu with hu | hu
          · exact h1 hu.1
          · exact h2 hu.1
  refine ⟨hsame.mem, ?_, ?_, ?_⟩
  · intro r hr
    rcases hr with hr | hr
    · exact Or.inl (hsame.regKeep r hr)
    · rcases (dead_step hr).2 with hx | hx
      · exact Or.inl (hsame.reg r hx.1 hx.2)
      · exact Or.inr hx
  · intro r hu hm
    have keyx : i.exact r = true ∧ i.must r = true →
        (i.sem m.app).reg r = (i.sem a).reg r ∨ dead r rest = true :=
      fun hx => Or.inl (hsame.reg r hx.1 hx.2)
    have keyg : (m.reg r = a.reg r ∨ dead r (i :: rest) = true) →
        (i.sem m.app).reg r = (i.sem a).reg r ∨ dead r rest = true := by
      intro hr
      rcases hr with hr | hr
      · exact Or.inl (hsame.regKeep r hr)
      · rcases (dead_step hr).2 with hx | hx
        · exact Or.inl (hsame.reg r hx.1 hx.2)
        · exact Or.inr hx
    by_cases hsk : i.skip = true
    · refine keyx ((hs hsk).2 r ?_ hm)
      rcases hu with hu | hu
      · exact Or.inl hu.1
      · exact Or.inr hu.1
    · have hsk2 : i.skip = false := by simpa using hsk
      cases hn : needsReg i r
      · exact keyx (needs_of_partial hn hm)
      · rcases hu with hu | hu
        · have e := hu.1; subst e; exact keyg (h.scratch1 ⟨hsk2, hn⟩)
        · have e := hu.1; subst e; exact keyg (h.scratch2 ⟨hsk2, hn⟩)
  · intro hfl f hf
    rcases hfl f hf with hr | hr
    · exact Or.inl (hsame.flagKeep f hf hr)
    · rcases (deadF_step hr).2 with hx | hx
      · exact Or.inl (hsame.flag f hf hx)
      · exact Or.inr hx

/-! ## Before the instruction -/

/-- Flags restored before the instruction. -/
theorem flags_restored (c : Cfg) (b : Bi) (a : A μ) (m : M μ) (l : List (Ins μ))
    (h : Inv c b a m l) (av1 av2 : Bool) (h1 : av1 = true → b.used1 = true)
    (h2 : av2 = true → b.used2 = true) (hu : b.eflagsUsed = true) :
    Inv c { b with eflagsUsed := false } a
      (exec (restoreFlags c (dead eax l) av1 av2 (aflags l)) m) l := by
  have sp := restoreFlags_spec c (dead eax l) av1 av2 (aflags l) m
  have had : b.added ≠ false := by
    intro ha
    have := (h.plain ha).1
    rw [hu] at this; cases this
  refine ⟨by rw [sp.mem, h.mem], ?_, ?_, ?_, ?_, ?_, ?_⟩
  · intro r hr
    by_cases hd : dead r l = true
    · exact Or.inr hd
    · rw [sp.reg r]
      · exact h.reg r hr
      · intro hf
        rcases hf with hh | hh | hh
        · rw [hh.1] at hd; exact hd hh.2
        · exact hr (Or.inl ⟨hh.1, h1 hh.2⟩)
        · exact hr (Or.inr ⟨hh.1, h2 hh.2⟩)
  · intro hh; rw [sp.slot s1 (by decide)]; exact h.slot1 hh
  · intro hh; rw [sp.slot s2 (by decide)]; exact h.slot2 hh
  · intro _ f hf
    rcases six_cases hf with h5 | h5
    · rw [sp.low f h5]; exact h.slotE hu f hf
    · subst h5
      by_cases ho : aflags l = .ofDead
      · exact Or.inr (aflags_of ho)
      · rw [sp.of ho]; exact h.slotE hu 5 hf
  · intro hh; cases hh
  · intro ha; exact absurd ha had

/-- A scratch register restored. -/
theorem reg_restored1 (c : Cfg) (hc : c.r1 ≠ c.r2) (b : Bi) (a : A μ) (m : M μ)
    (l : List (Ins μ)) (h : Inv c b a m l) :
    Inv c b a (exec (restoreReg b.used1 (dead c.r1 l) c.r1 s1) m) l ∧
      ((exec (restoreReg b.used1 (dead c.r1 l) c.r1 s1) m).reg c.r1 = a.reg c.r1 ∨
        dead c.r1 l = true) ∧
      (∀ r, r ≠ c.r1 → (exec (restoreReg b.used1 (dead c.r1 l) c.r1 s1) m).reg r = m.reg r) ∧
      (exec (restoreReg b.used1 (dead c.r1 l) c.r1 s1) m).slot = m.slot := by
  unfold restoreReg
  by_cases hu : (b.used1 && !dead c.r1 l) = true
  · rw [if_pos hu]
    have hu2 : b.used1 = true ∧ dead c.r1 l = false := by simpa using hu
    have hv : m.slot s1 = a.reg c.r1 := by
      rcases h.slot1 hu2.1 with hh | hh
      · exact hh
      · rw [hu2.2] at hh; cases hh
    have hother : ∀ r, r ≠ c.r1 → (exec [Op.load c.r1 s1] m).reg r = m.reg r := by
      intro r hr; simp [exec_cons, exec_nil, step, upd, hr]
    have hself : (exec [Op.load c.r1 s1] m).reg c.r1 = a.reg c.r1 := by
      simp [exec_cons, exec_nil, step, upd, hv]
    refine ⟨⟨h.mem, ?_, h.slot1, h.slot2, h.flag, h.slotE, ?_⟩, Or.inl hself, hother, rfl⟩
    · intro r hr
      by_cases hr1 : r = c.r1
      · subst hr1; exact Or.inl hself
      · rw [hother r hr1]; exact h.reg r hr
    · intro ha
      refine ⟨(h.plain ha).1, fun r => ?_⟩
      by_cases hr1 : r = c.r1
      · subst hr1; exact Or.inl hself
      · rw [hother r hr1]; exact (h.plain ha).2 r
  · rw [if_neg hu, exec_nil]
    refine ⟨h, ?_, fun _ _ => rfl, rfl⟩
    cases hd : dead c.r1 l
    · have hu1 : b.used1 = false := by
        cases hb : b.used1
        · rfl
        · simp [hb, hd] at hu
      have : ¬InUse c b c.r1 := by
        intro hh
        rcases hh with hh | hh
        · rw [hu1] at hh; cases hh.2
        · exact hc hh.1
      have := h.reg c.r1 this
      rwa [hd] at this
    · exact Or.inr rfl

theorem reg_restored2 (c : Cfg) (hc : c.r1 ≠ c.r2) (b : Bi) (a : A μ) (m : M μ)
    (l : List (Ins μ)) (h : Inv c b a m l) :
    Inv c b a (exec (restoreReg b.used2 (dead c.r2 l) c.r2 s2) m) l ∧
      ((exec (restoreReg b.used2 (dead c.r2 l) c.r2 s2) m).reg c.r2 = a.reg c.r2 ∨
        dead c.r2 l = true) ∧
      (∀ r, r ≠ c.r2 → (exec (restoreReg b.used2 (dead c.r2 l) c.r2 s2) m).reg r = m.reg r) ∧
      (exec (restoreReg b.used2 (dead c.r2 l) c.r2 s2) m).slot = m.slot := by
  unfold restoreReg
  by_cases hu : (b.used2 && !dead c.r2 l) = true
  · rw [if_pos hu]
    have hu2 : b.used2 = true ∧ dead c.r2 l = false := by simpa using hu
    have hv : m.slot s2 = a.reg c.r2 := by
      rcases h.slot2 hu2.1 with hh | hh
      · exact hh
      · rw [hu2.2] at hh; cases hh
    have hother : ∀ r, r ≠ c.r2 → (exec [Op.load c.r2 s2] m).reg r = m.reg r := by
      intro r hr; simp [exec_cons, exec_nil, step, upd, hr]
    have hself : (exec [Op.load c.r2 s2] m).reg c.r2 = a.reg c.r2 := by
      simp [exec_cons, exec_nil, step, upd, hv]
    refine ⟨⟨h.mem, ?_, h.slot1, h.slot2, h.flag, h.slotE, ?_⟩, Or.inl hself, hother, rfl⟩
    · intro r hr
      by_cases hr1 : r = c.r2
      · subst hr1; exact Or.inl hself
      · rw [hother r hr1]; exact h.reg r hr
    · intro ha
      refine ⟨(h.plain ha).1, fun r => ?_⟩
      by_cases hr1 : r = c.r2
      · subst hr1; exact Or.inl hself
      · rw [hother r hr1]; exact (h.plain ha).2 r
  · rw [if_neg hu, exec_nil]
    refine ⟨h, ?_, fun _ _ => rfl, rfl⟩
    cases hd : dead c.r2 l
    · have hu1 : b.used2 = false := by
        cases hb : b.used2
        · rfl
        · simp [hb, hd] at hu
      have : ¬InUse c b c.r2 := by
        intro hh
        rcases hh with hh | hh
        · exact hc hh.1.symm
        · rw [hu1] at hh; cases hh.2
      have := h.reg c.r2 this
      rwa [hd] at this
    · exact Or.inr rfl

theorem pre_ready (c : Cfg) (hc : c.r1 ≠ c.r2) (b : Bi) (i : Ins μ) (rest : List (Ins μ))
    (a : A μ) (m : M μ) (h : Inv c b a m (i :: rest)) :
    Ready c (preApp c i rest b).2 a (exec (preApp c i rest b).1 m) i rest := by
  unfold preApp
  simp only [exec_append]
  generalize hnf : needsFlags i (aflags (i :: rest)) = nf
  -- the flags
  have s : ∃ m1, exec (if nf && b.eflagsUsed then
      restoreFlags c (dead eax (i :: rest)) (b.used1 && !i.cmov) (b.used2 && !i.cmov)
        (aflags (i :: rest)) else []) m = m1 ∧
      Inv c { b with eflagsUsed := b.eflagsUsed && !nf } a m1 (i :: rest) := by
    refine ⟨_, rfl, ?_⟩
    by_cases hn : (nf && b.eflagsUsed) = true
    · rw [if_pos hn]
      have hn2 : nf = true ∧ b.eflagsUsed = true := by simpa using hn
      have := flags_restored c b a m (i :: rest) h (b.used1 && !i.cmov) (b.used2 && !i.cmov)
        (by intro hh; cases hb : b.used1 <;> simp_all)
        (by intro hh; cases hb : b.used2 <;> simp_all) hn2.2
      simpa [hn2.1] using this
    · rw [if_neg hn, exec_nil]
      have e : (b.eflagsUsed && !nf) = b.eflagsUsed := by
        cases hb : b.eflagsUsed
        · rfl
        · cases hq : nf
          · rfl
          · simp [hb, hq] at hn
      rw [e]; exact h
  obtain ⟨m1, e1, i1⟩ := s
  rw [e1]
  generalize hb2 : ({ b with eflagsUsed := b.eflagsUsed && !nf } : Bi) = b2 at i1
  have eu1 : b.used1 = b2.used1 := by rw [← hb2]
  have eu2 : b.used2 = b2.used2 := by rw [← hb2]
  rw [eu1, eu2]
  -- the registers
  have s2 : ∃ m2, exec (if !i.skip && needsReg i c.r1 then
      restoreReg b2.used1 (dead c.r1 (i :: rest)) c.r1 s1 else []) m1 = m2 ∧
      Inv c b2 a m2 (i :: rest) ∧
      ((i.skip = false ∧ needsReg i c.r1 = true) →
        m2.reg c.r1 = a.reg c.r1 ∨ dead c.r1 (i :: rest) = true) := by
    refine ⟨_, rfl, ?_⟩
    by_cases hn : (!i.skip && needsReg i c.r1) = true
    · rw [if_pos hn]
      obtain ⟨r1, r2, _, _⟩ := reg_restored1 c hc b2 a m1 (i :: rest) i1
      exact ⟨r1, fun _ => r2⟩
    · rw [if_neg hn, exec_nil]
      refine ⟨i1, fun hh => ?_⟩
      simp [hh.1, hh.2] at hn
  obtain ⟨m2, e2, i2, c2⟩ := s2
  rw [e2]
  have s3 : ∃ m3, exec (if !i.skip && needsReg i c.r2 then
      restoreReg b2.used2 (dead c.r2 (i :: rest)) c.r2 s2 else []) m2 = m3 ∧
      Inv c b2 a m3 (i :: rest) ∧ m3.reg c.r1 = m2.reg c.r1 ∧
      ((i.skip = false ∧ needsReg i c.r2 = true) →
        m3.reg c.r2 = a.reg c.r2 ∨ dead c.r2 (i :: rest) = true) := by
    refine ⟨_, rfl, ?_⟩
    by_cases hn : (!i.skip && needsReg i c.r2) = true
    · rw [if_pos hn]
      obtain ⟨r1, r2, r3, _⟩ := reg_restored2 c hc b2 a m2 (i :: rest) i2
      exact ⟨r1, r3 c.r1 hc, fun _ => r2⟩
    · rw [if_neg hn, exec_nil]
      refine ⟨i2, rfl, fun hh => ?_⟩
      simp [hh.1, hh.2] at hn
  obtain ⟨m3, e3, i3, k3, c3⟩ := s3
  rw [e3]
  refine ⟨i3, fun hh => by rw [k3]; exact c2 hh, c3, ?_⟩
  intro hu
  rw [← hb2] at hu
  have hu2 : b.eflagsUsed = true ∧ nf = false := by simpa using hu
  rw [hu2.2] at hnf
  unfold needsFlags at hnf
  have hnf2 : six.any i.fReads = false ∧
      (six.any i.fMay && aflags (i :: rest) != .allDead) = false := by
    simpa [-List.any_eq_false] using hnf
  refine ⟨hnf2.1, ?_⟩
  cases hm : six.any i.fMay
  · exact Or.inl rfl
  · right
    have h3 := hnf2.2
    rw [hm] at h3
    simpa using h3

/-! ## After the instruction -/

theorem step_app (m : M μ) (f : A μ → A μ) :
    (step m (.app f)).reg = (f m.app).reg ∧ (step m (.app f)).flag = (f m.app).flag ∧
      (step m (.app f)).mem = (f m.app).mem ∧ (step m (.app f)).slot = m.slot :=
  ⟨rfl, rfl, rfl, rfl⟩

theorem exec_saveReg (w d : Bool) (r k : Nat) (m : M μ) :
    exec (saveReg w d r k) m =
      { m with slot := if (w && !d) = true then upd m.slot k (m.reg r) else m.slot } := by
  unfold saveReg
  split <;> rfl

theorem post_inv (c : Cfg) (b : Bi) (i : Ins μ) (rest : List (Ins μ))
    (hd : Decoded i) (hs : Scope c i) (a : A μ) (m : M μ) (h : Ready c b a m i rest) :
    Inv c (postApp c i rest b).2 (i.sem a)
      (exec (postApp c i rest b).1 (step m (.app i.sem))) rest := by
  obtain ⟨A1, A2, A3, A4⟩ := app_step c b a m i rest hd hs h
  obtain ⟨t1, t2, t3, t4⟩ := step_app m i.sem
  generalize hm1 : step m (.app i.sem) = m1 at t1 t2 t3 t4
  have hinv := h.inv
  -- flags after the instruction
  have hreal : b.eflagsUsed = false ∨ six.any i.fMay = true →
      ∀ f, f < 6 → m1.flag f = (i.sem a).flag f ∨ deadF f rest = true := by
    intro hh f hf
    rw [t2]
    refine A4 ?_ f hf
    intro g hg
    cases hb : b.eflagsUsed
    · exact hinv.flag hb g hg
    · rcases hh with hh | hh
      · rw [hb] at hh; cases hh
      · rcases (h.noFlags hb).2 with h1 | h1
        · rw [hh] at h1; cases h1
        · exact Or.inr (aflags_all h1 g hg)
  have hslot : b.eflagsUsed = true → six.any i.fMay = false →
      ∀ f, f < 6 → unpack (m1.slot sE) f = (i.sem a).flag f ∨ deadF f rest = true := by
    intro hu hn f hf
    rw [t4, hd.keepFlag a f hf (any_false hn hf)]
    rcases hinv.slotE hu f hf with h1 | h1
    · exact Or.inl h1
    · rcases (deadF_step h1).2 with h2 | h2
      · have := hd.fMustMay f h2
        rw [any_false hn hf] at this; cases this
      · exact Or.inr h2
  unfold postApp
  simp only [exec_append, exec_saveReg]
  generalize hu1 : (b.used1 || (i.may c.r1 && !dead c.r1 rest)) = u1
  generalize hu2 : (b.used2 || (i.may c.r2 && !dead c.r2 rest)) = u2
  generalize hwf : (six.any i.fMay && aflags rest != .allDead) = wf
  generalize hsk : (i.flagsDefined && nextJcc rest) = sk
  -- registers before the flags are saved
  have regOk : ∀ r, ¬InUse c { b with used1 := u1, used2 := u2 } r →
      m1.reg r = (i.sem a).reg r ∨ dead r rest = true := by
    intro r hr
    rw [t1]
    refine A2 r (hinv.reg r ?_)
    intro hh
    rcases hh with hh | hh
    · exact hr (Or.inl ⟨hh.1, by show u1 = true; rw [← hu1, hh.2]; rfl⟩)
    · exact hr (Or.inr ⟨hh.1, by show u2 = true; rw [← hu2, hh.2]; rfl⟩)
  have written : ∀ r, r = c.r1 ∨ r = c.r2 → i.may r = true →
      m1.reg r = (i.sem a).reg r ∨ dead r rest = true := by
    intro r hr hm
    rw [t1]
    by_cases hu : InUse c b r
    · exact A3 r hu hm
    · exact A2 r (hinv.reg r hu)
  have keep : ∀ (r : Nat) (v : W), i.may r = false →
      (v = a.reg r ∨ dead r (i :: rest) = true) →
      (v = (i.sem a).reg r ∨ dead r rest = true) := by
    intro r v hm hv
    rw [hd.keepReg a r hm]
    rcases hv with hv | hv
    · exact Or.inl hv
    · rcases (dead_step hv).2 with h2 | h2
      · have := hd.mustMay r h2.2
        rw [hm] at this; cases this
      · exact Or.inr h2
  have slot1Ok : u1 = true →
      (if (i.may c.r1 && !dead c.r1 rest) = true then upd m1.slot s1 (m1.reg c.r1)
        else m1.slot) s1 = (i.sem a).reg c.r1 ∨ dead c.r1 rest = true := by
    intro hu
    cases hm : i.may c.r1
    · simp only [Bool.false_and, Bool.false_eq_true, if_false]
      rw [hm] at hu1
      have hb : b.used1 = true := by rw [← hu] ; rw [← hu1]; simp
      rw [t4]
      exact keep c.r1 _ hm (hinv.slot1 hb)
    · cases hdd : dead c.r1 rest
      · simp only [Bool.not_false, Bool.and_true, if_true]
        have := written c.r1 (Or.inl rfl) hm
        rw [hdd] at this
        simpa [upd] using this
      · exact Or.inr rfl
  have slot2Ok : u2 = true →
      (if (i.may c.r2 && !dead c.r2 rest) = true then upd m1.slot s2 (m1.reg c.r2)
        else m1.slot) s2 = (i.sem a).reg c.r2 ∨ dead c.r2 rest = true := by
    intro hu
    cases hm : i.may c.r2
    · simp only [Bool.false_and, Bool.false_eq_true, if_false]
      rw [hm] at hu2
      have hb : b.used2 = true := by rw [← hu] ; rw [← hu2]; simp
      rw [t4]
      exact keep c.r2 _ hm (hinv.slot2 hb)
    · cases hdd : dead c.r2 rest
      · simp only [Bool.not_false, Bool.and_true, if_true]
        have := written c.r2 (Or.inr rfl) hm
        rw [hdd] at this
        simpa [upd] using this
      · exact Or.inr rfl
  -- the machine after the registers are saved
  have key : ∃ m2 : M μ, ({ m1 with
        slot := if (i.may c.r2 && !dead c.r2 rest) = true then
            upd (if (i.may c.r1 && !dead c.r1 rest) = true then upd m1.slot s1 (m1.reg c.r1)
              else m1.slot) s2 (m1.reg c.r2)
          else (if (i.may c.r1 && !dead c.r1 rest) = true then upd m1.slot s1 (m1.reg c.r1)
              else m1.slot) } : M μ) = m2 ∧
      m2.reg = m1.reg ∧ m2.flag = m1.flag ∧ m2.mem = m1.mem ∧ m2.slot sE = m1.slot sE ∧
      (u1 = true → m2.slot s1 = (i.sem a).reg c.r1 ∨ dead c.r1 rest = true) ∧
      (u2 = true → m2.slot s2 = (i.sem a).reg c.r2 ∨ dead c.r2 rest = true) := by
    refine ⟨_, rfl, rfl, rfl, rfl, ?_, ?_, ?_⟩
    · show (if _ then _ else _ : Nat → W) sE = _
      split
      · show upd _ s2 _ sE = _
        unfold upd
        rw [if_neg (by decide)]
        split
        · dsimp only; rw [if_neg (by decide)]
        · rfl
      · split
        · show upd _ s1 _ sE = _
          unfold upd; rw [if_neg (by decide)]
        · rfl
    · intro hu
      have := slot1Ok hu
      show (if _ then _ else _ : Nat → W) s1 = _ ∨ _
      split
      · show upd _ s2 _ s1 = _ ∨ _
        unfold upd at this ⊢
        rw [if_neg (by decide)]; exact this
      · exact this
    · intro hu
      have := slot2Ok hu
      show (if _ then _ else _ : Nat → W) s2 = _ ∨ _
      split
      · rename_i hcond
        rw [if_pos hcond] at this
        simpa [upd] using this
      · rename_i hcond
        rw [if_neg hcond] at this
        split
        · show upd _ s1 _ s2 = _ ∨ _
          unfold upd; rw [if_neg (by decide)]; exact this
        · exact this
  obtain ⟨m2, e2, b1, b2, b3, b4, b5, b6⟩ := key
  rw [e2]
  have hmem2 : m2.mem = (i.sem a).mem := by rw [b3, t3, A1]
  have plainOk : b.added = false → b.eflagsUsed = false ∧
      ∀ r, m2.reg r = (i.sem a).reg r ∨ dead r rest = true := by
    intro ha
    refine ⟨(hinv.plain ha).1, fun r => ?_⟩
    rw [b1, t1]
    exact A2 r ((hinv.plain ha).2 r)
  by_cases hsave : (wf && !sk && b.eflagsUsed) = true
  · rw [if_pos hsave]
    have hsv : (wf = true ∧ sk = false) ∧ b.eflagsUsed = true := by simpa using hsave
    have hwf2 : six.any i.fMay = true ∧ aflags rest ≠ .allDead := by
      have := hwf; rw [hsv.1.1] at this
      simpa [-List.any_eq_true] using this
    have sp := saveFlags_spec c (dead eax rest) (u1 && !nextCmov rest) (u2 && !nextCmov rest)
      (aflags rest) hwf2.2 m2
    refine ⟨by rw [sp.mem, hmem2], ?_, ?_, ?_, ?_, ?_, ?_⟩
    · intro r hr
      by_cases hdd : dead r rest = true
      · exact Or.inr hdd
      · rw [sp.reg r, b1]
        · exact regOk r hr
        · intro hf
          rcases hf with hh | hh | hh
          · rw [hh.1] at hdd; exact hdd hh.2
          · refine hr (Or.inl ⟨hh.1, ?_⟩)
            show u1 = true
            cases hq : u1
            · rw [hq] at hh; simp at hh
            · rfl
          · refine hr (Or.inr ⟨hh.1, ?_⟩)
            show u2 = true
            cases hq : u2
            · rw [hq] at hh; simp at hh
            · rfl
    · intro hu; rw [sp.slot s1 (by decide) (by decide)]; exact b5 hu
    · intro hu; rw [sp.slot s2 (by decide) (by decide)]; exact b6 hu
    · intro hu
      have : (b.eflagsUsed && !(wf && sk)) = false := hu
      rw [hsv.2, hsv.1.2] at this; simp at this
    · intro _ f hf
      have hr := hreal (Or.inr hwf2.1)
      rcases six_cases hf with h5 | h5
      · rw [sp.low f h5, b2]; exact hr f hf
      · subst h5
        by_cases ho : aflags rest = .ofDead
        · exact Or.inr (aflags_of ho)
        · rw [sp.of ho, b2]; exact hr 5 hf
    · intro ha
      have := (plainOk ha).1
      rw [hsv.2] at this; cases this
  · rw [if_neg hsave, exec_nil]
    refine ⟨hmem2, ?_, b5, b6, ?_, ?_, ?_⟩
    · intro r hr; rw [b1]; exact regOk r hr
    · intro hu f hf
      have hu3 : (b.eflagsUsed && !(wf && sk)) = false := hu
      rw [b2]
      refine hreal ?_ f hf
      cases hb : b.eflagsUsed
      · exact Or.inl rfl
      · right
        rw [hb] at hu3
        have h1 : wf = true ∧ sk = true := by simpa using hu3
        have := hwf; rw [h1.1] at this
        have h2 : six.any i.fMay = true ∧ aflags rest ≠ .allDead := by
          simpa [-List.any_eq_true] using this
        exact h2.1
    · intro hu f hf
      have hu3 : (b.eflagsUsed && !(wf && sk)) = true := hu
      have hb : b.eflagsUsed = true := by
        cases hb : b.eflagsUsed
        · rw [hb] at hu3; simp at hu3
        · rfl
      have hnw : wf = false := by
        cases hq : wf
        · rfl
        · cases hr : sk
          · rw [hq, hr, hb] at hsave; simp at hsave
          · rw [hq, hr, hb] at hu3; simp at hu3
      rw [b4]
      cases hany : six.any i.fMay
      · exact hslot hb hany f hf
      · have := hwf
        rw [hany, hnw] at this
        have h1 : aflags rest = .allDead := by simpa using this
        exact Or.inr (aflags_all h1 f hf)
    · intro ha
      have hp := plainOk ha
      refine ⟨?_, hp.2⟩
      show (b.eflagsUsed && !(wf && sk)) = false
      rw [hp.1]; rfl

/-! ## The last instruction -/

theorem bottom_ready (c : Cfg) (hc : c.r1 ≠ c.r2) (b : Bi) (i : Ins μ) (a : A μ) (m : M μ)
    (h : Inv c b a m [i]) :
    ∃ b', Ready c b' a (exec (bottom c i b) m) i [] ∧
      (∀ r, (exec (bottom c i b) m).reg r = a.reg r ∨ dead r [i] = true) ∧
      b'.eflagsUsed = false := by
  unfold bottom
  cases ha : b.added
  · have hp := h.plain ha
    refine ⟨b, ⟨h, fun _ => hp.2 _, fun _ => hp.2 _, ?_⟩, hp.2, hp.1⟩
    intro hu; rw [hp.1] at hu; cases hu
  · simp only [if_true, exec_append]
    have s : ∃ m1, exec (if b.eflagsUsed then
        restoreFlags c (dead eax [i]) false (b.used2 && !i.cmov) (aflags [i]) else []) m = m1 ∧
        Inv c { b with eflagsUsed := false } a m1 [i] := by
      refine ⟨_, rfl, ?_⟩
      cases hu : b.eflagsUsed
      · simp only [Bool.false_eq_true, if_false, exec_nil]
        have e : ({ b with eflagsUsed := false } : Bi) = b := by rw [← hu]
        rw [e]; exact h
      · simp only [if_true]
        exact flags_restored c b a m [i] h false (b.used2 && !i.cmov)
          (by intro hh; cases hh) (by intro hh; cases hb : b.used2 <;> simp_all) hu
    obtain ⟨m1, e1, i1⟩ := s
    rw [e1]
    generalize hb2 : ({ b with eflagsUsed := false } : Bi) = b2 at i1
    have eu1 : b.used1 = b2.used1 := by rw [← hb2]
    have eu2 : b.used2 = b2.used2 := by rw [← hb2]
    rw [eu1, eu2]
    obtain ⟨i2, c2, k2, _⟩ := reg_restored1 c hc b2 a m1 [i] i1
    generalize exec (restoreReg b2.used1 (dead c.r1 [i]) c.r1 s1) m1 = m2 at i2 c2 k2
    obtain ⟨i3, c3, k3, _⟩ := reg_restored2 c hc b2 a m2 [i] i2
    generalize exec (restoreReg b2.used2 (dead c.r2 [i]) c.r2 s2) m2 = m3 at i3 c3 k3
    have hr1 : m3.reg c.r1 = a.reg c.r1 ∨ dead c.r1 [i] = true := by rw [k3 c.r1 hc]; exact c2
    have hf : b2.eflagsUsed = false := by rw [← hb2]
    refine ⟨b2, ⟨i3, fun _ => hr1, fun _ => c3, ?_⟩, ?_, hf⟩
    · intro hu; rw [hf] at hu; cases hu
    · intro r
      by_cases h1 : r = c.r1
      · subst h1; exact hr1
      · by_cases h2 : r = c.r2
        · subst h2; exact c3
        · refine i3.reg r ?_
          intro hh
          rcases hh with hh | hh
          · exact h1 hh.1
          · exact h2 hh.1

/-! ## Blocks -/

/-- The machine agrees with the application. -/
def SameState (m : M μ) (a : A μ) : Prop :=
  m.mem = a.mem ∧ (∀ r, m.reg r = a.reg r) ∧ ∀ f, f < 6 → m.flag f = a.flag f

theorem gen_ok (c : Cfg) (hc : c.r1 ≠ c.r2) : ∀ (l : List (Ins μ)) (b : Bi) (a : A μ) (m : M μ),
    l ≠ [] → (∀ i ∈ l, Decoded i ∧ BodyOk c i ∧ Scope c i) → Inv c b a m l →
    SameState (exec (gen c b l) m) (runApp l a)
  | [], _, _, _, hn, _, _ => absurd rfl hn
  | [i], b, a, m, _, hl, h => by
    obtain ⟨hd, hb, hs⟩ := hl i (by simp)
    have h1 := top_inv c hc b i [] hb a m h
    rw [gen]
    rw [exec_append, exec_append]
    generalize exec ((marks c i [] b).1.spills ++ (marks c i [] b).1.flags ++ [.body i.body]) m
      = m1 at h1
    obtain ⟨b', r1, r2, r3⟩ := bottom_ready c hc (marks c i [] b).2 i a m1 h1
    generalize exec (bottom c i (marks c i [] b).2) m1 = m2 at r1 r2
    obtain ⟨A1, A2, _, A4⟩ := app_step c b' a m2 i [] hd hs r1
    rw [exec_cons, exec_nil]
    obtain ⟨t1, t2, t3, _⟩ := step_app m2 i.sem
    refine ⟨?_, ?_, ?_⟩
    · rw [t3]; exact A1
    · intro r
      rw [t1]
      rcases A2 r (r2 r) with hh | hh
      · exact hh
      · cases hh
    · intro f hf
      rw [t2]
      rcases A4 (r1.inv.flag r3) f hf with hh | hh
      · exact hh
      · cases hh
  | i :: j :: rest, b, a, m, _, hl, h => by
    obtain ⟨hd, hb, hs⟩ := hl i (by simp)
    have h1 := top_inv c hc b i (j :: rest) hb a m h
    rw [gen]
    rw [exec_append, exec_append, exec_append, exec_append]
    generalize exec ((marks c i (j :: rest) b).1.spills ++ (marks c i (j :: rest) b).1.flags ++
      [.body i.body]) m = m1 at h1
    have h2 := pre_ready c hc (marks c i (j :: rest) b).2 i (j :: rest) a m1 h1
    generalize exec (preApp c i (j :: rest) (marks c i (j :: rest) b).2).1 m1 = m2 at h2
    have h3 := post_inv c _ i (j :: rest) hd hs a m2 h2
    rw [exec_cons, exec_nil]
    exact gen_ok c hc (j :: rest) _ (i.sem a) _ (by simp)
      (fun k hk => hl k (List.mem_cons_of_mem _ hk)) h3

/-- **C63.**  For every block, every choice of two scratch registers and all instrumentation
that changes only what it asked for, the instrumented block ends with the registers, the flags and
the memory of the block run natively.  The missing part is `Scope`: that an instruction whose
result is always the same (`and $0`, `or $~0`, `test $0`, `xor` with itself) does not depend on
the scratch registers, which the code assumes without looking at addresses. -/
theorem C63_transparent_partial (c : Cfg) (hc : c.r1 ≠ c.r2) (l : List (Ins μ))
    (hl : ∀ i ∈ l, Decoded i ∧ BodyOk c i ∧ Scope c i) (a : A μ) (slot : Nat → W) :
    SameState (exec (gen c Bi.init l) { reg := a.reg, flag := a.flag, mem := a.mem, slot := slot })
      (runApp l a) := by
  by_cases hn : l = []
  · subst hn
    exact ⟨rfl, fun _ => rfl, fun _ _ => rfl⟩
  · refine gen_ok c hc l Bi.init a _ hn hl ?_
    refine ⟨rfl, fun _ _ => Or.inl rfl, ?_, ?_, fun _ _ _ => Or.inl rfl, ?_, ?_⟩
    · intro h; cases h
    · intro h; cases h
    · intro h; cases h
    · intro _; exact ⟨rfl, fun _ => Or.inl rfl⟩

/-! ## The order of the code -/

/-- The step of an operation that is not spilling. -/
def work : Op μ → Option ((M μ → M μ) ⊕ (A μ → A μ))
  | .body f => some (.inl f)
  | .app f => some (.inr f)
  | _ => none

theorem work_putAway (c : Cfg) (x y : Bool) :
    (putAway c x y : List (Op μ)).filterMap work = [] := by
  cases x <;> cases y <;> rfl

theorem work_getBack (c : Cfg) (x y : Bool) :
    (getBack c x y : List (Op μ)).filterMap work = [] := by
  cases x <;> cases y <;> rfl

theorem work_saveFlags (c : Cfg) (ed x y : Bool) (af : AF) :
    (saveFlags c ed x y af : List (Op μ)).filterMap work = [] := by
  unfold saveFlags
  cases af <;> cases eaxFree c ed x y <;>
    simp [-List.filterMap_eq_nil_iff, List.filterMap_append, List.filterMap_cons, work,
      work_putAway, work_getBack]

theorem work_restoreFlags (c : Cfg) (ed x y : Bool) (af : AF) :
    (restoreFlags c ed x y af : List (Op μ)).filterMap work = [] := by
  unfold restoreFlags
  cases af <;> cases eaxFree c ed x y <;>
    simp [-List.filterMap_eq_nil_iff, List.filterMap_append, List.filterMap_cons, work,
      work_putAway, work_getBack]

theorem work_restoreReg (u d : Bool) (r k : Nat) :
    (restoreReg u d r k : List (Op μ)).filterMap work = [] := by
  unfold restoreReg; cases u <;> cases d <;> rfl

theorem work_saveReg (u d : Bool) (r k : Nat) :
    (saveReg u d r k : List (Op μ)).filterMap work = [] := by
  unfold saveReg; cases u <;> cases d <;> rfl

theorem work_mark (c : Cfg) (i : Ins μ) (rest : List (Ins μ)) :
    ∀ (ms : List Mark) (p : Top μ × Bi), p.1.spills.filterMap work = [] →
      p.1.flags.filterMap work = [] →
      (ms.foldl (mark c i rest) p).1.spills.filterMap work = [] ∧
      (ms.foldl (mark c i rest) p).1.flags.filterMap work = []
  | [], _, h1, h2 => ⟨h1, h2⟩
  | x :: ms, p, h1, h2 => by
    refine work_mark c i rest ms (mark c i rest p x) ?_ ?_
    · cases x with
      | r1 =>
        simp only [mark]; split
        · exact h1
        · cases dead c.r1 (i :: rest) <;>
            simp [-List.filterMap_eq_nil_iff, List.filterMap_cons, work, h1]
      | r2 =>
        simp only [mark]; split
        · exact h1
        · cases dead c.r2 (i :: rest) <;>
            simp [-List.filterMap_eq_nil_iff, List.filterMap_cons, work, h1]
      | fl =>
        simp only [mark]; split
        · exact h1
        · exact h1
    · cases x with
      | r1 => simp only [mark]; split <;> exact h2
      | r2 => simp only [mark]; split <;> exact h2
      | fl =>
        simp only [mark]; split
        · exact h2
        · exact work_saveFlags _ _ _ _ _

/-- **C63, order.**  Whatever is spilled, the code of a block runs the instrumentation of each
instruction and then the instruction, each once and in the order of the block. -/
theorem C63_order (c : Cfg) : ∀ (l : List (Ins μ)) (b : Bi),
    (gen c b l).filterMap work = l.flatMap (fun i => [.inl i.body, .inr i.sem])
  | [], _ => rfl
  | [i], b => by
    obtain ⟨h1, h2⟩ := work_mark c i [] i.marks
      (({ spills := [], flags := [] }, { b with added := b.added || i.added }) : Top μ × Bi)
      rfl rfl
    have hb : (bottom c i (marks c i [] b).2).filterMap work = [] := by
      unfold bottom
      split
      · cases (marks c i [] b).2.eflagsUsed <;>
          simp only [List.filterMap_append, work_restoreFlags, work_restoreReg, if_true,
            Bool.false_eq_true, if_false, List.filterMap_nil, List.append_nil]
      · rfl
    simp only [gen, List.filterMap_append, hb]
    unfold marks
    rw [h1, h2]
    rfl
  | i :: j :: rest, b => by
    obtain ⟨h1, h2⟩ := work_mark c i (j :: rest) i.marks
      (({ spills := [], flags := [] }, { b with added := b.added || i.added }) : Top μ × Bi)
      rfl rfl
    have hp : ∀ b', ((preApp c i (j :: rest) b').1).filterMap work = [] := by
      intro b'
      unfold preApp
      simp only [List.filterMap_append]
      split <;> split <;> split <;> simp [work_restoreFlags, work_restoreReg]
    have hq : ∀ b', ((postApp c i (j :: rest) b').1).filterMap work = [] := by
      intro b'
      unfold postApp
      simp only [List.filterMap_append]
      split <;> simp [work_saveFlags, work_saveReg]
    simp only [gen, List.filterMap_append, hp, hq, C63_order c (j :: rest)]
    unfold marks
    rw [h1, h2]
    simp [work]

/-! ## Examples -/

/-- Instrumentation that ruins all it may. -/
def ruin (c : Cfg) (m : M Nat) : M Nat :=
  { m with
    reg := upd (upd m.reg c.r1 { al := 7, ah := 7, hi := 7 }) c.r2 { al := 8, ah := 8, hi := 8 }
    flag := fun f => !m.flag f }

/-- `mov dst, src` with such instrumentation. -/
def mov (c : Cfg) (dst src : Nat) : Ins Nat :=
  { reads := fun r => r == src
    may := fun r => r == dst
    must := fun r => r == dst
    exact := fun r => r == dst
    fReads := fun _ => false
    fMay := fun _ => false
    fMust := fun _ => false
    cti := false, cmov := false, jcc := false, skip := false, flagsDefined := false
    added := true
    marks := [.fl false, .r2, .r1]
    body := ruin c
    sem := fun a => { a with reg := upd a.reg dst (a.reg src) } }

/-- `cmp x, y` (three of the flags clear) with such instrumentation. -/
def cmp (c : Cfg) (x y : Nat) : Ins Nat :=
  { reads := fun r => r == x || r == y
    may := fun _ => false
    must := fun _ => false
    exact := fun _ => false
    fReads := fun _ => false
    fMay := fun _ => true
    fMust := fun _ => true
    cti := false, cmov := false, jcc := false, skip := false, flagsDefined := false
    added := true
    marks := [.r1, .fl true, .r2]
    body := ruin c
    sem := fun a =>
      { a with
        flag := fun f =>
          if f = 3 then decide (a.reg x = a.reg y)
          else if f = 0 then decide ((a.reg x).al < (a.reg y).al)
          else if f = 5 then decide ((a.reg x).hi < (a.reg y).hi)
          else false } }

/-- `jz`, not instrumented; memory counts where execution goes. -/
def jz : Ins Nat :=
  { reads := fun _ => false
    may := fun _ => false
    must := fun _ => false
    exact := fun _ => false
    fReads := fun f => f == 3
    fMay := fun _ => false
    fMust := fun _ => false
    cti := true, cmov := false, jcc := true, skip := false, flagsDefined := false
    added := false
    marks := []
    body := id
    sem := fun a => { a with mem := a.mem + (if a.flag 3 then 1 else 2) } }

theorem mov_ok (c : Cfg) (dst src : Nat) :
    Decoded (mov c dst src) ∧ BodyOk c (mov c dst src) ∧ Scope c (mov c dst src) := by
  refine ⟨⟨?_, fun _ _ _ _ => rfl, fun _ h => h, fun _ h => h, ?_⟩,
    ⟨fun _ => rfl, fun _ _ _ => rfl, ?_, ?_, ?_⟩, ?_⟩
  · intro a r h
    have : r ≠ dst := by simpa [mov] using h
    simp [mov, upd, this]
  · intro a b h
    have hs : a.reg src = b.reg src := h.reg src (fun h => h) (by simp [mov])
    refine ⟨h.mem, ?_, ?_, ?_, fun f _ h => h⟩
    · intro r h1 _
      have : r = dst := by simpa [mov] using h1
      subst this
      simpa [mov, upd] using hs
    · intro f _ h; cases h
    · intro r h1
      show upd a.reg dst (a.reg src) r = upd b.reg dst (b.reg src) r
      unfold upd
      rw [h1, hs]
  · intro m r h1 h2
    have n1 : r ≠ c.r1 := fun e => h1 e (by simp [mov])
    have n2 : r ≠ c.r2 := fun e => h2 e (by simp [mov])
    simp [mov, ruin, upd, n1, n2]
  · intro m f _ h
    exact absurd (by simp [mov]) (h false)
  · intro h; cases h
  · intro h; cases h

theorem cmp_ok (c : Cfg) (x y : Nat) :
    Decoded (cmp c x y) ∧ BodyOk c (cmp c x y) ∧ Scope c (cmp c x y) := by
  refine ⟨⟨fun _ _ _ => rfl, ?_, fun _ h => h, fun _ h => h, ?_⟩,
    ⟨fun _ => rfl, fun _ _ _ => rfl, ?_, ?_, ?_⟩, ?_⟩
  · intro a f _ h; cases h
  · intro a b h
    have hx : a.reg x = b.reg x := h.reg x (fun h => h) (by simp [cmp])
    have hy : a.reg y = b.reg y := h.reg y (fun h => h) (by simp [cmp])
    refine ⟨h.mem, ?_, ?_, fun r h => h, ?_⟩
    · intro r h1 _; cases h1
    · intro f _ _; simp only [cmp, hx, hy]
    · intro f _ _; simp only [cmp, hx, hy]
  · intro m r h1 h2
    have n1 : r ≠ c.r1 := fun e => h1 e (by simp [cmp])
    have n2 : r ≠ c.r2 := fun e => h2 e (by simp [cmp])
    simp [cmp, ruin, upd, n1, n2]
  · intro m f _ h
    exact absurd (by simp [cmp]) (h true)
  · intro h; cases h
  · intro h; cases h

theorem jz_ok (c : Cfg) : Decoded jz ∧ BodyOk c jz ∧ Scope c jz := by
  refine ⟨⟨fun _ _ _ => rfl, fun _ _ _ _ => rfl, fun _ h => h, fun _ h => h, ?_⟩,
    ⟨fun _ => rfl, fun _ _ _ => rfl, fun _ _ _ _ => rfl, fun _ _ _ _ => rfl, fun _ => rfl⟩, ?_⟩
  · intro a b h
    have hz : a.flag 3 = b.flag 3 := h.flag 3 (by decide) rfl
    refine ⟨?_, ?_, ?_, fun r h => h, fun f _ h => h⟩
    · show a.mem + _ = b.mem + _
      rw [h.mem, hz]
    · intro r h1 _; cases h1
    · intro f _ h; cases h
  · intro h; cases h

/-- `mov ebx, ecx; cmp ecx, edx; mov eax, ebx; jz` with scratch registers ecx and edx, which the
instrumentation ruins three times together with the flags: the hypotheses hold, so that the
block is transparent. -/
example (a : A Nat) (slot : Nat → W) :
    let c : Cfg := { r1 := 1, r2 := 2 }
    let l := [mov c 3 1, cmp c 1 2, mov c 0 3, jz]
    SameState (exec (gen c Bi.init l)
        { reg := a.reg, flag := a.flag, mem := a.mem, slot := slot }) (runApp l a) := by
  intro c l
  refine C63_transparent_partial c (by decide) l ?_ a slot
  intro i hi
  rcases List.mem_cons.1 hi with h | hi
  · rw [h]; exact mov_ok c 3 1
  rcases List.mem_cons.1 hi with h | hi
  · rw [h]; exact cmp_ok c 1 2
  rcases List.mem_cons.1 hi with h | hi
  · rw [h]; exact mov_ok c 0 3
  · rw [List.mem_singleton.1 hi]; exact jz_ok c

/-- The code of that block does spill, restore and move flags. -/
example : (gen { r1 := 1, r2 := 2 } Bi.init
    [mov { r1 := 1, r2 := 2 } 3 1, cmp { r1 := 1, r2 := 2 } 1 2,
     mov { r1 := 1, r2 := 2 } 0 3, jz]).length = 23 := by decide +kernel

/-- `and $0, (ecx)`: memory is the address last written. -/
def andMem (c : Cfg) : Ins Nat :=
  { reads := fun r => r == 1
    may := fun _ => false
    must := fun _ => false
    exact := fun _ => false
    fReads := fun _ => false
    fMay := fun _ => true
    fMust := fun _ => true
    cti := false, cmov := false, jcc := false, skip := true, flagsDefined := false
    added := true
    marks := [.r1, .r2]
    body := fun m => { m with reg := (ruin c m).reg }
    sem := fun a => { a with mem := (a.reg 1).al, flag := fun f => f == 3 } }

/-- The state of the witnesses. -/
def a0 : A Nat :=
  { reg := fun r => { al := 100 + r, ah := 0, hi := 0 }, flag := fun _ => false, mem := 0 }

/-- Negation outside `Scope`: `and $0, (ecx)` is decoded correctly and its instrumentation asks
for what it changes, yet it writes to the address 7 left in ecx by the instrumentation and not to
the application's address 101, since nothing is restored for an instruction whose result is
always the same (/repo/drmemory/spill.c:1561-1567 with
/repo/drmemory/slowpath_x86.c:451-468). -/
theorem C63_address_lost :
    let c : Cfg := { r1 := 1, r2 := 2 }
    (∀ i ∈ [andMem c, jz], Decoded i ∧ BodyOk c i) ∧
    (exec (gen c Bi.init [andMem c, mov c 3 2, jz])
      { reg := a0.reg, flag := a0.flag, mem := a0.mem, slot := fun _ => ⟨0, 0, 0⟩ }).mem = 8 ∧
    (runApp [andMem c, mov c 3 2, jz] a0).mem = 102 := by
  intro c
  refine ⟨?_, by decide +kernel, by decide +kernel⟩
  intro i hi
  rcases List.mem_cons.1 hi with h | hi
  · subst h
    refine ⟨⟨fun _ _ _ => rfl, ?_, fun _ h => h, fun _ h => h, ?_⟩,
      ⟨fun _ => rfl, fun _ _ _ => rfl, ?_, fun _ _ _ _ => rfl, ?_⟩⟩
    · intro a f _ h; cases h
    · intro a b h
      have h1 : a.reg 1 = b.reg 1 := h.reg 1 (fun h => h) rfl
      refine ⟨?_, ?_, fun _ _ _ => rfl, fun r h => h, fun _ _ _ => rfl⟩
      · show (a.reg 1).al = (b.reg 1).al
        rw [h1]
      · intro r h1 _; cases h1
    · intro m r h1 h2
      have n1 : r ≠ c.r1 := fun e => h1 e (by simp [andMem])
      have n2 : r ≠ c.r2 := fun e => h2 e (by simp [andMem])
      simp [andMem, ruin, upd, n1, n2]
    · intro h; cases h
  · rw [List.mem_singleton.1 hi]
    exact ⟨(jz_ok c).1, (jz_ok c).2.1⟩

end Verif.Spill
