import Verif.SpillThms

/-!
# C64: what a fault handler of the application sees

When an instruction of the application faults, `event_restore_state` turns the machine state into
the state of the application with the help of a record made when the block was instrumented
(/repo/drmemory/spill.c:381-480, 1706-1767).  The record holds what was in use at the *end* of the
block.

Simplifications as in Spill; the mode in which flags are kept in eax (`AFLAGS_IN_EAX`,
/repo/drmemory/spill.c:1043-1084) and `first_restore_pc` belong to pattern mode, which uses another
spilling library here, and are left out.
-/

namespace Verif.Spill

variable {μ : Type}

/-- The record of a block: the bookkeeping before the code at the end of the block is made
(/repo/drmemory/spill.c:1706-1724). -/
def record (c : Cfg) : Bi → List (Ins μ) → Bi
  | b, [] => b
  | b, [i] => (marks c i [] b).2
  | b, i :: j :: rest =>
    record c (postApp c i (j :: rest) (preApp c i (j :: rest) (marks c i (j :: rest) b).2).2).2
      (j :: rest)

/-- The code of a block up to the application instruction number `k`, and the bookkeeping there
(see `gen`). -/
def upto (c : Cfg) : Bi → List (Ins μ) → Nat → List (Op μ) × Bi
  | b, [], _ => ([], b)
  | b, [i], _ =>
    let t := marks c i [] b
    (t.1.spills ++ t.1.flags ++ [.body i.body] ++ bottom c i t.2, t.2)
  | b, i :: j :: rest, 0 =>
    let t := marks c i (j :: rest) b
    let p := preApp c i (j :: rest) t.2
    (t.1.spills ++ t.1.flags ++ [.body i.body] ++ p.1, p.2)
  | b, i :: j :: rest, k + 1 =>
    let t := marks c i (j :: rest) b
    let p := preApp c i (j :: rest) t.2
    let q := postApp c i (j :: rest) p.2
    let r := upto c q.2 (j :: rest) k
    (t.1.spills ++ t.1.flags ++ [.body i.body] ++ p.1 ++ [.app i.sem] ++ q.1 ++ r.1, r.2)

/-- `event_restore_state` (/repo/drmemory/spill.c:430-472): nothing is done for the last
instruction; otherwise flags and scratch registers come from the slots as the record says.  The
overflow flag is set if the slot says so, but never cleared. -/
def atFault (c : Cfg) (rec : Bi) (last : Bool) (m : M μ) : A μ :=
  if last then { reg := m.reg, flag := m.flag, mem := m.mem }
  else
    { reg := fun r =>
        if rec.used2 = true ∧ r = c.r2 then m.slot s2
        else if rec.used1 = true ∧ r = c.r1 then m.slot s1
        else m.reg r
      flag := fun f =>
        if rec.eflagsUsed then
          if f = OF then (unpack (m.slot sE) OF || m.flag OF) else unpack (m.slot sE) f
        else m.flag f
      mem := m.mem }

/-- What the application sees at a fault in instruction `k` of the block `l`. -/
def seen (c : Cfg) (l : List (Ins μ)) (k : Nat) (m : M μ) : A μ :=
  atFault c (record c Bi.init l) (decide (k + 1 = l.length)) (exec (upto c Bi.init l k).1 m)

/-! ## The code up to an instruction -/

theorem upto_ready (c : Cfg) (hc : c.r1 ≠ c.r2) :
    ∀ (l : List (Ins μ)) (b : Bi) (a : A μ) (m : M μ) (k : Nat) (i : Ins μ) (rest : List (Ins μ)),
    (∀ i ∈ l, Decoded i ∧ BodyOk c i ∧ Scope c i) → Inv c b a m l → l.drop k = i :: rest →
    (rest ≠ [] → Inv c (upto c b l k).2 (runApp (l.take k) a) (exec (upto c b l k).1 m)
      (i :: rest)) ∧
    (rest = [] → (∀ r, (exec (upto c b l k).1 m).reg r = (runApp (l.take k) a).reg r ∨
        dead r (i :: rest) = true) ∧
      (∀ f, f < 6 → (exec (upto c b l k).1 m).flag f = (runApp (l.take k) a).flag f ∨
        deadF f (i :: rest) = true) ∧
      (exec (upto c b l k).1 m).mem = (runApp (l.take k) a).mem)
  | [], _, _, _, k, i, rest, _, _, hd => by simp at hd
  | [i0], b, a, m, 0, i, rest, hl, h, hd => by
    simp only [List.drop_zero, List.cons.injEq] at hd
    obtain ⟨e1, e2⟩ := hd
    subst e1
    obtain ⟨_, hb, _⟩ := hl i0 (by simp)
    refine ⟨fun hn => absurd e2.symm hn, fun _ => ?_⟩
    rw [← e2]
    have h1 := top_inv c hc b i0 [] hb a m h
    rw [upto]
    simp only [exec_append _ (bottom _ _ _)]
    generalize exec ((marks c i0 [] b).1.spills ++ (marks c i0 [] b).1.flags ++
      [.body i0.body]) m = m1 at h1
    obtain ⟨b', r1, r2, r3⟩ := bottom_ready c hc (marks c i0 [] b).2 i0 a m1 h1
    exact ⟨r2, r1.inv.flag r3, r1.inv.mem⟩
  | [i0], _, _, _, k + 1, i, rest, _, _, hd => by simp at hd
  | i0 :: j :: tl, b, a, m, 0, i, rest, hl, h, hd => by
    simp only [List.drop_zero, List.cons.injEq] at hd
    obtain ⟨e1, e2⟩ := hd
    subst e1
    subst e2
    obtain ⟨_, hb, _⟩ := hl i0 (by simp)
    refine ⟨fun _ => ?_, fun hn => by cases hn⟩
    have h1 := top_inv c hc b i0 (j :: tl) hb a m h
    rw [upto]
    simp only [exec_append _ (preApp _ _ _ _).1]
    generalize exec ((marks c i0 (j :: tl) b).1.spills ++ (marks c i0 (j :: tl) b).1.flags ++
      [.body i0.body]) m = m1 at h1
    exact (pre_ready c hc (marks c i0 (j :: tl) b).2 i0 (j :: tl) a m1 h1).inv
  | i0 :: j :: tl, b, a, m, k + 1, i, rest, hl, h, hd => by
    obtain ⟨hdec, hb, hs⟩ := hl i0 (by simp)
    have h1 := top_inv c hc b i0 (j :: tl) hb a m h
    rw [upto]
    simp only [exec_append _ (upto _ _ _ _).1, exec_append _ (postApp _ _ _ _).1,
      exec_append _ [Op.app _], exec_append _ (preApp _ _ _ _).1]
    generalize exec ((marks c i0 (j :: tl) b).1.spills ++ (marks c i0 (j :: tl) b).1.flags ++
      [.body i0.body]) m = m1 at h1
    have h2 := pre_ready c hc (marks c i0 (j :: tl) b).2 i0 (j :: tl) a m1 h1
    generalize exec (preApp c i0 (j :: tl) (marks c i0 (j :: tl) b).2).1 m1 = m2 at h2
    have h3 := post_inv c _ i0 (j :: tl) hdec hs a m2 h2
    exact upto_ready c hc (j :: tl) _ (i0.sem a) _ k i rest
      (fun x hx => hl x (List.mem_cons_of_mem _ hx)) h3 hd

theorem start_inv (c : Cfg) (l : List (Ins μ)) (a : A μ) (slot : Nat → W) :
    Inv c Bi.init a { reg := a.reg, flag := a.flag, mem := a.mem, slot := slot } l := by
  refine ⟨rfl, fun _ _ => Or.inl rfl, ?_, ?_, fun _ _ _ => Or.inl rfl, ?_, ?_⟩
  · intro h; cases h
  · intro h; cases h
  · intro h; cases h
  · intro _; exact ⟨rfl, fun _ => Or.inl rfl⟩

/-! ## When the bookkeeping of the end holds at an instruction -/

theorem pre_used (c : Cfg) (i : Ins μ) (rest : List (Ins μ)) (b : Bi) :
    (preApp c i rest b).2.used1 = b.used1 ∧ (preApp c i rest b).2.used2 = b.used2 := ⟨rfl, rfl⟩

theorem post_used (c : Cfg) (i : Ins μ) (rest : List (Ins μ)) (b : Bi) :
    (b.used1 = true → (postApp c i rest b).2.used1 = true) ∧
    (b.used2 = true → (postApp c i rest b).2.used2 = true) ∧
    (b.used1 = false → i.may c.r1 = false → (postApp c i rest b).2.used1 = false) ∧
    (b.used2 = false → i.may c.r2 = false → (postApp c i rest b).2.used2 = false) := by
  refine ⟨?_, ?_, ?_, ?_⟩
  · intro h; simp [postApp, h]
  · intro h; simp [postApp, h]
  · intro h h2; simp [postApp, h, h2]
  · intro h h2; simp [postApp, h, h2]

/-- The scratch register `w` (false: the first, true: the second) and its mark. -/
def Bi.used (b : Bi) : Bool → Bool
  | false => b.used1
  | true => b.used2

/-- The register. -/
def Cfg.scratch (c : Cfg) : Bool → Nat
  | false => c.r1
  | true => c.r2

/-- The mark. -/
def askedBy : Bool → Mark
  | false => .r1
  | true => .r2

theorem marks_used (c : Cfg) (i : Ins μ) (rest : List (Ins μ)) (b : Bi) (w : Bool) :
    (marks c i rest b).2.used w = true ↔ (b.used w = true ∨ askedBy w ∈ i.marks) := by
  cases w
  · exact (marks_ok c i rest b).used1
  · exact (marks_ok c i rest b).used2

theorem post_used_w (c : Cfg) (i : Ins μ) (rest : List (Ins μ)) (b : Bi) (w : Bool) :
    (b.used w = true → (postApp c i rest (preApp c i rest b).2).2.used w = true) ∧
    (b.used w = false → i.may (c.scratch w) = false →
      (postApp c i rest (preApp c i rest b).2).2.used w = false) := by
  obtain ⟨h1, h2, h3, h4⟩ := post_used c i rest (preApp c i rest b).2
  cases w
  · exact ⟨h1, h3⟩
  · exact ⟨h2, h4⟩

theorem record_used (c : Cfg) (w : Bool) : ∀ (l : List (Ins μ)) (b : Bi),
    b.used w = true → (record c b l).used w = true
  | [], _, h => h
  | [i], b, h => (marks_used c i [] b w).2 (Or.inl h)
  | i :: j :: rest, b, h =>
    record_used c w (j :: rest) _ ((post_used_w c i (j :: rest) _ w).1
      ((marks_used c i (j :: rest) b w).2 (Or.inl h)))

theorem record_unused (c : Cfg) (w : Bool) : ∀ (l : List (Ins μ)) (b : Bi),
    (∀ i ∈ l, askedBy w ∉ i.marks ∧ i.may (c.scratch w) = false) → b.used w = false →
    (record c b l).used w = false
  | [], _, _, h => h
  | [i], b, hl, h => by
    cases hq : (record c b [i]).used w
    · rfl
    · rcases (marks_used c i [] b w).1 hq with h1 | h1
      · rw [h] at h1; cases h1
      · exact absurd h1 (hl i (by simp)).1
  | i :: j :: rest, b, hl, h => by
    refine record_unused c w (j :: rest) _ (fun x hx => hl x (List.mem_cons_of_mem _ hx)) ?_
    refine (post_used_w c i (j :: rest) _ w).2 ?_ (hl i (by simp)).2
    cases hq : (marks c i (j :: rest) b).2.used w
    · rfl
    · rcases (marks_used c i (j :: rest) b w).1 hq with h1 | h1
      · rw [h] at h1; cases h1
      · exact absurd h1 (hl i (by simp)).1

theorem upto_used (c : Cfg) (w : Bool) : ∀ (l : List (Ins μ)) (b : Bi) (k : Nat),
    (b.used w = true ∨ ∃ i ∈ l.take (k + 1), askedBy w ∈ i.marks) → (upto c b l k).2.used w = true
  | [], _, _, h => by
    rcases h with h | ⟨i, hi, _⟩
    · exact h
    · simp at hi
  | [i], b, k, h => by
    refine (marks_used c i [] b w).2 ?_
    rcases h with h | ⟨x, hx, hm⟩
    · exact Or.inl h
    · have : x = i := by simpa using hx
      subst this; exact Or.inr hm
  | i :: j :: rest, b, 0, h => by
    have := (marks_used c i (j :: rest) b w).2 (by
      rcases h with h | ⟨x, hx, hm⟩
      · exact Or.inl h
      · have : x = i := by simpa using hx
        subst this; exact Or.inr hm)
    cases w
    · exact this
    · exact this
  | i :: j :: rest, b, k + 1, h => by
    refine upto_used c w (j :: rest) _ k ?_
    rcases h with h | ⟨x, hx, hm⟩
    · exact Or.inl ((post_used_w c i (j :: rest) _ w).1
        ((marks_used c i (j :: rest) b w).2 (Or.inl h)))
    · rw [List.take_succ_cons] at hx
      rcases List.mem_cons.1 hx with e | hx
      · subst e
        exact Or.inl ((post_used_w c x (j :: rest) _ w).1
          ((marks_used c x (j :: rest) b w).2 (Or.inr hm)))
      · exact Or.inr ⟨x, hx, hm⟩

theorem upto_unused (c : Cfg) (w : Bool) : ∀ (l : List (Ins μ)) (b : Bi) (k : Nat),
    (∀ i ∈ l, askedBy w ∉ i.marks ∧ i.may (c.scratch w) = false) → b.used w = false →
    (upto c b l k).2.used w = false
  | [], _, _, _, h => h
  | [i], b, k, hl, h => by
    cases hq : (upto c b [i] k).2.used w
    · rfl
    · rcases (marks_used c i [] b w).1 hq with h1 | h1
      · rw [h] at h1; cases h1
      · exact absurd h1 (hl i (by simp)).1
  | i :: j :: rest, b, 0, hl, h => by
    cases hq : (upto c b (i :: j :: rest) 0).2.used w
    · rfl
    · have hq2 : (marks c i (j :: rest) b).2.used w = true := by
        cases w
        · exact hq
        · exact hq
      rcases (marks_used c i (j :: rest) b w).1 hq2 with h1 | h1
      · rw [h] at h1; cases h1
      · exact absurd h1 (hl i (by simp)).1
  | i :: j :: rest, b, k + 1, hl, h => by
    refine upto_unused c w (j :: rest) _ k (fun x hx => hl x (List.mem_cons_of_mem _ hx)) ?_
    refine (post_used_w c i (j :: rest) _ w).2 ?_ (hl i (by simp)).2
    cases hq : (marks c i (j :: rest) b).2.used w
    · rfl
    · rcases (marks_used c i (j :: rest) b w).1 hq with h1 | h1
      · rw [h] at h1; cases h1
      · exact absurd h1 (hl i (by simp)).1

/-- Some instruction up to number `k` asks for the scratch register, or the block does not touch
it at all. -/
def Settled (c : Cfg) (l : List (Ins μ)) (k : Nat) (w : Bool) : Prop :=
  (∃ i ∈ l.take (k + 1), askedBy w ∈ i.marks) ∨
  (∀ i ∈ l, askedBy w ∉ i.marks ∧ i.may (c.scratch w) = false)

theorem record_take (c : Cfg) (w : Bool) : ∀ (l : List (Ins μ)) (b : Bi) (k : Nat),
    (∃ i ∈ l.take (k + 1), askedBy w ∈ i.marks) → (record c b l).used w = true
  | [], _, _, h => by obtain ⟨i, hi, _⟩ := h; simp at hi
  | [i], b, _, h => by
    obtain ⟨x, hx, hm⟩ := h
    have : x = i := by simpa using hx
    subst this
    exact (marks_used c x [] b w).2 (Or.inr hm)
  | i :: j :: rest, b, k, h => by
    obtain ⟨x, hx, hm⟩ := h
    rw [List.take_succ_cons] at hx
    rcases List.mem_cons.1 hx with e | hx
    · subst e
      exact record_used c w (j :: rest) _ ((post_used_w c x (j :: rest) _ w).1
        ((marks_used c x (j :: rest) b w).2 (Or.inr hm)))
    · cases k with
      | zero => simp at hx
      | succ k => exact record_take c w (j :: rest) _ k ⟨x, hx, hm⟩

theorem settled_used (c : Cfg) (l : List (Ins μ)) (k : Nat) (w : Bool) (h : Settled c l k w) :
    (record c Bi.init l).used w = (upto c Bi.init l k).2.used w := by
  rcases h with h | h
  · rw [record_take c w l _ k h, upto_used c w l _ k (Or.inr h)]
  · have h0 : Bi.init.used w = false := by cases w <;> rfl
    rw [record_unused c w l _ h h0, upto_unused c w l _ k h h0]

/-! ## The theorems -/

/-- **C64, registers.**  At a fault in instruction `k` every register that the application may
still read has the application's value, if each scratch register has been asked for up to
instruction `k` or is not touched in the block at all.  Memory is that of the application. -/
theorem C64_registers_partial (c : Cfg) (hc : c.r1 ≠ c.r2) (l : List (Ins μ))
    (hl : ∀ i ∈ l, Decoded i ∧ BodyOk c i ∧ Scope c i) (a : A μ) (slot : Nat → W) (k : Nat)
    (hk : k < l.length) (hs : k + 1 = l.length ∨ (Settled c l k false ∧ Settled c l k true)) :
    let s := seen c l k { reg := a.reg, flag := a.flag, mem := a.mem, slot := slot }
    (∀ r, s.reg r = (runApp (l.take k) a).reg r ∨ dead r (l.drop k) = true) ∧
      s.mem = (runApp (l.take k) a).mem := by
  intro s
  have hinv := start_inv c l a slot
  have hdrop : ∃ i rest, l.drop k = i :: rest := by
    cases hd : l.drop k with
    | nil =>
      have := congrArg List.length hd
      simp at this
      omega
    | cons i rest => exact ⟨i, rest, rfl⟩
  obtain ⟨i, rest, hd⟩ := hdrop
  obtain ⟨u1, u2⟩ := upto_ready c hc l Bi.init a _ k i rest hl hinv hd
  have hlen : rest.length + (k + 1) = l.length := by
    have := congrArg List.length hd
    simp at this
    omega
  show (∀ r, (seen c l k _).reg r = _ ∨ _) ∧ (seen c l k _).mem = _
  unfold seen
  rw [hd]
  by_cases hlast : k + 1 = l.length
  · have hr : rest = [] := List.length_eq_zero_iff.1 (by omega)
    obtain ⟨v1, _, v3⟩ := u2 hr
    rw [decide_eq_true hlast]
    exact ⟨v1, v3⟩
  · have hr : rest ≠ [] := by
      intro e; subst e; simp at hlen; exact hlast hlen
    have v := u1 hr
    rw [decide_eq_false hlast]
    obtain ⟨s1h, s2h⟩ : Settled c l k false ∧ Settled c l k true := by
      rcases hs with h | h
      · exact absurd h hlast
      · exact h
    have e1 : (record c Bi.init l).used1 = (upto c Bi.init l k).2.used1 :=
      settled_used c l k false s1h
    have e2 : (record c Bi.init l).used2 = (upto c Bi.init l k).2.used2 :=
      settled_used c l k true s2h
    refine ⟨?_, v.mem⟩
    intro r
    show (if _ then _ else _) = _ ∨ _
    rw [e1, e2]
    by_cases hc2 : (upto c Bi.init l k).2.used2 = true ∧ r = c.r2
    · rw [if_pos hc2]
      have := v.slot2 hc2.1
      rw [hc2.2]; exact this
    · rw [if_neg hc2]
      by_cases hc1 : (upto c Bi.init l k).2.used1 = true ∧ r = c.r1
      · rw [if_pos hc1]
        have := v.slot1 hc1.1
        rw [hc1.2]; exact this
      · rw [if_neg hc1]
        refine v.reg r ?_
        intro hu
        rcases hu with hu | hu
        · exact hc1 ⟨hu.2, hu.1⟩
        · exact hc2 ⟨hu.2, hu.1⟩

/-- **C64, flags.**  At a fault in instruction `k` every flag that the application may still read
has the application's value, if the flags are saved at instruction `k` exactly if they are at the
end of the block, except that the overflow flag may stay set from the tool's own code. -/
theorem C64_flags_partial (c : Cfg) (hc : c.r1 ≠ c.r2) (l : List (Ins μ))
    (hl : ∀ i ∈ l, Decoded i ∧ BodyOk c i ∧ Scope c i) (a : A μ) (slot : Nat → W) (k : Nat)
    (hk : k < l.length)
    (hs : k + 1 = l.length ∨
      (record c Bi.init l).eflagsUsed = (upto c Bi.init l k).2.eflagsUsed) :
    let m : M μ := { reg := a.reg, flag := a.flag, mem := a.mem, slot := slot }
    ∀ f, f < 6 → (seen c l k m).flag f = (runApp (l.take k) a).flag f ∨
      deadF f (l.drop k) = true ∨
      (f = OF ∧ (seen c l k m).flag f = true ∧ (exec (upto c Bi.init l k).1 m).flag f = true) := by
  intro m f hf
  have hinv := start_inv c l a slot
  have hdrop : ∃ i rest, l.drop k = i :: rest := by
    cases hd : l.drop k with
    | nil =>
      have := congrArg List.length hd
      simp at this
      omega
    | cons i rest => exact ⟨i, rest, rfl⟩
  obtain ⟨i, rest, hd⟩ := hdrop
  obtain ⟨u1, u2⟩ := upto_ready c hc l Bi.init a _ k i rest hl hinv hd
  have hlen : rest.length + (k + 1) = l.length := by
    have := congrArg List.length hd
    simp at this
    omega
  unfold seen
  rw [hd]
  by_cases hlast : k + 1 = l.length
  · have hr : rest = [] := List.length_eq_zero_iff.1 (by omega)
    obtain ⟨_, v2, _⟩ := u2 hr
    rw [decide_eq_true hlast]
    rcases v2 f hf with h | h
    · exact Or.inl h
    · exact Or.inr (Or.inl h)
  · have hr : rest ≠ [] := by
      intro e; subst e; simp at hlen; exact hlast hlen
    have v := u1 hr
    rw [decide_eq_false hlast]
    have e : (record c Bi.init l).eflagsUsed = (upto c Bi.init l k).2.eflagsUsed := by
      rcases hs with h | h
      · exact absurd h hlast
      · exact h
    show (if (record c Bi.init l).eflagsUsed = true then _ else _) = _ ∨ _ ∨
      (_ ∧ (if (record c Bi.init l).eflagsUsed = true then _ else _) = true ∧ _)
    rw [e]
    cases hu : (upto c Bi.init l k).2.eflagsUsed
    · simp only [Bool.false_eq_true, if_false]
      rcases v.flag hu f hf with h | h
      · exact Or.inl h
      · exact Or.inr (Or.inl h)
    · simp only [if_true]
      have hv := v.slotE hu f hf
      by_cases ho : f = OF
      · subst ho
        rw [if_pos rfl]
        cases hreal : (exec (upto c Bi.init l k).1 m).flag OF
        · rw [Bool.or_false]
          rcases hv with h | h
          · exact Or.inl h
          · exact Or.inr (Or.inl h)
        · exact Or.inr (Or.inr ⟨rfl, by rw [Bool.or_true], rfl⟩)
      · rw [if_neg ho]
        rcases hv with h | h
        · exact Or.inl h
        · exact Or.inr (Or.inl h)

/-! ## Examples and witnesses -/

/-- An access to memory that only the slow path handles, as one of an x87 register: it uses no
scratch register and may fault. -/
def access : Ins Nat :=
  { reads := fun _ => false
    may := fun _ => false
    must := fun _ => false
    exact := fun _ => false
    fReads := fun _ => false
    fMay := fun _ => false
    fMust := fun _ => false
    cti := false, cmov := false, jcc := false, skip := false, flagsDefined := false
    added := true
    marks := []
    body := id
    sem := fun a => { a with mem := a.mem + 10 } }

/-- An instruction that reads the carry and writes all flags, not instrumented. -/
def carry : Ins Nat :=
  { reads := fun _ => false
    may := fun _ => false
    must := fun _ => false
    exact := fun _ => false
    fReads := fun f => f == 0
    fMay := fun _ => true
    fMust := fun _ => true
    cti := false, cmov := false, jcc := false, skip := false, flagsDefined := false
    added := false
    marks := []
    body := id
    sem := fun a => { a with flag := fun _ => a.flag 0 } }

theorem access_ok (c : Cfg) : Decoded access ∧ BodyOk c access ∧ Scope c access := by
  refine ⟨⟨fun _ _ _ => rfl, fun _ _ _ _ => rfl, fun _ h => h, fun _ h => h, ?_⟩,
    ⟨fun _ => rfl, fun _ _ _ => rfl, fun _ _ _ _ => rfl, fun _ _ _ _ => rfl, fun _ => rfl⟩, ?_⟩
  · intro a b h
    refine ⟨?_, ?_, ?_, fun r h => h, fun f _ h => h⟩
    · show a.mem + 10 = b.mem + 10
      rw [h.mem]
    · intro r h1 _; cases h1
    · intro f _ h; cases h
  · intro h; cases h

theorem carry_ok (c : Cfg) : Decoded carry ∧ BodyOk c carry ∧ Scope c carry := by
  refine ⟨⟨fun _ _ _ => rfl, ?_, fun _ h => h, fun _ h => h, ?_⟩,
    ⟨fun _ => rfl, fun _ _ _ => rfl, fun _ _ _ _ => rfl, fun _ _ _ _ => rfl, fun _ => rfl⟩, ?_⟩
  · intro a f _ h; cases h
  · intro a b h
    have h0 : a.flag 0 = b.flag 0 := h.flag 0 (by decide) rfl
    refine ⟨h.mem, ?_, fun f _ _ => h0, fun r h => h, fun f _ _ => h0⟩
    intro r h1 _; cases h1
  · intro h; cases h

/-- The blocks of the witnesses are made of these instructions. -/
def Plain (c : Cfg) (l : List (Ins Nat)) : Prop :=
  ∀ i ∈ l, i = mov c 3 1 ∨ i = access ∨ i = carry ∨ i = jz

theorem plain_ok (c : Cfg) (l : List (Ins Nat)) (h : Plain c l) :
    ∀ i ∈ l, Decoded i ∧ BodyOk c i ∧ Scope c i := by
  intro i hi
  rcases h i hi with e | e | e | e <;> subst e
  · exact mov_ok c 3 1
  · exact access_ok c
  · exact carry_ok c
  · exact jz_ok c

/-- The scratch registers of the witnesses. -/
def cx : Cfg := { r1 := 1, r2 := 2 }

/-- `mov ebx, ecx; access; jz` has all that the theorems ask for at the access. -/
example (a : A Nat) (slot : Nat → W) (f : Nat) (hf : f < 5) :
    let s := seen cx [mov cx 3 1, access, jz] 1
      { reg := a.reg, flag := a.flag, mem := a.mem, slot := slot }
    (∀ r, s.reg r = upd a.reg 3 (a.reg 1) r) ∧ s.flag f = a.flag f := by
  intro s
  have hp : Plain cx [mov cx 3 1, access, jz] := by
    intro i hi
    simp only [List.mem_cons, List.not_mem_nil, or_false] at hi
    rcases hi with h | h | h
    · exact Or.inl h
    · exact Or.inr (Or.inl h)
    · exact Or.inr (Or.inr (Or.inr h))
  have hr := C64_registers_partial cx (by decide) _ (plain_ok cx _ hp) a slot 1 (by decide)
    (Or.inr ⟨Or.inl ⟨mov cx 3 1, by simp, by simp [mov, askedBy]⟩,
      Or.inl ⟨mov cx 3 1, by simp, by simp [mov, askedBy]⟩⟩)
  have hfl := C64_flags_partial cx (by decide) _ (plain_ok cx _ hp) a slot 1 (by decide)
    (Or.inr (by decide +kernel)) f (by omega)
  refine ⟨?_, ?_⟩
  · intro r
    rcases hr.1 r with h | h
    · exact h
    · exact absurd h (by simp [dead, access, jz])
  · rcases hfl with h | h | h
    · exact h
    · exfalso
      have : deadF f [access, jz] = true := h
      simp [deadF, access, jz] at this
    · have := h.1; unfold OF at this; omega

/-- The machine of the witnesses: the slots hold what an earlier block left there. -/
def m0 : M Nat :=
  { reg := a0.reg, flag := a0.flag, mem := a0.mem, slot := fun k => ⟨k, 255, 0⟩ }

/-- Negation: at a fault in the first instruction the register ecx, first used by the
instrumentation of the next instruction and live, is replaced by what an earlier block left in the
slot, and the flags likewise (/repo/drmemory/spill.c:1706-1723 records the state at the end of the
block; the comment there considers only registers that are dead). -/
theorem C64_stale :
    (∀ i ∈ [access, mov cx 3 1, jz], Decoded i ∧ BodyOk cx i ∧ Scope cx i) ∧
    (seen cx [access, mov cx 3 1, jz] 0 m0).reg 1 = ⟨1, 255, 0⟩ ∧
    a0.reg 1 = ⟨101, 0, 0⟩ ∧ dead 1 [access, mov cx 3 1, jz] = false ∧
    (seen cx [access, mov cx 3 1, jz] 0 m0).flag 3 = true ∧ a0.flag 3 = false ∧
    deadF 3 [access, mov cx 3 1, jz] = false := by
  refine ⟨plain_ok cx _ ?_, by decide +kernel, by decide +kernel, by decide +kernel,
    by decide +kernel, by decide +kernel, by decide +kernel⟩
  intro i hi
  simp only [List.mem_cons, List.not_mem_nil, or_false] at hi
  rcases hi with h | h | h
  · exact Or.inr (Or.inl h)
  · exact Or.inl h
  · exact Or.inr (Or.inr (Or.inr h))

/-- Negation: the overflow flag left by the tool's own code stays set in what the application
sees, though it is clear in the slot (/repo/drmemory/spill.c:449-452 clears only the low byte of
the flags). -/
theorem C64_overflow :
    (∀ i ∈ [mov cx 3 1, access, jz], Decoded i ∧ BodyOk cx i ∧ Scope cx i) ∧
    (seen cx [mov cx 3 1, access, jz] 1 m0).flag OF = true ∧
    (runApp [mov cx 3 1] a0).flag OF = false ∧ deadF OF [access, jz] = false := by
  refine ⟨plain_ok cx _ ?_, by decide +kernel, by decide +kernel, by decide +kernel⟩
  intro i hi
  simp only [List.mem_cons, List.not_mem_nil, or_false] at hi
  rcases hi with h | h | h
  · exact Or.inl h
  · exact Or.inr (Or.inl h)
  · exact Or.inr (Or.inr (Or.inr h))

/-- Negation: if the flags are given back later in the block, they are not restored at an earlier
fault either, and the application sees those of the tool's own code. -/
theorem C64_flags_kept :
    (∀ i ∈ [mov cx 3 1, access, carry, jz], Decoded i ∧ BodyOk cx i ∧ Scope cx i) ∧
    (seen cx [mov cx 3 1, access, carry, jz] 1 m0).flag 0 = true ∧
    (runApp [mov cx 3 1] a0).flag 0 = false ∧ deadF 0 [access, carry, jz] = false := by
  refine ⟨plain_ok cx _ ?_, by decide +kernel, by decide +kernel, by decide +kernel⟩
  intro i hi
  simp only [List.mem_cons, List.not_mem_nil, or_false] at hi
  rcases hi with h | h | h | h
  · exact Or.inl h
  · exact Or.inr (Or.inl h)
  · exact Or.inr (Or.inr (Or.inl h))
  · exact Or.inr (Or.inr (Or.inr h))

end Verif.Spill
