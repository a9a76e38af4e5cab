import Verif.HandleCheck
/-
Lemmas about the handle leak checker: the association lists, the reference counts, and what each
entry point does to the tables.
-/
namespace Verif.HandleCheck

section Assoc
variable {κ α : Type} [DecidableEq κ]

theorem del_of_none (l : List (κ × α)) (k : κ) (h : get l k = none) : del l k = l := by
  induction l with
  | nil => rfl
  | cons e r ih =>
    obtain ⟨a, v⟩ := e
    unfold get at h
    unfold del
    by_cases ha : a = k
    · rw [if_pos ha] at h; cases h
    · rw [if_neg ha] at h; rw [if_neg ha, ih h]

theorem count_del (p : κ × α → Bool) (hp : ∀ k k' v, p (k, v) = p (k', v)) (l : List (κ × α)) (k : κ) (v : α)
    (h : get l k = some v) :
    (del l k).countP p + (if p (k, v) then 1 else 0) = l.countP p := by
  induction l with
  | nil => cases h
  | cons e r ih =>
    obtain ⟨a, w⟩ := e
    unfold get at h
    unfold del
    by_cases ha : a = k
    · rw [if_pos ha] at h
      cases h
      rw [if_pos ha, List.countP_cons, hp a k]
    · rw [if_neg ha] at h
      rw [if_neg ha, List.countP_cons, List.countP_cons, ← ih h]
      omega

/-- No key twice. -/
def Uniq (l : List (κ × α)) : Prop := l.Pairwise (fun a b => a.1 ≠ b.1)

theorem get_none_iff (l : List (κ × α)) (k : κ) : get l k = none ↔ ∀ e ∈ l, e.1 ≠ k := by
  induction l with
  | nil => simp [get]
  | cons e r ih =>
    obtain ⟨a, v⟩ := e
    unfold get
    by_cases ha : a = k
    · simp [ha]
    · simp [ha, ih]

theorem mem_del (l : List (κ × α)) (k : κ) (e : κ × α) (h : e ∈ del l k) : e ∈ l := by
  induction l with
  | nil => cases h
  | cons x r ih =>
    obtain ⟨a, v⟩ := x
    unfold del at h
    by_cases ha : a = k
    · rw [if_pos ha] at h; exact List.mem_cons_of_mem _ h
    · rw [if_neg ha] at h
      rcases List.mem_cons.mp h with h | h
      · rw [h]; exact List.mem_cons_self
      · exact List.mem_cons_of_mem _ (ih h)

theorem uniq_del (l : List (κ × α)) (k : κ) (h : Uniq l) : Uniq (del l k) := by
  induction l with
  | nil => exact h
  | cons x r ih =>
    obtain ⟨a, v⟩ := x
    have h' := List.pairwise_cons.mp h
    unfold del
    by_cases ha : a = k
    · rw [if_pos ha]; exact h'.2
    · rw [if_neg ha]
      exact List.pairwise_cons.mpr ⟨fun b hb => h'.1 b (mem_del r k b hb), ih h'.2⟩

theorem get_del_self (l : List (κ × α)) (k : κ) (h : Uniq l) : get (del l k) k = none := by
  induction l with
  | nil => rfl
  | cons x r ih =>
    obtain ⟨a, v⟩ := x
    have h' := List.pairwise_cons.mp h
    unfold del
    by_cases ha : a = k
    · rw [if_pos ha, get_none_iff]
      intro e he hk
      exact h'.1 e he (ha.trans hk.symm)
    · rw [if_neg ha]
      unfold get
      rw [if_neg ha]
      exact ih h'.2

theorem get_del_ne (l : List (κ × α)) (k x : κ) (hx : x ≠ k) : get (del l k) x = get l x := by
  induction l with
  | nil => rfl
  | cons e r ih =>
    obtain ⟨a, v⟩ := e
    unfold del
    by_cases ha : a = k
    · rw [if_pos ha]
      conv => rhs; unfold get
      rw [if_neg (fun h => hx (h.symm.trans ha))]
    · rw [if_neg ha]
      unfold get
      rw [ih]

theorem uniq_put (l : List (κ × α)) (k : κ) (v : α) (h : Uniq l) : Uniq ((k, v) :: del l k) :=
  List.pairwise_cons.mpr ⟨fun b hb e =>
    (get_none_iff (del l k) k).mp (get_del_self l k h) b hb e.symm, uniq_del l k h⟩

theorem get_put (l : List (κ × α)) (k x : κ) (v : α) :
    get ((k, v) :: del l k) x = if x = k then some v else get l x := by
  by_cases hx : x = k
  · rw [if_pos hx]
    unfold get
    rw [if_pos hx.symm]
  · rw [if_neg hx, ← get_del_ne l k x hx]
    conv => lhs; unfold get
    rw [if_neg (fun h => hx h.symm)]

theorem mem_of_get (l : List (κ × α)) (k : κ) (v : α) (h : get l k = some v) : (k, v) ∈ l := by
  induction l with
  | nil => cases h
  | cons e r ih =>
    obtain ⟨a, w⟩ := e
    unfold get at h
    by_cases ha : a = k
    · rw [if_pos ha] at h; cases h; rw [ha]; exact List.mem_cons_self
    · rw [if_neg ha] at h; exact List.mem_cons_of_mem _ (ih h)

theorem get_of_mem (l : List (κ × α)) (k : κ) (v : α) (h : Uniq l) (hm : (k, v) ∈ l) :
    get l k = some v := by
  induction l with
  | nil => cases hm
  | cons e r ih =>
    obtain ⟨a, w⟩ := e
    have h' := List.pairwise_cons.mp h
    unfold get
    rcases List.mem_cons.mp hm with hm | hm
    · cases hm; rw [if_pos rfl]
    · rw [if_neg (h'.1 _ hm)]; exact ih h'.2 hm

end Assoc

/-- 1 at one callstack. -/
def one (s : Nat) : Nat → Nat := fun x => if x = s then 1 else 0

/-- The reference that an info holds. -/
def held : Info → Nat → Nat
  | .hci s => one s
  | _ => fun _ => 0

/-- The handles in the tables that were opened by a callstack. -/
def live (st : St) (s : Nat) : Nat := st.ents.countP (fun e => decide (e.2 = s))

/-- The closes under way of handles that were opened by a callstack. -/
def underway (st : St) (s : Nat) : Nat := st.pend.countP (fun e => decide (e.2 = Info.hci s))

/-- The pairs with that callstack for opening. -/
def opened (st : St) (s : Nat) : Nat := st.pairs.countP (fun e => decide (e.1 = s))

/-- The pairs with that callstack for closing. -/
def closed (st : St) (s : Nat) : Nat := st.pairs.countP (fun e => decide (e.2 = s))

/-- All the references that the data structures hold. -/
def total (st : St) (s : Nat) : Nat := live st s + underway st s + opened st s + closed st s

/-- The counts are exact, with the further references `x` held by the running function. -/
def Refs (st : St) (x : Nat → Nat) : Prop :=
  ∀ s, (st.ref s = 0 ∧ total st s + x s = 0) ∨ st.ref s = 1 + total st s + x s

theorem total_ref (st : St) (r : Nat → Nat) (s : Nat) :
    total { st with
      ref := r } s = total st s := rfl

theorem refs_congr {st : St} {x y : Nat → Nat} (h : Refs st x) (e : ∀ s, x s = y s) : Refs st y := by
  intro s; rw [← e s]; exact h s

theorem dropRef_ok (st : St) (x : Nat → Nat) (s : Nat) (h : Refs st (fun y => x y + one s y)) :
    ∃ r, dropRef s st = some { st with
        ref := r } ∧ Refs { st with
        ref := r } x := by
  have hs := h s
  simp only [one, if_pos] at hs
  have hge : ¬ st.ref s ≤ 1 := by omega
  refine ⟨setRef st.ref s (st.ref s - 1), by unfold dropRef; rw [if_neg hge], ?_⟩
  intro y
  have hy := h y
  simp only [total_ref, setRef, one] at *
  by_cases e : y = s
  · subst e
    simp only [if_pos] at *
    omega
  · simp only [if_neg e] at *
    omega

theorem addRef_ok (st : St) (x : Nat → Nat) (s : Nat) (h : Refs st x) (hs : 0 < total st s + x s) :
    ∃ r, addRef s st = some { st with
        ref := r } ∧ Refs { st with
        ref := r } (fun y => x y + one s y) := by
  have h0 := h s
  have hne : ¬ st.ref s = 0 := by omega
  refine ⟨setRef st.ref s (st.ref s + 1), by unfold addRef; rw [if_neg hne], ?_⟩
  intro y
  have hy := h y
  simp only [total_ref, setRef, one] at *
  by_cases e : y = s
  · subst e
    simp only [if_pos] at *
    omega
  · simp only [if_neg e] at *
    omega

theorem intern_ok (st : St) (x : Nat → Nat) (s : Nat) (h : Refs st x) :
    Refs (intern s st) (fun y => x y + one s y) := by
  intro y
  have hy := h y
  unfold intern
  simp only [total_ref, setRef, one] at *
  by_cases e : y = s
  · subst e
    simp only [if_pos] at *
    split <;> omega
  · simp only [if_neg e] at *
    omega

theorem intern_fields (st : St) (s : Nat) : (intern s st).ents = st.ents ∧
    (intern s st).pairs = st.pairs ∧ (intern s st).pend = st.pend ∧
    (intern s st).reps = st.reps := ⟨rfl, rfl, rfl, rfl⟩

theorem total_put (st : St) (k : Key) (s y : Nat) :
    total { st with
      ents := (k, s) :: del st.ents k } y
      + (match get st.ents k with | some o => one o y | none => 0) = total st y + one s y := by
  have hcons : ((k, s) :: del st.ents k).countP (fun e => decide (e.2 = y)) =
      (del st.ents k).countP (fun e => decide (e.2 = y)) + one s y := by
    rw [List.countP_cons]
    unfold one
    by_cases e : y = s
    · simp [e]
    · have e' : ¬ s = y := fun h => e h.symm
      simp [e, e']
  unfold total live
  simp only [hcons]
  cases hg : get st.ents k with
  | none =>
    rw [del_of_none _ _ hg]
    show _ + 0 = _
    have : underway { st with ents := (k, s) :: st.ents } y = underway st y := rfl
    have : opened { st with ents := (k, s) :: st.ents } y = opened st y := rfl
    have : closed { st with ents := (k, s) :: st.ents } y = closed st y := rfl
    omega
  | some o =>
    have hc := count_del (fun e : Key × Nat => decide (e.2 = y)) (fun _ _ _ => rfl) st.ents k o hg
    have ho : (if decide (o = y) = true then 1 else 0) = one o y := by
      unfold one
      by_cases e : y = o
      · simp [e]
      · have e' : ¬ o = y := fun h => e h.symm
        simp [e, e']
    simp only [ho] at hc
    have : underway { st with ents := (k, s) :: del st.ents k } y = underway st y := rfl
    have : opened { st with ents := (k, s) :: del st.ents k } y = opened st y := rfl
    have : closed { st with ents := (k, s) :: del st.ents k } y = closed st y := rfl
    dsimp only
    omega

theorem refs_le {st : St} {x : Nat → Nat} (h : Refs st x) (s : Nat) :
    (st.ref s = 0 ∧ total st s + x s = 0) ∨ st.ref s = 1 + total st s + x s := h s

theorem handleAdd_ok (st : St) (x : Nat → Nat) (k : Key) (s : Nat)
    (h : Refs st (fun y => x y + one s y)) :
    ∃ r, handleAdd k s st = some { st with
        ents := (k, s) :: del st.ents k
        ref := r } ∧ Refs { st with
        ents := (k, s) :: del st.ents k
        ref := r } x := by
  have ht := total_put st k s
  unfold handleAdd
  cases hg : get st.ents k with
  | none =>
    rw [del_of_none _ _ hg]
    refine ⟨st.ref, rfl, ?_⟩
    intro y
    have h1 := ht y
    rw [hg, del_of_none _ _ hg] at h1
    have h2 := h y
    dsimp only at h1 h2 ⊢
    have h3 : total { st with
        ents := (k, s) :: st.ents
        ref := st.ref } y = total { st with
        ents := (k, s) :: st.ents } y := rfl
    omega
  | some o =>
    dsimp only
    obtain ⟨r, h1, h2⟩ := dropRef_ok { st with
        ents := (k, s) :: del st.ents k } x o (by
      intro y
      have h1 := ht y
      rw [hg] at h1
      have h2 := h y
      dsimp only at h1 h2 ⊢
      omega)
    exact ⟨r, h1, h2⟩

/-- What was found in the table. -/
def infoFor : Option Nat → Info
  | some s => .hci s
  | none => .null

theorem handleRemove_ok (st : St) (x : Nat → Nat) (k : Key) (h : Refs st x) :
    ∃ r, handleRemove k st = some ({ st with
        ents := del st.ents k
        ref := r }, infoFor (get st.ents k)) ∧ Refs { st with
        ents := del st.ents k
        ref := r } (fun y => x y + held (infoFor (get st.ents k)) y) := by
  unfold handleRemove
  cases hg : get st.ents k with
  | none =>
    rw [del_of_none _ _ hg]
    exact ⟨st.ref, rfl, h⟩
  | some s =>
    have hc := fun y => count_del (fun e : Key × Nat => decide (e.2 = y)) (fun _ _ _ => rfl) st.ents k s hg
    have ho : ∀ y, (if decide (s = y) = true then 1 else 0) = one s y := by
      intro y
      unfold one
      by_cases e : y = s
      · simp [e]
      · have e' : ¬ s = y := fun h => e h.symm
        simp [e, e']
    have hpos : 0 < total st s + x s := by
      have := hc s
      rw [if_pos (by simp)] at this
      unfold total live
      omega
    obtain ⟨r, h1, h2⟩ := addRef_ok st x s h hpos
    dsimp only
    rw [h1]
    dsimp only
    obtain ⟨r2, h3, h4⟩ := dropRef_ok { st with
        ents := del st.ents k
        ref := r } (fun y => x y + one s y) s (by
      intro y
      have e1 := h2 y
      have e2 := hc y
      simp only [ho] at e2
      have e3 : total { st with
          ents := del st.ents k
          ref := r } y + one s y = total { st with
          ref := r } y := by
        unfold total
        have : live { st with
          ents := del st.ents k
          ref := r } y + one s y = live { st with
          ref := r } y := e2
        have a1 : underway { st with
          ents := del st.ents k
          ref := r } y = underway { st with
          ref := r } y := rfl
        have a2 : opened { st with
          ents := del st.ents k
          ref := r } y = opened { st with
          ref := r } y := rfl
        have a3 : closed { st with
          ents := del st.ents k
          ref := r } y = closed { st with
          ref := r } y := rfl
        omega
      dsimp only at e1 ⊢
      omega)
    rw [h3]
    exact ⟨r2, rfl, h4⟩

/-- The pairs after a close. -/
def pairsAfter (op : Opts) (o c : Nat) (l : List (Nat × Nat)) : List (Nat × Nat) :=
  if op.filter = false then l else
  match get l o with
  | some _ => l
  | none => (o, c) :: l

theorem total_pair (st : St) (r : Nat → Nat) (o c y : Nat) :
    total { st with
      pairs := (o, c) :: st.pairs
      ref := r } y = total st y + one o y + one c y := by
  have e1 : opened { st with
      pairs := (o, c) :: st.pairs
      ref := r } y = opened st y + one o y := by
    unfold opened one
    rw [List.countP_cons]
    by_cases e : y = o
    · simp [e]
    · have e' : ¬ o = y := fun h => e h.symm
      simp [e, e']
  have e2 : closed { st with
      pairs := (o, c) :: st.pairs
      ref := r } y = closed st y + one c y := by
    unfold closed one
    rw [List.countP_cons]
    by_cases e : y = c
    · simp [e]
    · have e' : ¬ c = y := fun h => e h.symm
      simp [e, e']
  have e3 : live { st with
      pairs := (o, c) :: st.pairs
      ref := r } y = live st y := rfl
  have e4 : underway { st with
      pairs := (o, c) :: st.pairs
      ref := r } y = underway st y := rfl
  unfold total
  omega

theorem pairAdd_ok (op : Opts) (st : St) (x : Nat → Nat) (o c : Nat)
    (h : Refs st x) (hx : 0 < x o) :
    ∃ r, pairAdd op o c st = some { st with
        pairs := pairsAfter op o c st.pairs
        ref := r } ∧ Refs { st with
        pairs := pairsAfter op o c st.pairs
        ref := r } x := by
  unfold pairAdd pairsAfter
  by_cases hf : op.filter = false
  · rw [if_pos hf, if_pos hf]
    exact ⟨st.ref, rfl, h⟩
  · rw [if_neg hf, if_neg hf]
    cases hg : get st.pairs o with
    | some v => exact ⟨st.ref, rfl, h⟩
    | none =>
      obtain ⟨r, h1, h2⟩ := addRef_ok st x o h (by omega)
      dsimp only
      rw [h1]
      have h3 := intern_ok _ _ c h2
      refine ⟨(intern c { st with
        ref := r }).ref, rfl, ?_⟩
      intro y
      have e1 := h3 y
      have e2 : total (intern c { st with
        ref := r }) y = total st y := rfl
      rw [total_pair]
      dsimp only at e1 ⊢
      omega

/-- The tables after the deleting part of the second event. -/
def entsPost (k : Key) (i : Info) (b : Bool) (ents : List (Key × Nat)) : List (Key × Nat) :=
  match i, b with
  | .hci s, false => (k, s) :: del ents k
  | _, _ => ents

/-- The pairs after the second event. -/
def pairsPost (op : Opts) (i : Info) (b : Bool) (c : Nat) (l : List (Nat × Nat)) :
    List (Nat × Nat) :=
  match i, b with
  | .hci s, true => pairsAfter op s c l
  | _, _ => l

theorem deletePost_ok (op : Opts) (k : Key) (c : Nat) (i : Info) (b : Bool) (st : St) (x : Nat → Nat)
    (h : Refs st (fun y => x y + held i y)) :
    ∃ st', deletePost op k c i b st = some st' ∧ Refs st' x ∧ st'.pend = st.pend ∧
      st'.reps = st.reps ∧
      st'.ents = entsPost k i b st.ents ∧ st'.pairs = pairsPost op i b c st.pairs := by
  unfold deletePost
  cases i with
  | null => exact ⟨st, rfl, h, rfl, rfl, rfl, rfl⟩
  | other => exact ⟨st, rfl, h, rfl, rfl, rfl, rfl⟩
  | hci s =>
    cases b with
    | false =>
      obtain ⟨r, h1, h2⟩ := handleAdd_ok st x k s h
      exact ⟨_, h1, h2, rfl, rfl, rfl, rfl⟩
    | true =>
      have hp : ∃ r, (if op.filter = true then pairAdd op s c st else some st) = some { st with
          pairs := pairsAfter op s c st.pairs
          ref := r } ∧ Refs { st with
          pairs := pairsAfter op s c st.pairs
          ref := r } (fun y => x y + one s y) := by
        by_cases hf : op.filter = true
        · rw [if_pos hf]
          exact pairAdd_ok op st _ s c h (by simp [one])
        · rw [if_neg hf]
          have hf' : op.filter = false := by simpa using hf
          unfold pairsAfter
          rw [if_pos hf']
          exact ⟨st.ref, rfl, h⟩
      obtain ⟨r, h1, h2⟩ := hp
      obtain ⟨r2, h3, h4⟩ := dropRef_ok _ x s h2
      simp only [if_true]
      rw [h1]
      dsimp only
      rw [h3]
      exact ⟨_, rfl, h4, rfl, rfl, rfl, rfl⟩

/-- Whether an argument is a handle that is recorded. -/
def recorded (own : Bool) (k : Key) : Bool := own && !(decide (k.2 = invalid) || decide (k.2 = 0))

theorem create_ok (own : Bool) (k : Key) (s : Nat) (st : St) (x : Nat → Nat) (h : Refs st x) :
    ∃ st', create own k s st = some st' ∧ Refs st' x ∧ st'.pend = st.pend ∧ st'.pairs = st.pairs ∧
      st'.reps = st.reps ∧
      st'.ents = if recorded own k then (k, s) :: del st.ents k else st.ents := by
  unfold create recorded
  cases own with
  | false => exact ⟨st, rfl, h, rfl, rfl, rfl, rfl⟩
  | true =>
    rw [if_neg (by decide)]
    by_cases hv : k.2 = invalid ∨ k.2 = 0
    · rw [if_pos hv]
      refine ⟨st, rfl, h, rfl, rfl, rfl, ?_⟩
      rcases hv with hv | hv
      · simp only [hv, decide_true, Bool.true_or, Bool.not_true, Bool.and_false]; rfl
      · simp only [hv, decide_true, Bool.or_true, Bool.not_true, Bool.and_false]; rfl
    · rw [if_neg hv]
      obtain ⟨r, h1, h2⟩ := handleAdd_ok (intern s st) x k s (intern_ok st x s h)
      refine ⟨_, h1, h2, rfl, rfl, rfl, ?_⟩
      have a : ¬ k.2 = invalid := fun e => hv (Or.inl e)
      have b : ¬ k.2 = 0 := fun e => hv (Or.inr e)
      simp only [a, b, decide_false, Bool.or_false, Bool.not_false, Bool.and_true, if_true]
      rfl

/-- The handles that a list of arguments hands out. -/
def outKeys (outs : List Out) : List Key :=
  outs.filterMap (fun o => match o with
      | .handle true k => if k.2 = invalid ∨ k.2 = 0 then none else some k
      | _ => none)

theorem outKeys_null (b : Bool) (r : List Out) : outKeys (.null b :: r) = outKeys r := rfl

theorem outKeys_other (k : Key) (r : List Out) : outKeys (.handle false k :: r) = outKeys r := rfl

theorem outKeys_bad (k : Key) (r : List Out) (h : k.2 = invalid ∨ k.2 = 0) :
    outKeys (.handle true k :: r) = outKeys r := by
  unfold outKeys
  rw [List.filterMap_cons]
  dsimp only
  rw [if_pos h]

theorem outKeys_good (k : Key) (r : List Out) (h : ¬ (k.2 = invalid ∨ k.2 = 0)) :
    outKeys (.handle true k :: r) = k :: outKeys r := by
  unfold outKeys
  rw [List.filterMap_cons]
  dsimp only
  rw [if_neg h]

theorem recorded_bad (b : Bool) (k : Key) (h : k.2 = invalid ∨ k.2 = 0) : recorded b k = false := by
  unfold recorded
  rcases h with h | h
  · simp only [h, decide_true, Bool.true_or, Bool.not_true, Bool.and_false]
  · simp only [h, decide_true, Bool.or_true, Bool.not_true, Bool.and_false]

theorem recorded_good (k : Key) (h : ¬ (k.2 = invalid ∨ k.2 = 0)) : recorded true k = true := by
  unfold recorded
  have a : ¬ k.2 = invalid := fun e => h (Or.inl e)
  have b : ¬ k.2 = 0 := fun e => h (Or.inr e)
  simp only [a, b, decide_false, Bool.or_false, Bool.not_false, Bool.and_true]

theorem postArgs_ok (s : Nat) (outs : List Out) : ∀ (st : St) (x : Nat → Nat), Refs st x →
    Uniq st.ents →
    ∃ st', postArgs s outs st = some st' ∧ Refs st' x ∧ st'.pend = st.pend ∧ st'.pairs = st.pairs ∧
      Uniq st'.ents ∧
      (∀ k, k ∈ outKeys outs → get st'.ents k = some s) ∧
      (∀ k, k ∉ outKeys outs → get st'.ents k = get st.ents k) := by
  induction outs with
  | nil =>
    intro st x h hu
    exact ⟨st, rfl, h, rfl, rfl, hu, fun k hk => (by cases hk), fun k _ => rfl⟩
  | cons o r ih =>
    intro st x h hu
    unfold postArgs postArg
    cases o with
    | null b =>
      rw [outKeys_null]
      dsimp only
      obtain ⟨st', h1, h2, h3, h4, h5, h6⟩ := ih { st with
        reps := st.reps ++ [.onSyscall b s] } x h hu
      exact ⟨st', h1, h2, h3, h4, h5, h6⟩
    | handle b k =>
      obtain ⟨s1, a1, a2, a3, a4, _, a6⟩ := create_ok b k s st x h
      dsimp only
      rw [a1]
      dsimp only
      have hu1 : Uniq s1.ents := by
        rw [a6]
        split
        · exact uniq_put _ _ _ hu
        · exact hu
      obtain ⟨st', h1, h2, h3, h4, h5, h6, h7⟩ := ih s1 x a2 hu1
      refine ⟨st', h1, h2, h3.trans a3, h4.trans a4, h5, ?_⟩
      cases b with
      | false =>
        rw [outKeys_other]
        refine ⟨h6, fun y hy => ?_⟩
        rw [h7 y hy, a6, show recorded false k = false from rfl]
        rfl
      | true =>
        by_cases hv : k.2 = invalid ∨ k.2 = 0
        · rw [outKeys_bad k r hv]
          refine ⟨h6, fun y hy => ?_⟩
          rw [h7 y hy, a6, recorded_bad true k hv]
          rfl
        · rw [outKeys_good k r hv]
          rw [recorded_good k hv, if_pos rfl] at a6
          refine ⟨fun y hy => ?_, fun y hy => ?_⟩
          · by_cases hr : y ∈ outKeys r
            · exact h6 y hr
            · rw [h7 y hr, a6, get_put]
              rcases List.mem_cons.mp hy with e | e
              · rw [if_pos e]
              · exact absurd e hr
          · rw [h7 y (fun e => hy (List.mem_cons_of_mem _ e)), a6, get_put,
              if_neg (fun e => hy (by rw [e]; exact List.mem_cons_self))]

theorem opens_eq (c : Call) (r : Res) : opens c r =
    if r.succ && c.creates then outKeys r.outs else [] := rfl

end Verif.HandleCheck
