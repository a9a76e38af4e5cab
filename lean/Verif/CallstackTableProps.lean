import Verif.CallstackTable

/-! # C31: reference counts and interning -/
namespace Verif.Cst
variable {V : Type}

/-! ## Specification -/

/-- What the users of callstacks do.  Identifiers are the pointers they were given. -/
inductive Op (V : Type)
  | record (v : V)
  | clone (id : Nat)
  | addRef (id : Nat)
  | freePrivate (id : Nat)
  | intern (id : Nat)
  | freeShared (id : Nat)

/-- The code run, with the pointer given to the user. -/
def step (eqv : V → V → Bool) (hsh : V → UInt32) (bkt : UInt32 → Nat) (s : St V) :
    Op V → Option (St V × Nat)
  | .record v => some (alloc v s)
  | .clone id => (s.heap id).map fun o => alloc o.val s
  | .addRef id => (addRef id s).map fun s => (s, id)
  | .freePrivate id => (free id s).map fun r => (r.1, id)
  | .intern id => intern eqv hsh bkt id s
  | .freeShared id => (freeShared eqv hsh bkt id s).map fun s => (s, id)

/-- The accounts of the users: how many references they hold to a pointer, and whether the pointer
came from the table. -/
structure Acc where
  holds : Nat → Nat := fun _ => 0
  shared : Nat → Bool := fun _ => false

/-- The accounts after an operation that delivered pointer `r`. -/
def Acc.next (a : Acc) (r : Nat) : Op V → Acc
  | .record _ | .clone _ | .addRef _ =>
    { a with holds := fun i => if i = r then a.holds i + 1 else a.holds i }
  | .freePrivate id | .freeShared id =>
    { a with holds := fun i => if i = id then a.holds i - 1 else a.holds i }
  | .intern id =>
    { holds := fun i => (if i = id then a.holds i - 1 else a.holds i) + (if i = r then 1 else 0)
      shared := fun i => if i = r then true else a.shared i }

/-- The contract: only pointers that are held are used, a pointer is freed with the function for
its kind, a private pointer is handed to the table by its only holder, and there are fewer than
2^32 - 1 holders. -/
def Acc.Ok (a : Acc) : Op V → Prop
  | .record _ => True
  | .clone id => 0 < a.holds id
  | .addRef id => 0 < a.holds id ∧ a.holds id + 2 < 2 ^ 32
  | .freePrivate id => 0 < a.holds id ∧ a.shared id = false
  | .intern id => (∀ i, a.holds i + 2 < 2 ^ 32) ∧
      ((a.shared id = false ∧ a.holds id = 1) ∨ (a.shared id = true ∧ 0 < a.holds id))
  | .freeShared id => 0 < a.holds id ∧ a.shared id = true

section
variable (eqv : V → V → Bool) (hsh : V → UInt32) (bkt : UInt32 → Nat)

/-- Every operation of the history respects the contract. -/
def OkAll : List (Op V) → St V → Acc → Prop
  | [], _, _ => True
  | op :: ops, s, a => a.Ok op ∧
      ∀ s' r, step eqv hsh bkt s op = some (s', r) → OkAll ops s' (a.next r op)

/-- Run a history. -/
def run : List (Op V) → St V → Acc → Option (St V × Acc)
  | [], s, a => some (s, a)
  | op :: ops, s, a => (step eqv hsh bkt s op).bind fun r => run ops r.1 (a.next r.2 op)

/-! ## Invariant -/

/-- What every history maintains. -/
structure Inv (s : St V) (a : Acc) : Prop where
  fresh : ∀ i, s.next ≤ i → s.heap i = none ∧ a.holds i = 0 ∧ a.shared i = false
  live : ∀ i, a.holds i = 0 ↔ s.heap i = none
  ref : ∀ i o, s.heap i = some o →
    o.ref = a.holds i + (if a.shared i = true then 1 else 0) ∧ a.holds i + 1 < 2 ^ 32
  tbl : ∀ i, i ∈ s.tbl ↔ a.shared i = true ∧ 0 < a.holds i
  nodup : s.tbl.Nodup
  once : ∀ i ∈ s.tbl, ∀ j ∈ s.tbl, ∀ o p, s.heap i = some o → s.heap j = some p →
    eqv o.val p.val = true → i = j

/-- Equality is an equivalence and equal values have equal hashes. -/
structure Good : Prop where
  refl : ∀ a, eqv a a = true
  symm : ∀ a b, eqv a b = true → eqv b a = true
  trans : ∀ a b c, eqv a b = true → eqv b c = true → eqv a c = true
  hash : ∀ a b, eqv a b = true → hsh a = hsh b

variable {eqv hsh bkt}

theorem scan_spec (g : Good eqv hsh) (heap : Nat → Option (Obj V)) (v : V) : ∀ l : List Nat,
    (∀ j ∈ l, heap j ≠ none) → ∃ r, scan eqv hsh bkt heap v l = some r ∧
      (r = none → ∀ j ∈ l, ∀ o, heap j = some o → eqv o.val v = false) ∧
      (∀ j, r = some j → j ∈ l ∧ ∃ o, heap j = some o ∧ eqv o.val v = true) := by
  intro l
  induction l with
  | nil => intro _; exact ⟨none, rfl, by simp, by simp⟩
  | cons j l ih =>
    intro h
    obtain ⟨r, h1, h2, h3⟩ := ih fun i hi => h i (by simp [hi])
    cases hj : heap j with
    | none => exact absurd hj (h j (by simp))
    | some o =>
      unfold scan
      rw [hj, Option.bind_some]
      by_cases he : eqv o.val v = true
      · rw [if_pos ⟨by rw [g.hash _ _ he], he⟩]
        refine ⟨some j, rfl, by simp, fun i hi => ?_⟩
        obtain rfl := Option.some.inj hi
        exact ⟨by simp, o, hj, he⟩
      · rw [if_neg fun q => he q.2]
        refine ⟨r, h1, fun hr i hi p hp => ?_, fun i hi => ?_⟩
        · rcases List.mem_cons.1 hi with hi' | hi'
          · subst hi'
            rw [hj] at hp
            obtain rfl := Option.some.inj hp
            simpa using he
          · exact h2 hr i hi' p hp
        · obtain ⟨a, b⟩ := h3 i hi
          exact ⟨by simp [a], b⟩

theorem Inv.held {s : St V} {a : Acc} (h : Inv eqv s a) {id : Nat} (hh : 0 < a.holds id) :
    ∃ o, s.heap id = some o ∧ o.ref = a.holds id + (if a.shared id = true then 1 else 0) ∧
      a.holds id + 1 < 2 ^ 32 := by
  cases hs : s.heap id with
  | none => have := (h.live id).2 hs; omega
  | some o => exact ⟨o, rfl, h.ref id o hs⟩

theorem Inv.alloc {s : St V} {a : Acc} (h : Inv eqv s a) (v : V) :
    Inv eqv (alloc v s).1
      { a with holds := fun i => if i = s.next then a.holds i + 1 else a.holds i } := by
  obtain ⟨f1, f2, f3⟩ := h.fresh s.next (Nat.le_refl _)
  refine ⟨?_, ?_, ?_, ?_, h.nodup, ?_⟩
  · intro i hi
    simp only [Cst.alloc, St.set] at hi ⊢
    rw [if_neg (by omega), if_neg (by omega)]
    exact h.fresh i (by omega)
  · intro i
    simp only [Cst.alloc, St.set]
    by_cases hi : i = s.next
    · simp [hi]
    · simp only [if_neg hi]; exact h.live i
  · intro i o ho
    simp only [Cst.alloc, St.set] at ho ⊢
    by_cases hi : i = s.next
    · subst hi
      simp only [if_true] at ho ⊢
      obtain rfl := Option.some.inj ho
      simp [f2, f3]
    · simp only [if_neg hi] at ho ⊢; exact h.ref i o ho
  · intro i
    simp only [Cst.alloc, St.set]
    rw [h.tbl i]
    by_cases hi : i = s.next
    · subst hi; simp [f3]
    · simp only [if_neg hi]
  · intro i hi j hj o p ho hp he
    simp only [Cst.alloc, St.set] at hi hj ho hp
    have hi' := (h.tbl i).1 hi
    have hj' := (h.tbl j).1 hj
    rw [if_neg (by rintro rfl; rw [f3] at hi'; cases hi'.1)] at ho
    rw [if_neg (by rintro rfl; rw [f3] at hj'; cases hj'.1)] at hp
    exact h.once i hi j hj o p ho hp he

theorem Inv.addRef {s : St V} {a : Acc} (h : Inv eqv s a) {id : Nat} (hh : 0 < a.holds id)
    (hb : a.holds id + 2 < 2 ^ 32) : ∃ s', addRef id s = some s' ∧ Inv eqv s'
      { a with holds := fun i => if i = id then a.holds i + 1 else a.holds i } := by
  obtain ⟨o, ho, hr, -⟩ := h.held hh
  refine ⟨_, by unfold Cst.addRef; rw [ho]; rfl, ?_⟩
  have hm : (o.ref + 1) % 2 ^ 32 = o.ref + 1 := Nat.mod_eq_of_lt (by rw [hr]; split <;> omega)
  simp only [hm]
  refine ⟨?_, ?_, ?_, ?_, h.nodup, ?_⟩
  · intro i hi
    simp only [St.set] at hi ⊢
    obtain ⟨a1, a2, a3⟩ := h.fresh i hi
    have : i ≠ id := by rintro rfl; omega
    rw [if_neg this, if_neg this]; exact ⟨a1, a2, a3⟩
  · intro i
    simp only [St.set]
    by_cases hi : i = id
    · simp [hi]
    · simp only [if_neg hi]; exact h.live i
  · intro i p hp
    simp only [St.set] at hp ⊢
    by_cases hi : i = id
    · subst hi
      simp only [if_true] at hp ⊢
      obtain rfl := Option.some.inj hp
      simp only
      constructor
      · rw [hr]; omega
      · omega
    · simp only [if_neg hi] at hp ⊢; exact h.ref i p hp
  · intro i
    simp only [St.set]
    rw [h.tbl i]
    by_cases hi : i = id
    · subst hi; simp [hh]
    · simp only [if_neg hi]
  · intro i hi j hj p q hp hq he
    simp only [St.set] at hi hj hp hq
    have hval : ∀ k r, (if k = id then some { o with ref := o.ref + 1 } else s.heap k) = some r →
        ∃ r', s.heap k = some r' ∧ r'.val = r.val := by
      intro k r hk
      split at hk
      · rename_i hkid
        obtain rfl := Option.some.inj hk
        exact ⟨o, hkid ▸ ho, rfl⟩
      · exact ⟨r, hk, rfl⟩
    obtain ⟨p', hp', ep⟩ := hval i p hp
    obtain ⟨q', hq', eq⟩ := hval j q hq
    exact h.once i hi j hj p' q' hp' hq' (by rw [ep, eq]; exact he)

theorem Inv.freePrivate {s : St V} {a : Acc} (h : Inv eqv s a) {id : Nat} (hh : 0 < a.holds id)
    (hp : a.shared id = false) : ∃ r, free id s = some r ∧ Inv eqv r.1
      { a with holds := fun i => if i = id then a.holds i - 1 else a.holds i } ∧
      r.2 = a.holds id - 1 ∧ r.1.tbl = s.tbl ∧ r.1.next = s.next ∧
      ∀ i, i ≠ id → r.1.heap i = s.heap i := by
  obtain ⟨o, ho, hr, hb⟩ := h.held hh
  rw [hp] at hr
  simp only [Bool.false_eq_true, if_false, Nat.add_zero] at hr
  have hm : (o.ref + 2 ^ 32 - 1) % 2 ^ 32 = o.ref - 1 := by omega
  have hnt : id ∉ s.tbl := by rw [h.tbl, hp]; simp
  by_cases h0 : o.ref - 1 = 0
  · refine ⟨(s.set id none, 0), by unfold free; rw [ho, Option.map_some]; simp only [hm, if_pos h0],
      ?_, by simp only; omega, rfl, rfl, fun i hi => by simp [St.set, hi]⟩
    refine ⟨?_, ?_, ?_, ?_, h.nodup, ?_⟩
    · intro i hi
      simp only [St.set] at hi ⊢
      obtain ⟨a1, a2, a3⟩ := h.fresh i hi
      have : i ≠ id := by rintro rfl; omega
      rw [if_neg this, if_neg this]; exact ⟨a1, a2, a3⟩
    · intro i
      simp only [St.set]
      by_cases hi : i = id
      · subst hi; simp only [if_true, iff_true]; omega
      · simp only [if_neg hi]; exact h.live i
    · intro i p hp'
      simp only [St.set] at hp' ⊢
      by_cases hi : i = id
      · subst hi; simp at hp'
      · simp only [if_neg hi] at hp' ⊢; exact h.ref i p hp'
    · intro i
      simp only [St.set]
      rw [h.tbl i]
      by_cases hi : i = id
      · subst hi; simp [hp]
      · simp only [if_neg hi]
    · intro i hi j hj p q hp' hq' he
      simp only [St.set] at hi hj hp' hq'
      rw [if_neg (by rintro rfl; exact hnt hi)] at hp'
      rw [if_neg (by rintro rfl; exact hnt hj)] at hq'
      exact h.once i hi j hj p q hp' hq' he
  · refine ⟨(s.set id (some { o with ref := o.ref - 1 }), o.ref - 1),
      by unfold free; rw [ho, Option.map_some]; simp only [hm, if_neg h0],
      ?_, by simp only; omega, rfl, rfl, fun i hi => by simp [St.set, hi]⟩
    refine ⟨?_, ?_, ?_, ?_, h.nodup, ?_⟩
    · intro i hi
      simp only [St.set] at hi ⊢
      obtain ⟨a1, a2, a3⟩ := h.fresh i hi
      have : i ≠ id := by rintro rfl; omega
      rw [if_neg this, if_neg this]; exact ⟨a1, a2, a3⟩
    · intro i
      simp only [St.set]
      by_cases hi : i = id
      · subst hi; simp only [if_true, reduceCtorEq, iff_false]; omega
      · simp only [if_neg hi]; exact h.live i
    · intro i p hp'
      simp only [St.set] at hp' ⊢
      by_cases hi : i = id
      · subst hi
        simp only [if_true] at hp' ⊢
        obtain rfl := Option.some.inj hp'
        simp only [hp, Bool.false_eq_true, if_false]
        omega
      · simp only [if_neg hi] at hp' ⊢; exact h.ref i p hp'
    · intro i
      simp only [St.set]
      rw [h.tbl i]
      by_cases hi : i = id
      · subst hi; simp [hp]
      · simp only [if_neg hi]
    · intro i hi j hj p q hp' hq' he
      simp only [St.set] at hi hj hp' hq'
      rw [if_neg (by rintro rfl; exact hnt hi)] at hp'
      rw [if_neg (by rintro rfl; exact hnt hj)] at hq'
      exact h.once i hi j hj p q hp' hq' he

/-- Entries of the table are alive. -/
theorem Inv.alive {s : St V} {a : Acc} (h : Inv eqv s a) : ∀ j ∈ s.tbl, s.heap j ≠ none := by
  intro j hj hn
  have h1 := (h.tbl j).1 hj
  have h2 := (h.live j).2 hn
  omega

/-- The entry found for the value of a table entry is this entry. -/
theorem Inv.scan_self (g : Good eqv hsh) {s : St V} {a : Acc} (h : Inv eqv s a) {id : Nat}
    (hid : id ∈ s.tbl) {o : Obj V} (ho : s.heap id = some o) :
    scan eqv hsh bkt s.heap o.val s.tbl = some (some id) := by
  obtain ⟨r, h1, h2, h3⟩ := scan_spec (bkt := bkt) g s.heap o.val s.tbl h.alive
  rw [h1]
  cases r with
  | none =>
    have := h2 rfl id hid o ho
    rw [g.refl] at this; cases this
  | some j =>
    obtain ⟨hj, p, hp, he⟩ := h3 j rfl
    rw [h.once j hj id hid p o hp ho he]

/-- `scan` only looks at the values of the entries. -/
theorem scan_congr {heap heap' : Nat → Option (Obj V)} {v : V} : ∀ {l : List Nat},
    (∀ j ∈ l, (heap j).map (·.val) = (heap' j).map (·.val)) →
    scan eqv hsh bkt heap v l = scan eqv hsh bkt heap' v l := by
  intro l
  induction l with
  | nil => intro _; rfl
  | cons j l ih =>
    intro h
    have hj := h j (by simp)
    have hl := ih fun i hi => h i (by simp [hi])
    unfold scan
    cases h1 : heap j <;> cases h2 : heap' j <;> rw [h1, h2] at hj <;> simp at hj
    · rfl
    · simp only [Option.bind_some, hj, hl]

theorem Inv.freeShared (g : Good eqv hsh) {s : St V} {a : Acc} (h : Inv eqv s a) {id : Nat}
    (hh : 0 < a.holds id) (hsd : a.shared id = true) :
    ∃ s', freeShared eqv hsh bkt id s = some s' ∧ Inv eqv s'
      { a with holds := fun i => if i = id then a.holds i - 1 else a.holds i } := by
  obtain ⟨o, ho, hr, hb⟩ := h.held hh
  rw [hsd] at hr
  simp only [if_true] at hr
  have hid : id ∈ s.tbl := (h.tbl id).2 ⟨hsd, hh⟩
  have hm : (o.ref + 2 ^ 32 - 1) % 2 ^ 32 = o.ref - 1 := by omega
  have hne : o.ref - 1 ≠ 0 := by omega
  have hfree : free id s = some (s.set id (some { o with ref := o.ref - 1 }), o.ref - 1) := by
    unfold free; rw [ho, Option.map_some]; simp only [hm, if_neg hne]
  unfold Cst.freeShared
  rw [hfree, Option.bind_some]
  by_cases h1 : o.ref - 1 = 1
  · rw [if_pos h1, h1]
    have hscan : scan eqv hsh bkt (s.set id (some { o with ref := 1 })).heap o.val
        (s.set id (some { o with ref := 1 })).tbl = some (some id) := by
      have := h.scan_self (bkt := bkt) g hid ho
      rw [← this]
      refine scan_congr fun j hj => ?_
      simp only [St.set]
      by_cases hji : j = id
      · subst hji; simp [ho]
      · simp [hji]
    have hd : ∀ t : St V, destroy id { (s.set id (some { o with ref := 1 })) with tbl := t.tbl } =
        some { (s.set id none) with tbl := t.tbl } := by
      intro t
      have hf : free id { (s.set id (some { o with ref := 1 })) with tbl := t.tbl } =
          some ({ (s.set id none) with tbl := t.tbl }, 0) := by
        unfold free
        simp only [St.set, if_true, Option.map_some]
        have : (fun i => if i = id then none else
            if i = id then some { o with ref := 1 } else s.heap i) =
            fun i => if i = id then none else s.heap i := by
          funext i; split <;> rfl
        rw [this]
      unfold destroy
      rw [show (2 ^ 32 : Nat) = (2 ^ 32 - 1) + 1 from rfl]
      unfold destroyGo
      rw [hf, Option.bind_some]
      rfl
    refine ⟨{ (s.set id none) with tbl := s.tbl.erase id }, ?_, ?_⟩
    · unfold remove
      rw [show (s.set id (some { o with ref := 1 })).heap id = some { o with ref := 1 } by
        simp [St.set], Option.bind_some]
      simp only
      rw [hscan, Option.bind_some]
      exact hd { s with tbl := s.tbl.erase id }
    · refine ⟨?_, ?_, ?_, ?_, h.nodup.erase id, ?_⟩
      · intro i hi
        simp only [St.set] at hi ⊢
        obtain ⟨a1, a2, a3⟩ := h.fresh i hi
        have : i ≠ id := by rintro rfl; omega
        rw [if_neg this, if_neg this]; exact ⟨a1, a2, a3⟩
      · intro i
        simp only [St.set]
        by_cases hi : i = id
        · subst hi; simp only [if_true, iff_true]; omega
        · simp only [if_neg hi]; exact h.live i
      · intro i p hp'
        simp only [St.set] at hp' ⊢
        by_cases hi : i = id
        · subst hi; simp at hp'
        · simp only [if_neg hi] at hp' ⊢; exact h.ref i p hp'
      · intro i
        simp only
        rw [h.nodup.mem_erase_iff, h.tbl i]
        by_cases hi : i = id
        · subst hi; simp only [ne_eq, not_true_eq_false, false_and, if_true, false_iff]; omega
        · simp [hi]
      · intro i hi j hj p q hp' hq' he
        simp only [St.set] at hi hj hp' hq'
        have hi' := h.nodup.mem_erase_iff.1 hi
        have hj' := h.nodup.mem_erase_iff.1 hj
        rw [if_neg hi'.1] at hp'
        rw [if_neg hj'.1] at hq'
        exact h.once i hi'.2 j hj'.2 p q hp' hq' he
  · rw [if_neg h1]
    refine ⟨_, rfl, ?_⟩
    refine ⟨?_, ?_, ?_, ?_, h.nodup, ?_⟩
    · intro i hi
      simp only [St.set] at hi ⊢
      obtain ⟨a1, a2, a3⟩ := h.fresh i hi
      have : i ≠ id := by rintro rfl; omega
      rw [if_neg this, if_neg this]; exact ⟨a1, a2, a3⟩
    · intro i
      simp only [St.set]
      by_cases hi : i = id
      · subst hi; simp only [if_true, reduceCtorEq, iff_false]; omega
      · simp only [if_neg hi]; exact h.live i
    · intro i p hp'
      simp only [St.set] at hp' ⊢
      by_cases hi : i = id
      · subst hi
        simp only [if_true] at hp' ⊢
        obtain rfl := Option.some.inj hp'
        simp only [hsd, if_true]
        omega
      · simp only [if_neg hi] at hp' ⊢; exact h.ref i p hp'
    · intro i
      simp only [St.set]
      rw [h.tbl i]
      by_cases hi : i = id
      · subst hi; simp only [if_true, hsd, true_and]; omega
      · simp only [if_neg hi]
    · intro i hi j hj p q hp hq he
      simp only [St.set] at hi hj hp hq
      have hval : ∀ k r, (if k = id then some { o with ref := o.ref - 1 } else s.heap k) = some r →
          ∃ r', s.heap k = some r' ∧ r'.val = r.val := by
        intro k r hk
        split at hk
        · rename_i hkid
          obtain rfl := Option.some.inj hk
          exact ⟨o, hkid ▸ ho, rfl⟩
        · exact ⟨r, hk, rfl⟩
      obtain ⟨p', hp', ep⟩ := hval i p hp
      obtain ⟨q', hq', eq⟩ := hval j q hq
      exact h.once i hi j hj p' q' hp' hq' (by rw [ep, eq]; exact he)

theorem Inv.intern (g : Good eqv hsh) {s : St V} {a : Acc} (h : Inv eqv s a) {id : Nat}
    (hok : a.Ok (Op.intern id : Op V)) :
    ∃ s' r, intern eqv hsh bkt id s = some (s', r) ∧ Inv eqv s' (a.next r (Op.intern id : Op V)) ∧
      ∃ o o', s.heap id = some o ∧ s'.heap r = some o' ∧ eqv o'.val o.val = true := by
  obtain ⟨hb, hcase⟩ := hok
  have hh : 0 < a.holds id := by rcases hcase with h | h <;> omega
  obtain ⟨o, ho, hr, -⟩ := h.held hh
  obtain ⟨r, h1, h2, h3⟩ := scan_spec (bkt := bkt) g s.heap o.val s.tbl h.alive
  unfold Cst.intern
  rw [ho, Option.bind_some, h1, Option.bind_some]
  cases r with
  | none =>
    have hnt : id ∉ s.tbl := by
      intro hid
      have := h2 rfl id hid o ho
      rw [g.refl] at this; cases this
    have hpriv : a.shared id = false ∧ a.holds id = 1 := by
      rcases hcase with hc | hc
      · exact hc
      · exact absurd ((h.tbl id).2 hc) hnt
    rw [hpriv.1, hpriv.2] at hr
    simp only [Bool.false_eq_true, if_false, Nat.add_zero] at hr
    refine ⟨{ (s.set id (some { o with ref := 2 })) with tbl := id :: s.tbl }, id, ?_, ?_, o,
      { o with ref := 2 }, rfl, by simp [St.set], g.refl _⟩
    · simp only [Cst.addRef, ho, Option.map_some, hr]
      rfl
    · have hn : ∀ i, (if i = id then a.holds i - 1 else a.holds i) + (if i = id then 1 else 0) =
          a.holds i := by
        intro i
        split
        · rename_i hi; rw [hi]; omega
        · rfl
      unfold Acc.next
      simp only [hn]
      refine ⟨?_, ?_, ?_, ?_, ?_, ?_⟩
      · intro i hi
        simp only [St.set] at hi ⊢
        obtain ⟨a1, a2, a3⟩ := h.fresh i hi
        have : i ≠ id := by rintro rfl; omega
        rw [if_neg this, if_neg this]; exact ⟨a1, a2, a3⟩
      · intro i
        simp only [St.set]
        by_cases hi : i = id
        · subst hi; simp only [if_true, reduceCtorEq, iff_false]; omega
        · simp only [if_neg hi]; exact h.live i
      · intro i p hp'
        simp only [St.set] at hp' ⊢
        by_cases hi : i = id
        · subst hi
          simp only [if_true] at hp' ⊢
          obtain rfl := Option.some.inj hp'
          simp [hpriv.2]
        · simp only [if_neg hi] at hp' ⊢; exact h.ref i p hp'
      · intro i
        simp only
        rw [List.mem_cons, h.tbl i]
        by_cases hi : i = id
        · subst hi; simp [hh]
        · simp [hi]
      · exact List.nodup_cons.2 ⟨hnt, h.nodup⟩
      · have hval : ∀ k ∈ id :: s.tbl, ∀ q,
            (if k = id then some { o with ref := 2 } else s.heap k) = some q →
            (k = id ∧ q.val = o.val) ∨ (k ≠ id ∧ k ∈ s.tbl ∧ s.heap k = some q) := by
          intro k hk q hq
          by_cases hki : k = id
          · rw [if_pos hki] at hq
            obtain rfl := Option.some.inj hq
            exact .inl ⟨hki, rfl⟩
          · rw [if_neg hki] at hq
            exact .inr ⟨hki, (List.mem_cons.1 hk).resolve_left hki, hq⟩
        intro i hi j hj p q hp hq he
        simp only [St.set] at hi hj hp hq
        rcases hval i hi p hp with ⟨e1, v1⟩ | ⟨e1, t1, v1⟩ <;>
          rcases hval j hj q hq with ⟨e2, v2⟩ | ⟨e2, t2, v2⟩
        · rw [e1, e2]
        · have := h2 rfl j t2 q v2
          rw [v1] at he
          rw [g.symm _ _ he] at this; cases this
        · have := h2 rfl i t1 p v1
          rw [v2] at he
          rw [he] at this; cases this
        · exact h.once i t1 j t2 p q v1 v2 he
  | some j =>
    obtain ⟨hj, p, hp, he⟩ := h3 j rfl
    have hj' := (h.tbl j).1 hj
    simp only
    by_cases hsd : a.shared id = true
    · -- the pointer is already the one in the table
      have hid : id ∈ s.tbl := (h.tbl id).2 ⟨hsd, hh⟩
      obtain rfl : j = id := h.once j hj id hid p o hp ho he
      rw [hsd] at hr
      simp only [if_true] at hr
      have hbj := hb j
      have hm : (o.ref + 2 ^ 32 - 1) % 2 ^ 32 = o.ref - 1 := by omega
      have hne : o.ref - 1 ≠ 0 := by omega
      have hback : (o.ref - 1 + 1) % 2 ^ 32 = o.ref := by omega
      have hfree : free j s = some (s.set j (some { o with ref := o.ref - 1 }), o.ref - 1) := by
        unfold free; rw [ho, Option.map_some]; simp only [hm, if_neg hne]
      rw [hfree, Option.bind_some]
      refine ⟨s, j, ?_, ?_, o, o, rfl, ho, g.refl _⟩
      · have hset : (s.set j (some { o with ref := o.ref - 1 })).set j (some o) = s := by
          unfold St.set
          simp only
          have : (fun i => if i = j then some o else
              if i = j then some { o with ref := o.ref - 1 } else s.heap i) = s.heap := by
            funext i
            split
            · rename_i hi; rw [hi, ho]
            · rfl
          rw [this]
        have hheap : (s.set j (some { o with ref := o.ref - 1 })).heap j =
            some { o with ref := o.ref - 1 } := by simp [St.set]
        unfold Cst.addRef
        simp only
        rw [hheap, Option.map_some, Option.map_some]
        simp only
        rw [hback, hset]
      · have hn : ∀ i, (if i = j then a.holds i - 1 else a.holds i) + (if i = j then 1 else 0) =
            a.holds i := by
          intro i
          split
          · rename_i hi; rw [hi]; omega
          · rfl
        have hs : ∀ i, (if i = j then true else a.shared i) = a.shared i := by
          intro i
          split
          · rename_i hi; rw [hi, hsd]
          · rfl
        unfold Acc.next
        simp only [hn, hs]
        exact h
    · rw [Bool.not_eq_true] at hsd
      have hone : a.holds id = 1 := by
        rcases hcase with hc | hc
        · exact hc.2
        · rw [hsd] at hc; cases hc.1
      have hji : j ≠ id := by rintro rfl; rw [hsd] at hj'; cases hj'.1
      obtain ⟨q, f1, f2, -, -, -, f3⟩ := h.freePrivate hh hsd
      rw [f1, Option.bind_some]
      obtain ⟨s', g1, g2⟩ := f2.addRef (id := j) (by simp only [if_neg hji]; exact hj'.2)
        (by simp only [if_neg hji]; exact hb j)
      rw [g1, Option.map_some]
      refine ⟨s', j, rfl, ?_, o, ?_⟩
      · have e1 : (fun i => if i = j then true else a.shared i) = a.shared := by
          funext i
          split
          · rename_i hi; rw [hi, hj'.1]
          · rfl
        have e2 : (fun i => (if i = id then a.holds i - 1 else a.holds i) +
            (if i = j then 1 else 0)) = fun i => if i = j then
              (if i = id then a.holds i - 1 else a.holds i) + 1 else
              if i = id then a.holds i - 1 else a.holds i := by
          funext i; split <;> split <;> rfl
        unfold Acc.next
        simp only [e1, e2]
        exact g2
      · have hq : q.1.heap j = some p := by rw [f3 j hji]; exact hp
        unfold Cst.addRef at g1
        rw [hq, Option.map_some] at g1
        obtain rfl := Option.some.inj g1
        exact ⟨{ p with ref := (p.ref + 1) % 2 ^ 32 }, rfl, by simp only [St.set, if_true], he⟩

/-- One operation. -/
theorem Inv.step (g : Good eqv hsh) {s : St V} {a : Acc} (h : Inv eqv s a) (op : Op V)
    (hok : a.Ok op) :
    ∃ s' r, step eqv hsh bkt s op = some (s', r) ∧ Inv eqv s' (a.next r op) := by
  cases op with
  | record v => exact ⟨_, _, rfl, h.alloc v⟩
  | clone id =>
    obtain ⟨o, ho, -⟩ := h.held hok
    exact ⟨_, _, by simp only [Cst.step, ho, Option.map_some]; rfl, h.alloc o.val⟩
  | addRef id =>
    obtain ⟨s', h1, h2⟩ := h.addRef hok.1 hok.2
    exact ⟨s', id, by simp only [Cst.step, h1, Option.map_some], h2⟩
  | freePrivate id =>
    obtain ⟨r, h1, h2, -⟩ := h.freePrivate hok.1 hok.2
    exact ⟨r.1, id, by simp only [Cst.step, h1, Option.map_some], h2⟩
  | intern id =>
    obtain ⟨s', r, h1, h2, -⟩ := h.intern (bkt := bkt) g hok
    exact ⟨s', r, h1, h2⟩
  | freeShared id =>
    obtain ⟨s', h1, h2⟩ := h.freeShared (bkt := bkt) g hok.1 hok.2
    exact ⟨s', id, by simp only [Cst.step, h1, Option.map_some], h2⟩

theorem Inv.init : Inv eqv ({} : St V) {} :=
  ⟨by simp, by simp, by simp, by simp, by simp, by simp⟩

theorem Inv.run (g : Good eqv hsh) : ∀ (ops : List (Op V)) (s : St V) (a : Acc), Inv eqv s a →
    OkAll eqv hsh bkt ops s a → ∃ s' a', run eqv hsh bkt ops s a = some (s', a') ∧ Inv eqv s' a' := by
  intro ops
  induction ops with
  | nil => intro s a h _; exact ⟨s, a, rfl, h⟩
  | cons op ops ih =>
    intro s a h hok
    obtain ⟨s1, r, h1, h2⟩ := h.step (bkt := bkt) g op hok.1
    obtain ⟨s', a', h3, h4⟩ := ih s1 _ h2 (hok.2 s1 r h1)
    exact ⟨s', a', by unfold Cst.run; rw [h1]; exact h3, h4⟩

/-! ## C31 -/

/-- C31: whatever the users of callstacks do within the contract, freed memory is never touched;
the count of every callstack is the number of its holders, plus one if it is in the table; a
callstack is in memory exactly as long as someone holds it; and two held callstacks from the table
that are equal are the same one. -/
theorem C31_refcounts (g : Good eqv hsh) (ops : List (Op V)) (hok : OkAll eqv hsh bkt ops {} {}) :
    ∃ s a, run eqv hsh bkt ops {} {} = some (s, a) ∧
      (∀ i, (s.heap i).isSome = true ↔ 0 < a.holds i) ∧
      (∀ i o, s.heap i = some o →
        o.ref = a.holds i + (if a.shared i = true then 1 else 0)) ∧
      (∀ i j o p, s.heap i = some o → s.heap j = some p → a.shared i = true → a.shared j = true →
        eqv o.val p.val = true → i = j) := by
  obtain ⟨s, a, h1, h⟩ := Inv.run (bkt := bkt) g ops {} {} Inv.init hok
  have hl : ∀ i, (s.heap i).isSome = true ↔ 0 < a.holds i := by
    intro i
    have := h.live i
    cases hi : s.heap i with
    | none => simp [this.2 hi]
    | some o =>
      simp only [Option.isSome_some, true_iff]
      by_cases h0 : a.holds i = 0
      · rw [this.1 h0] at hi; cases hi
      · omega
  refine ⟨s, a, h1, hl, fun i o ho => (h.ref i o ho).1, ?_⟩
  intro i j o p ho hp hi hj he
  refine h.once i ((h.tbl i).2 ⟨hi, (hl i).1 (by rw [ho]; rfl)⟩) j
    ((h.tbl j).2 ⟨hj, (hl j).1 (by rw [hp]; rfl)⟩) o p ho hp he

/-- C31: after any history, putting a callstack into the table delivers a stored callstack equal to
it, which is from then on held by the caller. -/
theorem C31_intern (g : Good eqv hsh) (ops : List (Op V)) (hok : OkAll eqv hsh bkt ops {} {})
    (id : Nat) : ∃ s a, run eqv hsh bkt ops {} {} = some (s, a) ∧
      (a.Ok (Op.intern id : Op V) → ∃ s' r o o', intern eqv hsh bkt id s = some (s', r) ∧
        s.heap id = some o ∧ s'.heap r = some o' ∧ eqv o'.val o.val = true) := by
  obtain ⟨s, a, h1, h⟩ := Inv.run (bkt := bkt) g ops {} {} Inv.init hok
  refine ⟨s, a, h1, fun hk => ?_⟩
  obtain ⟨s', r, h2, -, o, o', h3, h4, h5⟩ := h.intern (bkt := bkt) g hk
  exact ⟨s', r, o, o', h2, h3, h4, h5⟩
end

/-- Two equal callstacks are put into the table and given back: one object, released at the end. -/
example :
    let r := run (fun a b : Nat => a == b) (fun _ => 0) (fun _ => 0)
    (r [.record 7, .record 7, .intern 0, .intern 1] {} {}).map
      (fun x => (x.1.heap 0).map (·.ref)) = some (some 3) ∧
    (r [.record 7, .record 7, .intern 0, .intern 1] {} {}).map
      (fun x => (x.1.heap 1).map (·.ref)) = some none ∧
    (r [.record 7, .record 7, .intern 0, .intern 1, .freeShared 0, .freeShared 0] {} {}).map
      (fun x => ((x.1.heap 0).map (·.ref), x.1.tbl)) = some (none, []) := by
  decide +kernel

/-- The hypotheses are met by this history. -/
example : Good (fun a b : Nat => a == b) (fun _ => 0) ∧
    OkAll (fun a b : Nat => a == b) (fun _ => 0) (fun _ => 0)
      [.record 7, .record 7, .intern 0, .freePrivate 1, .freeShared 0] {} {} := by
  refine ⟨⟨by simp, by simp, by simp, by simp⟩, trivial, ?_⟩
  intro s r h
  obtain ⟨rfl, rfl⟩ := Prod.mk.inj (Option.some.inj h)
  refine ⟨trivial, ?_⟩
  intro s r h
  obtain ⟨rfl, rfl⟩ := Prod.mk.inj (Option.some.inj h)
  refine ⟨⟨?_, .inl (by decide)⟩, ?_⟩
  · intro i; simp only [Acc.next]; split <;> split <;> omega
  intro s r h
  obtain ⟨rfl, rfl⟩ := Prod.mk.inj (Option.some.inj h)
  refine ⟨⟨by decide, by decide⟩, ?_⟩
  intro s r h
  obtain ⟨rfl, rfl⟩ := Prod.mk.inj (Option.some.inj h)
  exact ⟨⟨by decide, by decide⟩, fun _ _ _ => trivial⟩

end Verif.Cst
