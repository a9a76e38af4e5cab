import Verif.SysUnknown

/-!
# Unknown system calls leave memory alone and mark what was written
-/

namespace Verif.SysUnknown

/-! ## Tracked bytes -/

/-- Byte `x` is among the saved bytes of parameter `i`. -/
def Tr (c : Cls) (i x : Nat) : Prop := c.ptr i ≠ 0 ∧ c.ptr i ≤ x ∧ x < c.ptr i + c.sz i

theorem upd_same {α} (f : Nat → α) (i : Nat) (v : α) : upd f i v i = v := by simp [upd]

theorem upd_other {α} (f : Nat → α) {i j : Nat} (v : α) (h : j ≠ i) : upd f i v j = f j := by
  simp [upd, h]

theorem sentLoop_cases (e : Env) (sh : Shadow) : ∀ (f a : Nat) (m : Mem) (x : Nat),
    sentLoop e sh f a m x = m x ∨
      (sentLoop e sh f a m x = S ∧ sh x = .undef ∧ e.wr x = true ∧ a ≤ x ∧ x < a + f) := by
  intro f
  induction f with
  | zero => intro a m x; exact Or.inl rfl
  | succ f ih =>
    intro a m x
    rw [sentLoop]
    split
    · rename_i hu
      split
      · rename_i hw
        rcases ih (a + 1) (upd m a S) x with h | ⟨h1, h2, h3, h4, h5⟩
        · rw [h]
          by_cases hx : x = a
          · right
            subst hx
            exact ⟨upd_same _ _ _, hu, hw, Nat.le_refl _, by omega⟩
          · left; exact upd_other _ _ hx
        · right; exact ⟨h1, h2, h3, by omega, by omega⟩
      · exact Or.inl rfl
    · rcases ih (a + 1) m x with h | ⟨h1, h2, h3, h4, h5⟩
      · exact Or.inl h
      · right; exact ⟨h1, h2, h3, by omega, by omega⟩

theorem sentLoop_keep (e : Env) (sh : Shadow) : ∀ (f a : Nat) (m : Mem) (x : Nat), m x = S →
    sentLoop e sh f a m x = S := by
  intro f a m x h
  rcases sentLoop_cases e sh f a m x with h1 | h1
  · rw [h1, h]
  · exact h1.1

theorem sentLoop_all (e : Env) (sh : Shadow) : ∀ (f a : Nat) (m : Mem) (x : Nat),
    a ≤ x → x < a + f → sh x = .undef → (∀ y, sh y = .undef → e.wr y = true) →
    sentLoop e sh f a m x = S := by
  intro f
  induction f with
  | zero => intro a m x h1 h2; omega
  | succ f ih =>
    intro a m x h1 h2 hu hw
    rw [sentLoop]
    by_cases hx : x = a
    · subst hx
      rw [if_pos hu, if_pos (hw x hu)]
      exact sentLoop_keep e sh f _ _ x (upd_same _ _ _)
    · split
      · rename_i ha
        rw [if_pos (hw a ha)]
        exact ih _ _ x (by omega) (by omega) hu hw
      · exact ih _ _ x (by omega) (by omega) hu hw

theorem scan_le (c : Cls) (sh : Shadow) (i start : Nat) : ∀ f j, scan c sh i start f j ≤ j + f := by
  intro f
  induction f with
  | zero => intro j; simp [scan]
  | succ f ih =>
    intro j
    rw [scan]
    split
    · omega
    · have := ih (j + 1); omega

/-- The parameters do not start inside memory tracked for an earlier one. -/
def Apart (e : Env) : Prop := ∀ i p, p < i → i < NARGS → e.arg i ≤ e.arg p ∨ e.arg p + MAX ≤ e.arg i

/-- What holds of the record before any system call of a thread; kept by `call`
(`call_sz`). -/
def SzOk (c : Cls) : Prop := ∀ i, c.sz i ≤ MAX

/-- The lowest bytes are never addressable. -/
def LowUn (sh : Shadow) : Prop := ∀ x, x < 4096 → sh x = .un

theorem preOne_ptr_other (k : Cfg) (e : Env) (sh : Shadow) (i : Nat) (m : Mem) (c : Cls) {p : Nat}
    (h : p ≠ i) : (preOne k e sh i m c).2.ptr p = c.ptr p ∧ (preOne k e sh i m c).2.sz p = c.sz p ∧
      (preOne k e sh i m c).2.val p = c.val p := by
  unfold preOne
  dsimp only
  split
  · dsimp only
    split
    · split
      · exact ⟨(upd_other _ _ h).trans (upd_other _ _ h), upd_other _ _ h, upd_other _ _ h⟩
      · exact ⟨upd_other _ _ h, upd_other _ _ h, rfl⟩
    · exact ⟨upd_other _ _ h, rfl, rfl⟩
  · exact ⟨upd_other _ _ h, rfl, rfl⟩

theorem preOne_sz (k : Cfg) (e : Env) (sh : Shadow) (i : Nat) (m : Mem) (c : Cls) (h : SzOk c) :
    SzOk (preOne k e sh i m c).2 := by
  intro p
  by_cases hp : p = i
  · subst hp
    unfold preOne
    dsimp only
    split
    · dsimp only
      split
      · split
        · show upd _ _ _ _ ≤ _
          rw [upd_same]
          have := scan_le { c with ptr := upd c.ptr p 0 } sh p (e.arg p) MAX 0
          omega
        · show upd _ _ _ _ ≤ _
          rw [upd_same]; exact Nat.zero_le _
      · exact h p
    · exact h p
  · rw [(preOne_ptr_other k e sh i m c hp).2.1]; exact h p

/-- Pointer after the step: the parameter or null; if not null, it is addressable. -/
theorem preOne_ptr (k : Cfg) (e : Env) (sh : Shadow) (i : Nat) (m : Mem) (c : Cls) :
    (preOne k e sh i m c).2.ptr i = 0 ∨ (preOne k e sh i m c).2.ptr i = e.arg i := by
  unfold preOne
  dsimp only
  split
  · dsimp only
    split
    · split
      · right; exact upd_same _ _ _
      · left; exact upd_same _ _ _
    · left; exact upd_same _ _ _
  · left; exact upd_same _ _ _

/-- Under the conditions of the theorems no earlier record overlaps at offset 0. -/
theorem no_overlap {e : Env} {sh : Shadow} {c : Cls} {i : Nat} (hi : i < NARGS)
    (hap : Apart e) (hsz : SzOk c) (hlow : LowUn sh) (hun : sh (e.arg i) ≠ .un)
    (hptr : ∀ p, p < i → c.ptr p = 0 ∨ c.ptr p = e.arg p) : overlap c i (e.arg i) 0 = false := by
  unfold overlap
  rw [List.any_eq_false]
  intro p hp
  have hp := List.mem_range.1 hp
  have h1 := hsz p
  have h2 : 4096 ≤ e.arg i := by
    by_cases h : e.arg i < 4096
    · exact absurd (hlow _ h) hun
    · omega
  have h3 := hap i p hp hi
  have : MAX = 2048 := rfl
  simp only [Bool.and_eq_true, decide_eq_true_eq, not_and, Nat.not_lt]
  intro h4
  rcases hptr p hp with h | h <;> rw [h] at h4 ⊢ <;> omega

/-! ## What is in memory and in the record before the call is made -/

/-- The invariant after the first `n` parameters. -/
structure Inv (k : Cfg) (e : Env) (sh : Shadow) (m0 : Mem) (n : Nat) (m : Mem) (c : Cls) : Prop where
  szOk : SzOk c
  ptrs : ∀ p, p < n → c.ptr p = 0 ∨ c.ptr p = e.arg p
  mems : ∀ x, m x = m0 x ∨ (k.sent = true ∧ m x = S ∧ sh x = .undef ∧ e.wr x = true ∧ ∃ i, i < n ∧ Tr c i x)
  vals : ∀ i, i < n → ∀ x, Tr c i x → c.val i (x - c.ptr i) = m0 x ∨
    (k.sent = true ∧ c.val i (x - c.ptr i) = S ∧ ∃ p, p < i ∧ Tr c p x)
  reads : ∀ i, i < n → c.ptr i ≠ 0 → readable e (c.ptr i) (c.sz i) = true

theorem tr_other {k : Cfg} {e : Env} {sh : Shadow} {i : Nat} {m : Mem} {c : Cls} {p x : Nat}
    (h : p ≠ i) : Tr (preOne k e sh i m c).2 p x ↔ Tr c p x := by
  obtain ⟨h1, h2, _⟩ := preOne_ptr_other k e sh i m c h
  unfold Tr; rw [h1, h2]

theorem preN_inv (k : Cfg) (e : Env) (sh : Shadow) (m0 : Mem) (c0 : Cls) (hap : Apart e)
    (hsz : SzOk c0) (hlow : LowUn sh) : ∀ n, n ≤ NARGS →
    Inv k e sh m0 n (preN k e sh m0 c0 n).1 (preN k e sh m0 c0 n).2 := by
  intro n
  induction n with
  | zero =>
    intro _
    exact ⟨hsz, fun p h => absurd h (Nat.not_lt_zero p), fun x => Or.inl rfl,
      fun p h => absurd h (Nat.not_lt_zero p), fun p h => absurd h (Nat.not_lt_zero p)⟩
  | succ n ih =>
    intro hn
    have ih := ih (by omega)
    show Inv k e sh m0 (n + 1) (preOne k e sh n (preN k e sh m0 c0 n).1 (preN k e sh m0 c0 n).2).1
      (preOne k e sh n (preN k e sh m0 c0 n).1 (preN k e sh m0 c0 n).2).2
    generalize (preN k e sh m0 c0 n).1 = m at *
    generalize (preN k e sh m0 c0 n).2 = c at *
    have hot : ∀ {p x}, p < n → (Tr (preOne k e sh n m c).2 p x ↔ Tr c p x) :=
      fun h => tr_other (by omega)
    -- the values of this parameter, and memory
    have key : (∀ x, (preOne k e sh n m c).1 x = m x ∨ (k.sent = true ∧ (preOne k e sh n m c).1 x = S ∧
        sh x = .undef ∧ e.wr x = true ∧ Tr (preOne k e sh n m c).2 n x)) ∧
        (∀ x, Tr (preOne k e sh n m c).2 n x →
          (preOne k e sh n m c).2.val n (x - (preOne k e sh n m c).2.ptr n) = m x) ∧
        ((preOne k e sh n m c).2.ptr n ≠ 0 → readable e ((preOne k e sh n m c).2.ptr n)
          ((preOne k e sh n m c).2.sz n) = true) := by
      unfold preOne
      dsimp only
      split
      · rename_i hc
        simp only [Bool.and_eq_true, decide_eq_true_eq] at hc
        obtain ⟨⟨_, _⟩, hun⟩ := hc
        have hne : e.arg n ≠ 0 := by
          intro h; rw [h] at hun; exact hun (hlow 0 (by omega))
        have hj : 0 < scan { c with ptr := upd c.ptr n 0 } sh n (e.arg n) MAX 0 := by
          show 0 < scan _ sh n (e.arg n) (2047 + 1) 0
          have hov : overlap { c with ptr := upd c.ptr n 0 } n (e.arg n) 0 = false :=
            no_overlap (by unfold NARGS; unfold NARGS at hn; omega) hap ih.szOk hlow hun (by
              intro p hp
              show upd _ _ _ _ = 0 ∨ upd _ _ _ _ = _
              rw [upd_other _ _ (by omega)]
              exact ih.ptrs p hp)
          rw [scan, hov]
          simp only [Nat.add_zero, Bool.false_or, decide_eq_true_eq]
          rw [if_neg hun]
          have : ∀ f j, j ≤ scan { c with ptr := upd c.ptr n 0 } sh n (e.arg n) f j := by
            intro f
            induction f with
            | zero => intro j; simp [scan]
            | succ f ih =>
              intro j
              rw [scan]
              split
              · omega
              · have := ih (j + 1); omega
          have := this 2047 (0 + 1)
          omega
        rw [if_pos hj]
        generalize scan { c with ptr := upd c.ptr n 0 } sh n (e.arg n) MAX 0 = J at *
        by_cases hr : readable e (e.arg n) J = true
        · rw [if_pos hr]
          dsimp only
          refine ⟨?_, ?_, ?_⟩
          · intro x
            cases hks : k.sent
            · exact Or.inl rfl
            · simp only [if_true, upd_same]
              rcases sentLoop_cases e sh J (e.arg n) m x with h | ⟨h1, h2, h3, h4, h5⟩
              · exact Or.inl h
              · right
                refine ⟨trivial, h1, h2, h3, ?_⟩
                unfold Tr
                simp only [upd_same]
                exact ⟨hne, h4, h5⟩
          · intro x hx
            unfold Tr at hx
            simp only [upd_same] at hx ⊢
            rw [show e.arg n + (x - e.arg n) = x by omega]
          · simp only [upd_same]
            intro _; exact hr
        · rw [if_neg hr]
          dsimp only
          refine ⟨?_, ?_, ?_⟩
          · intro x
            left
            cases k.sent
            · rfl
            · simp only [if_true, upd_same]; rfl
          · intro x hx
            unfold Tr at hx
            simp only [upd_same] at hx
            exact absurd rfl hx.1
          · simp only [upd_same]
            intro h; exact absurd rfl h
      · dsimp only
        refine ⟨fun x => Or.inl rfl, ?_, ?_⟩
        · intro x hx
          unfold Tr at hx
          simp only [upd_same] at hx
          exact absurd rfl hx.1
        · simp only [upd_same]
          intro h; exact absurd rfl h
    refine ⟨preOne_sz k e sh n m c ih.szOk, ?_, ?_, ?_, ?_⟩
    · intro p hp
      by_cases h : p = n
      · subst h; exact preOne_ptr k e sh p m c
      · rw [(preOne_ptr_other k e sh n m c h).1]; exact ih.ptrs p (by omega)
    · intro x
      rcases key.1 x with h | ⟨h0, h1, h2, h3, h4⟩
      · rw [h]
        rcases ih.mems x with h' | ⟨h0, h1, h2, h3, i, hi, ht⟩
        · exact Or.inl h'
        · exact Or.inr ⟨h0, h1, h2, h3, i, by omega, (hot hi).2 ht⟩
      · exact Or.inr ⟨h0, h1, h2, h3, n, by omega, h4⟩
    · intro i hi x ht
      by_cases h : i = n
      · subst h
        rw [key.2.1 x ht]
        rcases ih.mems x with h' | ⟨h0, h1, h2, h3, p, hp, ht⟩
        · exact Or.inl h'
        · exact Or.inr ⟨h0, h1, p, hp, (hot hp).2 ht⟩
      · obtain ⟨q1, q2, q3⟩ := preOne_ptr_other k e sh n m c h
        rw [q1, q3]
        rcases ih.vals i (by omega) x ((hot (by omega)).1 ht) with h' | ⟨h0, h1, p, hp, ht⟩
        · exact Or.inl h'
        · exact Or.inr ⟨h0, h1, p, hp, (hot (by omega)).2 ht⟩
    · intro i hi
      by_cases h : i = n
      · subst h; exact key.2.2
      · obtain ⟨q1, q2, q3⟩ := preOne_ptr_other k e sh n m c h
        rw [q1, q2]
        exact ih.reads i (by omega)

/-- The first parameter that tracks a byte holds its original value. -/
theorem first_val {k : Cfg} {e : Env} {sh : Shadow} {m0 m : Mem} {n : Nat} {c : Cls}
    (h : Inv k e sh m0 n m c) {x : Nat} : ∀ i, i < n → Tr c i x → ∃ p, p ≤ i ∧ Tr c p x ∧
      c.val p (x - c.ptr p) = m0 x ∧ ∀ q, q < p → ¬ Tr c q x := by
  intro i
  induction i using Nat.strongRecOn with
  | _ i ih =>
    intro hi ht
    by_cases hq : ∃ q, q < i ∧ Tr c q x
    · obtain ⟨q, hq, htq⟩ := hq
      obtain ⟨p, hp, h1, h2, h3⟩ := ih q hq (by omega) htq
      exact ⟨p, by omega, h1, h2, h3⟩
    · have hno : ∀ q, q < i → ¬ Tr c q x := fun q hq' h' => hq ⟨q, hq', h'⟩
      rcases h.vals i hi x ht with h1 | ⟨_, _, p, hp, htp⟩
      · exact ⟨i, Nat.le_refl _, ht, h1, hno⟩
      · exact absurd htp (hno p hp)

theorem preN_nosent {k : Cfg} (e : Env) (sh : Shadow) (m : Mem) (c : Cls) (n : Nat)
    (hs : k.sent = false) : (preN k e sh m c n).1 = m := by
  induction n with
  | zero => rfl
  | succ n ih =>
    refine Eq.trans ?_ ih
    rw [preN]
    unfold preOne
    simp only [hs]
    split <;> rfl

/-! ## The first pass after the call -/

/-- Two bytes that are reported together. -/
def Near (k : Cfg) (y x : Nat) : Prop := if k.dword then y / 4 = x / 4 else y = x

theorem near_self (k : Cfg) (x : Nat) : Near k x x := by unfold Near; split <;> rfl

theorem report_eq (k : Cfg) (sh : Shadow) (a x : Nat) :
    report k sh a x = (open Classical in if Near k a x ∧ sh x = .undef then Sh.defd else sh x) := by
  unfold report Near mark
  by_cases hd : k.dword = true
  · rw [if_pos hd]
    have h : (a / 4 * 4 ≤ x ∧ x < a / 4 * 4 + 4 ∧ sh x = .undef) ↔ (a / 4 = x / 4 ∧ sh x = .undef) := by
      constructor
      · rintro ⟨h1, h2, h3⟩; exact ⟨by omega, h3⟩
      · rintro ⟨h1, h3⟩; exact ⟨by omega, by omega, h3⟩
    simp only [if_pos hd]
    split <;> rename_i h1
    · rw [if_pos (h.1 h1)]
    · rw [if_neg (fun h2 => h1 (h.2 h2))]
  · rw [if_neg hd]
    have h : (a ≤ x ∧ x < a + 1 ∧ sh x = .undef) ↔ (a = x ∧ sh x = .undef) := by
      constructor
      · rintro ⟨h1, h2, h3⟩; exact ⟨by omega, h3⟩
      · rintro ⟨h1, h3⟩; exact ⟨by omega, by omega, h3⟩
    simp only [if_neg hd]
    split <;> rename_i h1
    · rw [if_pos (h.1 h1)]
    · rw [if_neg (fun h2 => h1 (h.2 h2))]

/-- `sh'` is `sh` with exactly the undefined bytes near one of `P` made defined. -/
def Marked (k : Cfg) (sh sh' : Shadow) (P : Nat → Prop) : Prop :=
  ∀ x, (sh x = .undef ∧ (∃ y, Near k y x ∧ sh y = .undef ∧ P y) → sh' x = .defd) ∧
    (¬ (sh x = .undef ∧ ∃ y, Near k y x ∧ sh y = .undef ∧ P y) → sh' x = sh x)

theorem near_trans {k : Cfg} {x y z : Nat} (h1 : Near k x y) (h2 : Near k y z) : Near k x z := by
  unfold Near at *
  split at h1 <;> simp_all

theorem near_symm {k : Cfg} {x y : Nat} (h1 : Near k x y) : Near k y x := by
  unfold Near at *
  split at h1 <;> simp_all

theorem marked_step {k : Cfg} {sh0 sh : Shadow} {P : Nat → Prop} {a : Nat} (D : Bool)
    (h : Marked k sh0 sh P) :
    Marked k sh0 (if sh a = .undef ∧ D = true then report k sh a else sh)
      (fun y => P y ∨ (y = a ∧ D = true)) := by
  intro x
  by_cases hP : sh0 x = .undef ∧ ∃ y, Near k y x ∧ sh0 y = .undef ∧ P y
  · -- marked before
    have hx := (h x).1 hP
    have hr : (if sh a = .undef ∧ D = true then report k sh a else sh) x = .defd := by
      split
      · rw [report_eq, hx, if_neg (by rintro ⟨_, h⟩; cases h)]
      · exact hx
    refine ⟨fun _ => hr, fun hn => absurd ⟨hP.1, ?_⟩ hn⟩
    obtain ⟨y, h1, h2, h3⟩ := hP.2
    exact ⟨y, h1, h2, Or.inl h3⟩
  · have hx := (h x).2 hP
    constructor
    · rintro ⟨hu, y, h1, h2, h3 | ⟨rfl, hD⟩⟩
      · exact absurd ⟨hu, y, h1, h2, h3⟩ hP
      · -- `a` itself is still undefined, for otherwise `x` would be marked
        have ha : sh y = .undef := by
          rw [← h2]
          apply (h y).2
          rintro ⟨_, z, hz1, hz2, hz3⟩
          exact hP ⟨hu, z, near_trans hz1 h1, hz2, hz3⟩
        rw [if_pos ⟨ha, hD⟩, report_eq, if_pos ⟨h1, by rw [hx, hu]⟩]
    · intro hn
      rw [← hx]
      split
      · rename_i hc
        have ha0 : sh0 a = .undef := by
          by_cases hq : sh0 a = .undef ∧ ∃ y, Near k y a ∧ sh0 y = .undef ∧ P y
          · exact hq.1
          · rw [← (h a).2 hq]; exact hc.1
        rw [report_eq, if_neg]
        rintro ⟨h1, h2⟩
        apply hn
        rw [hx] at h2
        exact ⟨h2, a, h1, ha0, Or.inr ⟨rfl, hc.2⟩⟩
      · rfl

theorem marked_congr {k : Cfg} {sh sh' : Shadow} {P Q : Nat → Prop} (hpq : ∀ y, P y ↔ Q y)
    (h : Marked k sh sh' P) : Marked k sh sh' Q := by
  intro x
  have : (∃ y, Near k y x ∧ sh y = .undef ∧ P y) ↔ ∃ y, Near k y x ∧ sh y = .undef ∧ Q y :=
    ⟨fun ⟨y, a, b, c⟩ => ⟨y, a, b, (hpq y).1 c⟩, fun ⟨y, a, b, c⟩ => ⟨y, a, b, (hpq y).2 c⟩⟩
  exact ⟨fun h1 => (h x).1 ⟨h1.1, this.2 h1.2⟩, fun h1 => (h x).2 (fun h2 => h1 ⟨h2.1, this.1 h2.2⟩)⟩

theorem repLoop_marked {k : Cfg} {m : Mem} {ptr : Nat} {val : Nat → UInt8} {sh0 : Shadow} :
    ∀ (f j : Nat) (sh : Shadow) (P : Nat → Prop), Marked k sh0 sh P →
    Marked k sh0 (repLoop k m ptr val f j sh)
      (fun y => P y ∨ (ptr + j ≤ y ∧ y < ptr + j + f ∧ differs k (m y) (val (y - ptr)) = true)) := by
  intro f
  induction f with
  | zero =>
    intro j sh P h
    refine marked_congr (fun y => ⟨Or.inl, ?_⟩) h
    rintro (h | h)
    · exact h
    · omega
  | succ f ih =>
    intro j sh P h
    rw [repLoop]
    refine marked_congr ?_ (ih (j + 1) _ _ (marked_step (a := ptr + j)
      (differs k (m (ptr + j)) (val j)) h))
    intro y
    constructor
    · rintro ((h | ⟨rfl, h⟩) | ⟨h1, h2, h3⟩)
      · exact Or.inl h
      · right
        rw [show ptr + j - ptr = j by omega]
        exact ⟨by omega, by omega, h⟩
      · exact Or.inr ⟨by omega, by omega, h3⟩
    · rintro (h | ⟨h1, h2, h3⟩)
      · exact Or.inl (Or.inl h)
      · by_cases hy : y = ptr + j
        · left; right
          subst hy
          rw [show ptr + j - ptr = j by omega] at h3
          exact ⟨rfl, h3⟩
        · exact Or.inr ⟨by omega, by omega, h3⟩

theorem repN_marked {k : Cfg} {e : Env} {m : Mem} {c : Cls} {sh : Shadow}
    (hr : ∀ i, i < NARGS → c.ptr i ≠ 0 → readable e (c.ptr i) (c.sz i) = true) : ∀ n, n ≤ NARGS →
    Marked k sh (repN k e m c sh n)
      (fun y => ∃ i, i < n ∧ Tr c i y ∧ differs k (m y) (c.val i (y - c.ptr i)) = true) := by
  intro n
  induction n with
  | zero =>
    intro _ x
    refine ⟨?_, fun _ => rfl⟩
    rintro ⟨_, y, _, _, i, hi, _⟩
    omega
  | succ n ih =>
    intro hn
    rw [repN]
    by_cases hp : c.ptr n = 0
    · rw [if_neg (by rintro ⟨h, _⟩; exact h hp)]
      refine marked_congr (fun y => ⟨?_, ?_⟩) (ih (by omega))
      · rintro ⟨i, hi, h⟩; exact ⟨i, by omega, h⟩
      · rintro ⟨i, hi, h⟩
        by_cases hin : i = n
        · subst hin; exact absurd hp h.1.1
        · exact ⟨i, by omega, h⟩
    · rw [if_pos ⟨hp, hr n (by omega) hp⟩]
      refine marked_congr (fun y => ⟨?_, ?_⟩) (repLoop_marked _ 0 _ _ (ih (by omega)))
      · rintro (⟨i, hi, h⟩ | ⟨h1, h2, h3⟩)
        · exact ⟨i, by omega, h⟩
        · exact ⟨n, by omega, ⟨hp, by omega, by omega⟩, h3⟩
      · rintro ⟨i, hi, h⟩
        by_cases hin : i = n
        · subst hin
          obtain ⟨⟨_, h1, h2⟩, h3⟩ := h
          exact Or.inr ⟨by omega, by omega, h3⟩
        · exact Or.inl ⟨i, by omega, h⟩

/-! ## The last pass -/

theorem resLoop_eq (k : Cfg) (e : Env) (sh : Shadow) (ptr : Nat) (val pv : Nat → UInt8) :
    ∀ (f j : Nat) (m : Mem) (x : Nat), resLoop k e sh ptr val pv f j m x =
      (if ptr + j ≤ x ∧ x < ptr + j + f ∧ sh x = .undef ∧
        differs k (pv (x - ptr)) (val (x - ptr)) = false ∧ pv (x - ptr) = S ∧ val (x - ptr) ≠ S ∧
        e.wr x = true then val (x - ptr) else m x) := by
  intro f
  induction f with
  | zero => intro j m x; rw [resLoop, if_neg (by omega)]
  | succ f ih =>
    intro j m x
    rw [resLoop, ih]
    by_cases hx : x = ptr + j
    · subst hx
      rw [if_neg (by omega), show ptr + j - ptr = j by omega]
      by_cases hc : sh (ptr + j) = .undef ∧ differs k (pv j) (val j) = false ∧ pv j = S ∧
          val j ≠ S ∧ e.wr (ptr + j) = true
      · rw [if_pos hc, if_pos ⟨by omega, by omega, hc⟩, upd_same]
      · rw [if_neg hc, if_neg (fun h => hc h.2.2)]
    · have hm : (if sh (ptr + j) = .undef ∧ differs k (pv j) (val j) = false ∧ pv j = S ∧
          val j ≠ S ∧ e.wr (ptr + j) = true then upd m (ptr + j) (val j) else m) x = m x := by
        split
        · exact upd_other _ _ hx
        · rfl
      rw [hm]
      by_cases hr : ptr + j ≤ x ∧ x < ptr + j + (f + 1)
      · have h1 : ptr + (j + 1) ≤ x ∧ x < ptr + (j + 1) + f := by omega
        simp only [hr.1, hr.2, h1.1, h1.2, true_and]
      · rw [if_neg (fun h => hr ⟨by omega, by omega⟩), if_neg (fun h => hr ⟨by omega, by omega⟩)]

/-- One parameter of the last pass, byte by byte. -/
theorem resN_succ (k : Cfg) (e : Env) (sh : Shadow) (c : Cls) (m : Mem) (n x : Nat) :
    resN k e sh c m (n + 1) x =
      (open Classical in if Tr c n x ∧ readable e (c.ptr n) (c.sz n) = true ∧ sh x = .undef ∧
        k.sent = true ∧ resN k e sh c m n x = S ∧ c.val n (x - c.ptr n) ≠ S ∧ e.wr x = true then
        c.val n (x - c.ptr n) else resN k e sh c m n x) := by
  rw [resN]
  generalize resN k e sh c m n = m'
  by_cases hp : c.ptr n ≠ 0 ∧ readable e (c.ptr n) (c.sz n) = true
  · rw [if_pos hp, resLoop_eq]
    by_cases hin : c.ptr n ≤ x ∧ x < c.ptr n + c.sz n
    · rw [show c.ptr n + (x - c.ptr n) = x by omega]
      have hd : (differs k (m' x) (c.val n (x - c.ptr n)) = false ∧ m' x = S ∧
          c.val n (x - c.ptr n) ≠ S) ↔ (k.sent = true ∧ m' x = S ∧ c.val n (x - c.ptr n) ≠ S) := by
        unfold differs
        cases k.sent
        · simp only [Bool.false_and, Bool.not_false, Bool.true_and, Bool.false_or,
            decide_eq_false_iff_not, Decidable.not_not]
          constructor
          · rintro ⟨h1, h2, h3⟩; rw [h1] at h2; exact absurd h2 h3
          · rintro ⟨h, _⟩; cases h
        · simp
      split <;> rename_i h1
      · obtain ⟨_, _, h3, h4, h5, h6, h7⟩ := h1
        have := hd.1 ⟨h4, h5, h6⟩
        rw [if_pos ⟨⟨hp.1, hin⟩, hp.2, h3, this.1, this.2.1, this.2.2, h7⟩]
      · rw [if_neg]
        rintro ⟨_, _, h3, h4, h5, h6, h7⟩
        have := hd.2 ⟨h4, h5, h6⟩
        exact h1 ⟨by omega, by omega, h3, this.1, this.2.1, this.2.2, h7⟩
    · rw [if_neg (fun h => hin ⟨by omega, by omega⟩), if_neg (fun h => hin h.1.2)]
  · rw [if_neg hp, if_neg (fun h => hp ⟨h.1.1, h.2.1⟩)]

/-! ## The theorems -/

/-- The record of the thread stays in bounds, whatever the calls. -/
theorem call_sz (k : Cfg) (e : Env) (W : Nat → Bool) (v m : Mem) (sh : Shadow) (c : Cls)
    (h : SzOk c) : SzOk (call k e W v m sh c).2.2 := by
  show SzOk (preN k e sh m c NARGS).2
  generalize NARGS = n
  induction n with
  | zero => exact h
  | succ n ih => exact preOne_sz k e sh n _ _ ih

/-- After an unknown system call, whatever it is and wherever it writes, memory is what the kernel
made of the application's memory — the sentinels are gone.  Conditions, each of them necessary
(witnesses below): bytes are reported one by one if sentinels are used, no parameter starts inside
the memory tracked for an earlier one, and the kernel does not write the sentinel value into an
undefined byte. -/
theorem C58_transparent_partial (k : Cfg) (e : Env) (W : Nat → Bool) (v m : Mem) (sh : Shadow)
    (c : Cls) (hk : k.sent = true → k.dword = false) (hap : Apart e) (hsz : SzOk c)
    (hlow : LowUn sh) (hW : ∀ x, W x = true → sh x = .undef → v x ≠ S) (x : Nat) :
    (call k e W v m sh c).1 x = kernel W v m x := by
  have hinv := preN_inv k e sh m c hap hsz hlow NARGS (Nat.le_refl _)
  unfold call
  dsimp only
  show resN k e (repN k e (kernel W v (preN k e sh m c NARGS).1) (preN k e sh m c NARGS).2 sh NARGS)
    (preN k e sh m c NARGS).2 (kernel W v (preN k e sh m c NARGS).1) NARGS x = _
  generalize (preN k e sh m c NARGS).1 = m1 at *
  generalize (preN k e sh m c NARGS).2 = c1 at *
  have hmark := repN_marked (k := k) (m := kernel W v m1) (sh := sh) hinv.reads NARGS (Nat.le_refl _)
  generalize repN k e (kernel W v m1) c1 sh NARGS = sh2 at *
  have hsh2 : sh2 x = .undef → sh x = .undef := by
    intro h
    by_cases hq : sh x = .undef ∧ ∃ y, Near k y x ∧ sh y = .undef ∧ ∃ i, i < NARGS ∧ Tr c1 i y ∧
        differs k (kernel W v m1 y) (c1.val i (y - c1.ptr i)) = true
    · exact hq.1
    · rw [← (hmark x).2 hq]; exact h
  by_cases hWx : W x = true
  · -- written by the kernel: kept
    have hk1 : ∀ m', kernel W v m' x = v x := fun m' => by simp [kernel, hWx]
    rw [hk1]
    have : ∀ n, resN k e sh2 c1 (kernel W v m1) n x = v x := by
      intro n
      induction n with
      | zero => exact hk1 m1
      | succ n ih =>
        rw [resN_succ, ih, if_neg]
        rintro ⟨_, _, h3, _, h5, _⟩
        exact hW x hWx (hsh2 h3) h5
    exact this NARGS
  · have hk1 : ∀ m', kernel W v m' x = m' x := fun m' => by simp [kernel, hWx]
    rw [hk1]
    by_cases hm : m1 x = m x
    · -- not touched before: not touched now
      have : ∀ n, n ≤ NARGS → resN k e sh2 c1 (kernel W v m1) n x = m x := by
        intro n
        induction n with
        | zero => intro _; show kernel W v m1 x = _; rw [hk1, hm]
        | succ n ih =>
          intro hn
          rw [resN_succ, ih (by omega)]
          split
          · rename_i h
            obtain ⟨h1, _, _, _, h5, h6, _⟩ := h
            rcases hinv.vals n (by omega) x h1 with h' | ⟨_, h', _⟩
            · exact h'
            · exact absurd h' h6
          · rfl
      exact this NARGS (Nat.le_refl _)
    · rcases hinv.mems x with h | ⟨hs, h1, h2, h3, i, hi, ht⟩
      · exact absurd h hm
      · -- a sentinel: still undefined, and put back by the first parameter that tracks it
        obtain ⟨p, hp, htp, hval, hno⟩ := first_val hinv i hi ht
        have hmS : m x ≠ S := fun h => hm (by rw [h1, h])
        have hu2 : sh2 x = .undef := by
          rw [← h2]
          apply (hmark x).2
          rintro ⟨_, y, hy, _, j, _, _, hd⟩
          have : y = x := by
            unfold Near at hy; rw [hk hs] at hy; simpa using hy
          subst this
          unfold differs at hd
          rw [hs, hk1, h1] at hd
          simp at hd
        have hbefore : ∀ n, n ≤ p → resN k e sh2 c1 (kernel W v m1) n x = S := by
          intro n
          induction n with
          | zero => intro _; show kernel W v m1 x = _; rw [hk1, h1]
          | succ n ih =>
            intro hn
            rw [resN_succ, if_neg (fun h => hno n (by omega) h.1)]
            exact ih (by omega)
        have hafter : ∀ d, resN k e sh2 c1 (kernel W v m1) (p + 1 + d) x = m x := by
          intro d
          induction d with
          | zero =>
            show resN k e sh2 c1 (kernel W v m1) (p + 1) x = _
            rw [resN_succ, hbefore p (Nat.le_refl _), if_pos
              ⟨htp, hinv.reads p (by omega) htp.1, hu2, hs, rfl, by rw [hval]; exact hmS, h3⟩, hval]
          | succ d ih =>
            show resN k e sh2 c1 (kernel W v m1) (p + 1 + d + 1) x = _
            rw [resN_succ, ih, if_neg]
            rintro ⟨_, _, _, _, h5, _⟩
            exact hmS h5
        have := hafter (NARGS - (p + 1))
        rw [show p + 1 + (NARGS - (p + 1)) = NARGS by omega] at this
        exact this

/-! ## Which bytes become defined -/

/-- Parameter `i` looks like a pointer to memory that reaches to byte `x`: it is defined and
aligned, all bytes up to `x` are addressable, and `x` is among the first 2048. -/
def Win (e : Env) (sh : Shadow) (i x : Nat) : Prop :=
  e.argDef i = true ∧ e.arg i % 4 = 0 ∧ e.arg i ≤ x ∧ x < e.arg i + MAX ∧
    ∀ y, e.arg i ≤ y → y ≤ x → sh y ≠ .un

theorem scan_spec (c : Cls) (sh : Shadow) (i start : Nat) : ∀ f j,
    (∀ q, j ≤ q → q < scan c sh i start f j → sh (start + q) ≠ .un) ∧
    (scan c sh i start f j = j + f ∨ sh (start + scan c sh i start f j) = .un ∨
      overlap c i start (scan c sh i start f j) = true) := by
  intro f
  induction f with
  | zero => intro j; simp only [scan]; exact ⟨fun q h1 h2 => by omega, Or.inl rfl⟩
  | succ f ih =>
    intro j
    rw [scan]
    split
    · rename_i h
      refine ⟨fun q h1 h2 => by omega, ?_⟩
      simp only [Bool.or_eq_true, decide_eq_true_eq] at h
      rcases h with h | h
      · exact Or.inr (Or.inr h)
      · exact Or.inr (Or.inl h)
    · rename_i h
      simp only [Bool.or_eq_true, decide_eq_true_eq, not_or] at h
      obtain ⟨h1, h2⟩ := ih (j + 1)
      refine ⟨?_, ?_⟩
      · intro q hq1 hq2
        by_cases hq : q = j
        · subst hq; exact h.2
        · exact h1 q (by omega) hq2
      · rw [show j + (f + 1) = j + 1 + f by omega]; exact h2

theorem readable_of {e : Env} {sh : Shadow} (h : ∀ x, sh x ≠ .un → e.rd x = true) {a n : Nat}
    (ha : ∀ q, q < n → sh (a + q) ≠ .un) : readable e a n = true := by
  unfold readable
  rw [List.all_eq_true]
  intro q hq
  exact h _ (ha q (List.mem_range.1 hq))

/-- The record of each of the first `n` parameters. -/
def Rec (k : Cfg) (e : Env) (sh : Shadow) (n : Nat) (m : Mem) (c : Cls) : Prop :=
  ∀ i, i < n →
    (c.ptr i ≠ 0 → e.argDef i = true ∧ e.arg i % 4 = 0 ∧ c.ptr i = e.arg i ∧
      (∀ q, q < c.sz i → sh (e.arg i + q) ≠ .un) ∧ c.sz i ≤ MAX) ∧
    (e.argDef i = true → e.arg i % 4 = 0 → sh (e.arg i) ≠ .un → c.ptr i = e.arg i ∧
      (c.sz i = MAX ∨ sh (e.arg i + c.sz i) = .un ∨
        ∃ p, p < i ∧ c.ptr p < e.arg i + c.sz i ∧ e.arg i < c.ptr p + c.sz p)) ∧
    (k.sent = true → ∀ x, Tr c i x → sh x = .undef → m x = S)

theorem preN_rec (k : Cfg) (e : Env) (sh : Shadow) (m0 : Mem) (c0 : Cls) (hap : Apart e)
    (hsz : SzOk c0) (hlow : LowUn sh) (hrd : ∀ x, sh x ≠ .un → e.rd x = true)
    (hwr : k.sent = true → ∀ x, sh x = .undef → e.wr x = true) : ∀ n, n ≤ NARGS →
    Rec k e sh n (preN k e sh m0 c0 n).1 (preN k e sh m0 c0 n).2 := by
  intro n
  induction n with
  | zero => intro _ i hi; omega
  | succ n ih =>
    intro hn
    have hinv := preN_inv k e sh m0 c0 hap hsz hlow n (by omega)
    have ih := ih (by omega)
    show Rec k e sh (n + 1) (preOne k e sh n (preN k e sh m0 c0 n).1 (preN k e sh m0 c0 n).2).1
      (preOne k e sh n (preN k e sh m0 c0 n).1 (preN k e sh m0 c0 n).2).2
    generalize (preN k e sh m0 c0 n).1 = m at *
    generalize (preN k e sh m0 c0 n).2 = c at *
    have hkeep : ∀ x, m x = S → (preOne k e sh n m c).1 x = S := by
      intro x hx
      unfold preOne
      dsimp only
      split
      · dsimp only
        split
        · exact sentLoop_keep e sh _ _ _ x hx
        · exact hx
      · exact hx
    intro i hi
    by_cases hin : i = n
    · subst hin
      have hot : ∀ p, p < i → (preOne k e sh i m c).2.ptr p = c.ptr p ∧
          (preOne k e sh i m c).2.sz p = c.sz p := by
        intro p hp
        obtain ⟨q1, q2, _⟩ := preOne_ptr_other k e sh i m c (p := p) (by omega)
        exact ⟨q1, q2⟩
      by_cases hg : e.argDef i = true ∧ e.arg i % 4 = 0 ∧ sh (e.arg i) ≠ .un
      · have hne : e.arg i ≠ 0 := by
          intro h; rw [h] at hg; exact hg.2.2 (hlow 0 (by omega))
        have hov : overlap { c with ptr := upd c.ptr i 0 } i (e.arg i) 0 = false :=
          no_overlap (by omega) hap hinv.szOk hlow hg.2.2 (by
            intro p hp
            show upd _ _ _ _ = 0 ∨ upd _ _ _ _ = _
            rw [upd_other _ _ (by omega)]
            exact hinv.ptrs p hp)
        obtain ⟨s1, s2⟩ := scan_spec { c with ptr := upd c.ptr i 0 } sh i (e.arg i) MAX 0
        have s0 := scan_le { c with ptr := upd c.ptr i 0 } sh i (e.arg i) MAX 0
        have hc : (e.argDef i && decide (e.arg i % 4 = 0) && decide (sh (e.arg i) ≠ .un)) = true := by
          simp [hg.1, hg.2.1, hg.2.2]
        have hovp : ∀ J, overlap { c with ptr := upd c.ptr i 0 } i (e.arg i) J = true →
            ∃ p, p < i ∧ c.ptr p < e.arg i + J ∧ e.arg i < c.ptr p + c.sz p := by
          intro J h
          unfold overlap at h
          obtain ⟨p, hp, h⟩ := List.any_eq_true.1 h
          have hp := List.mem_range.1 hp
          simp only [Bool.and_eq_true, decide_eq_true_eq] at h
          rw [upd_other _ _ (by omega)] at h
          exact ⟨p, hp, h⟩
        have hJ : 0 < scan { c with ptr := upd c.ptr i 0 } sh i (e.arg i) MAX 0 := by
          apply Nat.pos_of_ne_zero
          intro h0
          rw [h0] at s2
          rcases s2 with h | h | h
          · cases h
          · exact hg.2.2 h
          · rw [hov] at h; cases h
        generalize hJe : scan { c with ptr := upd c.ptr i 0 } sh i (e.arg i) MAX 0 = J at *
        have hr : readable e (e.arg i) J = true :=
          readable_of hrd (fun q hq => s1 q (Nat.zero_le _) hq)
        have hres : preOne k e sh i m c = (if k.sent then sentLoop e sh J (e.arg i) m else m,
            { ptr := upd (upd c.ptr i 0) i (e.arg i), sz := upd c.sz i J,
              val := upd c.val i (fun q => m (e.arg i + q)) }) := by
          unfold preOne
          dsimp only
          rw [if_pos hc, hJe, if_pos hJ, if_pos hr]
          simp only [upd_same]
        have hp : (preOne k e sh i m c).2.ptr i = e.arg i := by rw [hres]; exact upd_same _ _ _
        have hz : (preOne k e sh i m c).2.sz i = J := by rw [hres]; exact upd_same _ _ _
        refine ⟨?_, ?_, ?_⟩
        · intro _
          rw [hp, hz]
          exact ⟨hg.1, hg.2.1, rfl, fun q hq => s1 q (Nat.zero_le _) hq, by omega⟩
        · intro _ _ _
          rw [hp, hz]
          refine ⟨rfl, ?_⟩
          rcases s2 with h | h | h
          · left; omega
          · exact Or.inr (Or.inl h)
          · right; right
            obtain ⟨p, hpi, h1, h2⟩ := hovp J h
            refine ⟨p, hpi, ?_⟩
            rw [(hot p hpi).1, (hot p hpi).2]
            exact ⟨h1, h2⟩
        · intro hs x ht hu
          unfold Tr at ht
          rw [hp, hz] at ht
          rw [hres, if_pos hs]
          exact sentLoop_all e sh J (e.arg i) m x ht.2.1 ht.2.2 hu (hwr hs)
      · have hc : (e.argDef i && decide (e.arg i % 4 = 0) && decide (sh (e.arg i) ≠ .un)) = false := by
          cases h : (e.argDef i && decide (e.arg i % 4 = 0) && decide (sh (e.arg i) ≠ .un))
          · rfl
          · exfalso; apply hg
            simp only [Bool.and_eq_true, decide_eq_true_eq] at h
            exact ⟨h.1.1, h.1.2, h.2⟩
        have hp : (preOne k e sh i m c).2.ptr i = 0 := by
          unfold preOne
          dsimp only
          rw [hc]
          exact upd_same _ _ _
        refine ⟨fun h => absurd hp h, fun h1 h2 h3 => absurd ⟨h1, h2, h3⟩ hg, ?_⟩
        intro _ x ht
        exact absurd hp ht.1
    · obtain ⟨q1, q2, _⟩ := preOne_ptr_other k e sh n m c hin
      obtain ⟨r1, r2, r3⟩ := ih i (by omega)
      rw [q1, q2]
      refine ⟨r1, ?_, ?_⟩
      · intro h1 h2 h3
        obtain ⟨h4, h5⟩ := r2 h1 h2 h3
        refine ⟨h4, ?_⟩
        rcases h5 with h | h | ⟨p, hp, h⟩
        · exact Or.inl h
        · exact Or.inr (Or.inl h)
        · right; right
          obtain ⟨u1, u2, _⟩ := preOne_ptr_other k e sh n m c (p := p) (by omega)
          refine ⟨p, hp, ?_⟩
          rw [u1, u2]; exact h
      · intro hs x ht hu
        exact hkeep x (r3 hs x ((tr_other hin).1 ht) hu)

/-- The tracked bytes are the windows of the parameters. -/
theorem tracked_iff {k : Cfg} {e : Env} {sh : Shadow} {m : Mem} {c : Cls} (hap : Apart e)
    (hlow : LowUn sh) (h : Rec k e sh NARGS m c) (hsz : SzOk c) (x : Nat) :
    (∃ i, i < NARGS ∧ Tr c i x) ↔ ∃ i, i < NARGS ∧ Win e sh i x := by
  constructor
  · rintro ⟨i, hi, h0, h1, h2⟩
    obtain ⟨r1, r2, r3, r4, r5⟩ := (h i hi).1 h0
    rw [r3] at h1 h2
    refine ⟨i, hi, r1, r2, h1, by omega, ?_⟩
    intro y hy1 hy2
    have := r4 (y - e.arg i) (by omega)
    rw [show e.arg i + (y - e.arg i) = y by omega] at this
    exact this
  · rintro ⟨i, hi, hw⟩
    induction i using Nat.strongRecOn with
    | _ i ih =>
      obtain ⟨w1, w2, w3, w4, w5⟩ := hw
      have hst := w5 (e.arg i) (Nat.le_refl _) w3
      have hlo : 4096 ≤ e.arg i := by
        by_cases h : e.arg i < 4096
        · exact absurd (hlow _ h) hst
        · omega
      obtain ⟨hp, hstop⟩ := (h i hi).2.1 w1 w2 hst
      by_cases hx : x < e.arg i + c.sz i
      · exact ⟨i, hi, by omega, by omega, by omega⟩
      · rcases hstop with h1 | h1 | ⟨p, hpi, h1, h2⟩
        · omega
        · exact absurd h1 (w5 _ (by omega) (by omega))
        · have hs := hsz p
          have hM : MAX = 2048 := rfl
          have hp0 : c.ptr p ≠ 0 := by omega
          obtain ⟨r1, r2, r3, r4, r5⟩ := (h p (by omega)).1 hp0
          rw [r3] at h1 h2
          have ha := hap i p hpi hi
          exact ih p hpi (by omega) ⟨r1, r2, by omega, by omega,
            fun y hy1 hy2 => w5 y (by omega) hy2⟩

/-- What the comparison can see: with sentinels that the kernel wrote another value than the
sentinel, without them that the value changed. -/
def Seen (k : Cfg) (W : Nat → Bool) (v m : Mem) (y : Nat) : Prop :=
  if k.sent then W y = true ∧ v y ≠ S else W y = true ∧ v y ≠ m y

/-- Exactly the following bytes become defined by an unknown system call: those undefined ones that
are reported together with (are, or are in the same dword as) an undefined byte in the window of
some parameter that the kernel is seen to have written.  No byte becomes undefined, addressable or
unaddressable. -/
theorem C58_defined_partial (k : Cfg) (e : Env) (W : Nat → Bool) (v m : Mem) (sh : Shadow)
    (c : Cls) (hap : Apart e) (hsz : SzOk c) (hlow : LowUn sh)
    (hrd : ∀ x, sh x ≠ .un → e.rd x = true)
    (hwr : k.sent = true → ∀ x, sh x = .undef → e.wr x = true) (x : Nat) :
    (sh x = .undef → ((call k e W v m sh c).2.1 x = .defd ↔
      ∃ y, Near k y x ∧ sh y = .undef ∧ (∃ i, i < NARGS ∧ Win e sh i y) ∧ Seen k W v m y)) ∧
    ((call k e W v m sh c).2.1 x = sh x ∨
      (sh x = .undef ∧ (call k e W v m sh c).2.1 x = .defd)) := by
  have hinv := preN_inv k e sh m c hap hsz hlow NARGS (Nat.le_refl _)
  have hrec := preN_rec k e sh m c hap hsz hlow hrd hwr NARGS (Nat.le_refl _)
  have hns := preN_nosent (k := k) e sh m c NARGS
  have hcall : (call k e W v m sh c).2.1 = repN k e (kernel W v (preN k e sh m c NARGS).1)
    (preN k e sh m c NARGS).2 sh NARGS := rfl
  rw [hcall]
  generalize (preN k e sh m c NARGS).1 = m1 at *
  generalize (preN k e sh m c NARGS).2 = c1 at *
  have hmark := repN_marked (k := k) (m := kernel W v m1) (sh := sh) hinv.reads NARGS (Nat.le_refl _)
  generalize repN k e (kernel W v m1) c1 sh NARGS = sh2 at *
  have heq : ∀ y, sh y = .undef → ((∃ i, i < NARGS ∧ Tr c1 i y ∧
      differs k (kernel W v m1 y) (c1.val i (y - c1.ptr i)) = true) ↔
      ((∃ i, i < NARGS ∧ Win e sh i y) ∧ Seen k W v m y)) := by
    intro y hy
    have hd : ∀ i, i < NARGS → Tr c1 i y →
        (differs k (kernel W v m1 y) (c1.val i (y - c1.ptr i)) = true ↔ Seen k W v m y) := by
      intro i hi ht
      cases hs : k.sent
      · have hm := hns hs
        have hval : c1.val i (y - c1.ptr i) = m y := by
          rcases hinv.vals i hi y ht with h | ⟨h, _⟩
          · exact h
          · rw [hs] at h; cases h
        rw [hval]
        unfold differs Seen kernel
        rw [hs, hm]
        cases hW : W y <;> simp
      · have hm := (hrec i hi).2.2 hs y ht hy
        unfold differs Seen kernel
        rw [hs]
        cases hW : W y <;> simp [hm]
    rw [← tracked_iff hap hlow hrec hinv.szOk y]
    constructor
    · rintro ⟨i, hi, ht, h⟩
      exact ⟨⟨i, hi, ht⟩, (hd i hi ht).1 h⟩
    · rintro ⟨⟨i, hi, ht⟩, h⟩
      exact ⟨i, hi, ht, (hd i hi ht).2 h⟩
  have hex : (∃ y, Near k y x ∧ sh y = .undef ∧ ∃ i, i < NARGS ∧ Tr c1 i y ∧
      differs k (kernel W v m1 y) (c1.val i (y - c1.ptr i)) = true) ↔
      ∃ y, Near k y x ∧ sh y = .undef ∧ (∃ i, i < NARGS ∧ Win e sh i y) ∧ Seen k W v m y :=
    ⟨fun ⟨y, a, b, d⟩ => ⟨y, a, b, (heq y b).1 d⟩, fun ⟨y, a, b, d⟩ => ⟨y, a, b, (heq y b).2 d⟩⟩
  constructor
  · intro hu
    rw [← hex]
    constructor
    · intro h
      by_cases hq : ∃ y, Near k y x ∧ sh y = .undef ∧ ∃ i, i < NARGS ∧ Tr c1 i y ∧
          differs k (kernel W v m1 y) (c1.val i (y - c1.ptr i)) = true
      · exact hq
      · have := (hmark x).2 (fun h => hq h.2)
        rw [h, hu] at this
        cases this
    · intro h
      exact (hmark x).1 ⟨hu, h⟩
  · by_cases hq : sh x = .undef ∧ ∃ y, Near k y x ∧ sh y = .undef ∧ ∃ i, i < NARGS ∧ Tr c1 i y ∧
        differs k (kernel W v m1 y) (c1.val i (y - c1.ptr i)) = true
    · exact Or.inr ⟨hq.1, (hmark x).1 hq⟩
    · exact Or.inl ((hmark x).2 hq)

/-! ## Cases -/

/-- Memory at 4096: 8 addressable bytes, undefined except the fifth; parameter 0 points there. -/
def shX : Shadow := fun x =>
  if x = 4100 then .defd else if 4096 ≤ x ∧ x < 4104 then .undef else .un

/-- Parameter 0 is a pointer, the others are undefined. -/
def envX : Env := ⟨fun _ => true, fun _ => true, fun _ => 4096, fun i => decide (i = 0)⟩

/-- The record of a new thread. -/
def clsX : Cls := ⟨fun _ => 0, fun _ => 0, fun _ _ => 0⟩

theorem shX_low : LowUn shX := by
  intro x hx
  unfold shX
  rw [if_neg (by omega), if_neg (by omega)]

/-- Not vacuous: with sentinels, byte by byte, the kernel writes the value that was there to the
second byte: it becomes defined, and memory is as before. -/
example : Apart envX ∧ SzOk clsX ∧ LowUn shX ∧
    (call ⟨true, false⟩ envX (fun x => decide (x = 4097)) (fun _ => 7) (fun _ => 7) shX clsX).2.1 4097 =
      .defd ∧
    (call ⟨true, false⟩ envX (fun x => decide (x = 4097)) (fun _ => 7) (fun _ => 7) shX clsX).2.1 4098 =
      .undef ∧
    (call ⟨true, false⟩ envX (fun x => decide (x = 4097)) (fun _ => 7) (fun _ => 7) shX clsX).1 4098 =
      7 := by
  refine ⟨fun i p _ _ => Or.inl (Nat.le_refl _), fun i => Nat.zero_le _, shX_low, ?_⟩
  decide +kernel

/-- With `-syscall_sentinels` and the default `-syscall_dword_granularity`, a byte that the kernel
did not write keeps the sentinel if the kernel wrote another byte of the same dword: the report
made the whole dword defined, and defined bytes are not put back. -/
theorem C58_dword_sentinel : ∃ (e : Env) (W : Nat → Bool) (v m : Mem) (sh : Shadow) (c : Cls) (x : Nat),
    Apart e ∧ SzOk c ∧ LowUn sh ∧ (∀ y, W y = true → v y ≠ S) ∧ W x = false ∧ m x = 7 ∧
    (call ⟨true, true⟩ e W v m sh c).1 x = S := by
  refine ⟨envX, fun x => decide (x = 4097), fun _ => 1, fun _ => 7, shX, clsX, 4098,
    fun i p _ _ => Or.inl (Nat.le_refl _), fun i => Nat.zero_le _, shX_low, ?_, rfl, rfl, ?_⟩
  · intro y _
    show (1 : UInt8) ≠ S
    decide
  · decide +kernel

/-- With `-syscall_sentinels`, a byte with the value of the sentinel that the kernel wrote is
replaced by the old value. -/
theorem C58_kernel_sentinel : ∃ (e : Env) (W : Nat → Bool) (v m : Mem) (sh : Shadow) (c : Cls) (x : Nat),
    Apart e ∧ SzOk c ∧ LowUn sh ∧ W x = true ∧ v x = S ∧ m x = 7 ∧
    (call ⟨true, false⟩ e W v m sh c).1 x = 7 := by
  refine ⟨envX, fun x => decide (x = 4097), fun _ => S, fun _ => 7, shX, clsX, 4097,
    fun i p _ _ => Or.inl (Nat.le_refl _), fun i => Nat.zero_le _, shX_low, rfl, rfl, rfl, ?_⟩
  decide +kernel

/-- Shadow of the next witness: 8 undefined bytes at 4096, one unaddressable byte, and 16 undefined
bytes from 4105 on. -/
def shY : Shadow := fun x =>
  if x = 4104 then .un else if 4096 ≤ x ∧ x < 4121 then .undef else .un

/-- First call: parameter 1 is a pointer to 16 bytes.  Second call: parameter 0 points to 4096,
parameter 1 four bytes further. -/
def envY (second : Bool) : Env :=
  if second then ⟨fun _ => true, fun _ => true, fun i => 4096 + 4 * i, fun i => decide (i < 2)⟩
  else ⟨fun _ => true, fun _ => true, fun _ => 4108, fun i => decide (i = 1)⟩

/-- With `-syscall_sentinels`, two unknown system calls that write nothing: the second has a
parameter that points inside the memory of another one, the size left over from the first call is
used for it, and bytes that were never saved keep the sentinel. -/
theorem C58_stale_size :
    let r1 := call ⟨true, false⟩ (envY false) (fun _ => false) (fun _ => 0) (fun _ => 7) shY clsX
    let r2 := call ⟨true, false⟩ (envY true) (fun _ => false) (fun _ => 0) r1.1 r1.2.1 r1.2.2
    r1.1 4110 = 7 ∧ r2.1 4110 = S ∧ r2.1 4098 = 7 := by
  decide +kernel

/-- Without sentinels nothing of this can happen: for any parameters, whatever the record, memory is
what the kernel made of it. -/
theorem C58_no_sentinels (k : Cfg) (hk : k.sent = false) (e : Env) (W : Nat → Bool) (v m : Mem)
    (sh : Shadow) (c : Cls) : (call k e W v m sh c).1 = kernel W v m := by
  have h := preN_nosent (k := k) e sh m c NARGS hk
  unfold call pre
  dsimp only
  rw [h]
  generalize repN k e (kernel W v m) _ sh NARGS = sh2
  generalize (preN k e sh m c NARGS).2 = c1
  funext x
  have : ∀ n, resN k e sh2 c1 (kernel W v m) n x = kernel W v m x := by
    intro n
    induction n with
    | zero => rfl
    | succ n ih =>
      rw [resN_succ, if_neg, ih]
      rintro ⟨_, _, _, h, _⟩
      rw [hk] at h; cases h
  exact this NARGS

/-- The default options: a byte that the kernel did not write becomes defined if another byte of
its dword changed. -/
theorem C58_dword_extra : ∃ (e : Env) (W : Nat → Bool) (v m : Mem) (sh : Shadow) (c : Cls) (x : Nat),
    W x = false ∧ sh x = .undef ∧ (call ⟨false, true⟩ e W v m sh c).2.1 x = .defd := by
  refine ⟨envX, fun x => decide (x = 4097), fun _ => 1, fun _ => 7, shX, clsX, 4098, rfl, ?_, ?_⟩
  · decide
  · decide +kernel

/-- A parameter that points inside the memory tracked for an earlier one is not tracked at all: what
the kernel writes behind the end of the earlier one stays undefined. -/
theorem C58_inside_missed (k : Cfg) (e : Env) (sh : Shadow) (m : Mem) (c : Cls) (i p : Nat)
    (hp : p < i) (h1 : c.ptr p < e.arg i) (h2 : e.arg i < c.ptr p + c.sz p) :
    (preOne k e sh i m c).2.ptr i = 0 := by
  unfold preOne
  dsimp only
  split
  · have hov : overlap { c with ptr := upd c.ptr i 0 } i (e.arg i) 0 = true := by
      unfold overlap
      rw [List.any_eq_true]
      refine ⟨p, List.mem_range.2 hp, ?_⟩
      simp only [Bool.and_eq_true, decide_eq_true_eq, Nat.add_zero]
      rw [upd_other _ _ (by omega)]
      exact ⟨h1, h2⟩
    have h0 : scan { c with ptr := upd c.ptr i 0 } sh i (e.arg i) MAX 0 = 0 := by
      show scan _ sh i (e.arg i) (2047 + 1) 0 = 0
      rw [scan, hov]
      rfl
    rw [h0]
    exact upd_same _ _ _
  · exact upd_same _ _ _

end Verif.SysUnknown
