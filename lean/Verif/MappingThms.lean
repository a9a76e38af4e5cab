import Verif.Mapping
/-! Lemmas for C79. -/
namespace Verif.Mapping

theorem setRange_in {sh : Shadow} {a b x : Nat} {v : Sh} (h : a ≤ x ∧ x < b) :
    setRange sh a b v x = v := by unfold setRange; rw [if_pos h]

theorem setRange_out {sh : Shadow} {a b x : Nat} {v : Sh} (h : ¬ (a ≤ x ∧ x < b)) :
    setRange sh a b v x = sh x := by unfold setRange; rw [if_neg h]

/-- The addresses of a table. -/
def Cov (t : List Node) (a : Nat) : Prop := ∃ n ∈ t, n.1 ≤ a ∧ a < n.1 + n.2

/-- No empty ranges. -/
def Pos (t : List Node) : Prop := ∀ n ∈ t, 0 < n.2

theorem over_iff {b s : Nat} (hs : 0 < s) {n : Node} (hn : 0 < n.2) :
    over b s n = true ↔ ∃ a, (n.1 ≤ a ∧ a < n.1 + n.2) ∧ b ≤ a ∧ a < b + s := by
  unfold over
  rw [decide_eq_true_iff]
  constructor
  · intro h
    by_cases hb : n.1 ≤ b
    · exact ⟨b, by omega⟩
    · exact ⟨n.1, by omega⟩
  · rintro ⟨a, h1, h2⟩
    omega

theorem any_over {b s : Nat} (hs : 0 < s) {t : List Node} (ht : Pos t) :
    t.any (over b s) = true ↔ ∃ a, Cov t a ∧ b ≤ a ∧ a < b + s := by
  rw [List.any_eq_true]
  constructor
  · rintro ⟨n, hn, h⟩
    obtain ⟨a, h1, h2⟩ := (over_iff hs (ht n hn)).1 h
    exact ⟨a, ⟨n, hn, h1⟩, h2⟩
  · rintro ⟨a, ⟨n, hn, h1⟩, h2⟩
    exact ⟨n, hn, (over_iff hs (ht n hn)).2 ⟨a, h1, h2⟩⟩

theorem treeAdd_free {b s : Nat} (hs : 0 < s) {t : List Node} (ht : Pos t)
    (h : ∀ a, b ≤ a → a < b + s → ¬ Cov t a) : treeAdd b s t = (b, s) :: t := by
  unfold treeAdd
  have : t.find? (over b s) = none := by
    rw [List.find?_eq_none]
    intro n hn ho
    obtain ⟨a, h1, h2⟩ := (over_iff hs (ht n hn)).1 ho
    exact h a h2.1 h2.2 ⟨n, hn, h1⟩
  rw [this]

theorem cov_cons {n : Node} {t : List Node} {a : Nat} :
    Cov (n :: t) a ↔ (n.1 ≤ a ∧ a < n.1 + n.2) ∨ Cov t a := by
  unfold Cov
  constructor
  · rintro ⟨m, hm, h⟩
    rcases List.mem_cons.1 hm with rfl | hm
    · exact .inl h
    · exact .inr ⟨m, hm, h⟩
  · rintro (h | ⟨m, hm, h⟩)
    · exact ⟨n, List.mem_cons_self, h⟩
    · exact ⟨m, List.mem_cons_of_mem _ hm, h⟩

theorem cut_cov {b s : Nat} {n : Node} {a : Nat} :
    (∃ m ∈ cut b s n, m.1 ≤ a ∧ a < m.1 + m.2) ↔
      (n.1 ≤ a ∧ a < n.1 + n.2) ∧ ¬ (b ≤ a ∧ a < b + s) := by
  unfold cut over
  by_cases h : b < n.1 + n.2 ∧ n.1 < b + s
  · rw [if_pos (by simpa using h)]
    by_cases h1 : n.1 < b <;> by_cases h2 : b + s < n.1 + n.2
    · rw [if_pos h1, if_pos h2]; simp; omega
    · rw [if_pos h1, if_neg h2]; simp; omega
    · rw [if_neg h1, if_pos h2]; simp; omega
    · rw [if_neg h1, if_neg h2]; simp; omega
  · rw [if_neg (by simpa using h)]
    simp only [List.mem_singleton, exists_eq_left]
    omega

theorem remove_cov {b s : Nat} {t : List Node} {a : Nat} :
    Cov (treeRemove b s t).1 a ↔ Cov t a ∧ ¬ (b ≤ a ∧ a < b + s) := by
  unfold treeRemove Cov
  simp only [List.mem_flatMap]
  constructor
  · rintro ⟨m, ⟨n, hn, hm⟩, h⟩
    have := cut_cov.1 ⟨m, hm, h⟩
    exact ⟨⟨n, hn, this.1⟩, this.2⟩
  · rintro ⟨⟨n, hn, h⟩, h2⟩
    obtain ⟨m, hm, h3⟩ := cut_cov.2 ⟨h, h2⟩
    exact ⟨m, ⟨n, hn, hm⟩, h3⟩

theorem cut_pos {b s : Nat} {n : Node} (hn : 0 < n.2) : ∀ m ∈ cut b s n, 0 < m.2 := by
  intro m hm
  unfold cut at hm
  split at hm
  · rw [List.mem_append] at hm
    rcases hm with hm | hm
    · split at hm
      · rw [List.mem_singleton] at hm; subst hm; dsimp only; omega
      · cases hm
    · split at hm
      · rw [List.mem_singleton] at hm; subst hm; dsimp only; omega
      · cases hm
  · rw [List.mem_singleton] at hm; subst hm; exact hn

theorem remove_pos {b s : Nat} {t : List Node} (ht : Pos t) : Pos (treeRemove b s t).1 := by
  intro m hm
  unfold treeRemove at hm
  simp only [List.mem_flatMap] at hm
  obtain ⟨n, hn, hm⟩ := hm
  exact cut_pos (ht n hn) m hm

/-- The answers of the core are sound: the range contains the address and is the answer for each of
its addresses. -/
def QOk (q : Nat → Option Piece) : Prop :=
  ∀ pc p, q pc = some p → p.base ≤ pc ∧ pc < p.base + p.size ∧
    ∀ a, p.base ≤ a → a < p.base + p.size → q a = some p

/-- May the byte be accessed? -/
def acc (y : Sys) (a : Nat) : Bool :=
  match y.query a with
  | some p => !p.noprot
  | none => false

theorem acc_of {y : Sys} {a : Nat} {p : Piece} (h : y.query a = some p) : acc y a = !p.noprot := by
  unfold acc; rw [h]

theorem walkLoop_add {y : Sys} (hq : QOk y.query) (stop : Nat) (lim : Option Nat) :
    ∀ n pc sh, stop - pc < n → ∃ sh' e, walkLoop y stop lim true n pc sh = some (sh', e) ∧ pc ≤ e ∧
      (∀ a, sh' a = if (pc ≤ a ∧ a < e) ∧ acc y a = true then .defined else sh a) ∧
      (stop ≤ e ∨ (∃ l ∈ lim, l ≤ e) ∨ y.query e = none) ∧
      (e = pc ∨ ∃ x p, pc ≤ x ∧ x < stop ∧ (∀ l ∈ lim, x < l) ∧ y.query x = some p ∧
        e = p.base + p.size)
  | 0, _, _, h => absurd h (by omega)
  | n + 1, pc, sh, h => by
    rw [walkLoop]
    by_cases hc : pc < stop ∧ (∀ l ∈ lim, pc < l)
    · rw [if_pos hc]
      cases e0 : y.query pc with
      | none =>
        dsimp only
        refine ⟨sh, pc, rfl, Nat.le_refl _, fun a => ?_, .inr (.inr e0), .inl rfl⟩
        rw [if_neg (by omega)]
      | some p =>
        dsimp only
        obtain ⟨p1, p2, p3⟩ := hq pc p e0
        have key : ∀ sh1 : Shadow,
            (∀ a, sh1 a = if (pc ≤ a ∧ a < p.base + p.size) ∧ acc y a = true then .defined
              else sh a) →
            ∃ sh' e, walkLoop y stop lim true n (p.base + p.size) sh1 = some (sh', e) ∧ pc ≤ e ∧
              (∀ a, sh' a = if (pc ≤ a ∧ a < e) ∧ acc y a = true then .defined else sh a) ∧
              (stop ≤ e ∨ (∃ l ∈ lim, l ≤ e) ∨ y.query e = none) ∧
              (e = pc ∨ ∃ x p, pc ≤ x ∧ x < stop ∧ (∀ l ∈ lim, x < l) ∧ y.query x = some p ∧
                e = p.base + p.size) := by
          intro sh1 h1
          obtain ⟨sh', e, r1, r2, r3, r4, r5⟩ :=
            walkLoop_add hq stop lim n (p.base + p.size) sh1 (by omega)
          refine ⟨sh', e, r1, by omega, fun a => ?_, r4, .inr ?_⟩
          · rw [r3 a, h1 a]
            cases hacc : acc y a with
            | false =>
              rw [if_neg (fun q => by simp at q), if_neg (fun q => by simp at q),
                if_neg (fun q => by simp at q)]
            | true =>
              by_cases g1 : p.base + p.size ≤ a ∧ a < e
              · rw [if_pos ⟨g1, rfl⟩, if_pos ⟨by omega, rfl⟩]
              · rw [if_neg (fun q => g1 q.1)]
                by_cases g2 : pc ≤ a ∧ a < p.base + p.size
                · rw [if_pos ⟨g2, rfl⟩, if_pos ⟨by omega, rfl⟩]
                · rw [if_neg (fun q => g2 q.1), if_neg (fun q => by omega)]
          · rcases r5 with r5 | ⟨x, p', q1, q2⟩
            · exact ⟨pc, p, Nat.le_refl _, hc.1, hc.2, e0, r5⟩
            · exact ⟨x, p', by omega, q2⟩
        cases hn : p.noprot with
        | true =>
          rw [if_pos rfl, if_pos rfl]
          refine key sh fun a => ?_
          by_cases g : pc ≤ a ∧ a < p.base + p.size
          · rw [acc_of (p3 a (by omega) g.2), hn, if_neg (fun q => by simp at q)]
          · rw [if_neg (fun q => g q.1)]
        | false =>
          rw [if_neg (by simp), if_pos rfl]
          refine key _ fun a => ?_
          by_cases g : pc ≤ a ∧ a < p.base + p.size
          · rw [setRange_in g, acc_of (p3 a (by omega) g.2), hn, if_pos ⟨g, rfl⟩]
          · rw [setRange_out g, if_neg (fun q => g q.1)]
    · rw [if_neg hc]
      refine ⟨sh, pc, rfl, Nat.le_refl _, fun a => ?_, ?_, .inl rfl⟩
      · rw [if_neg (by omega)]
      · by_cases h1 : stop ≤ pc
        · exact .inl h1
        · refine .inr (.inl ?_)
          apply Classical.byContradiction
          intro hno
          exact hc ⟨by omega, fun l hl => Nat.lt_of_not_le fun hle => hno ⟨l, hl, hle⟩⟩

/-- The walk that removes: exact if no hole is entered in its middle. -/
theorem walkLoop_remove {y : Sys} (hq : QOk y.query) (stop : Nat) (lim : Option Nat) :
    ∀ n pc sh, stop - pc < n → (∀ p, y.query pc = some p → p.noprot = true → p.base = pc) →
      (∀ x p, y.query x = some p → ∀ p', y.query (p.base + p.size) = some p' →
        p'.base = p.base + p.size) →
      ∃ sh' e, walkLoop y stop lim false n pc sh = some (sh', e) ∧ pc ≤ e ∧
      (∀ a, sh' a = if pc ≤ a ∧ a < e then .unaddr else sh a) ∧
      (stop ≤ e ∨ (∃ l ∈ lim, l ≤ e) ∨ y.query e = none) ∧
      (e = pc ∨ ∃ x p, pc ≤ x ∧ x < stop ∧ (∀ l ∈ lim, x < l) ∧ y.query x = some p ∧
        e = p.base + p.size)
  | 0, _, _, h, _, _ => absurd h (by omega)
  | n + 1, pc, sh, h, hst, hadj => by
    rw [walkLoop]
    by_cases hc : pc < stop ∧ (∀ l ∈ lim, pc < l)
    · rw [if_pos hc]
      cases e0 : y.query pc with
      | none =>
        dsimp only
        refine ⟨sh, pc, rfl, Nat.le_refl _, fun a => ?_, .inr (.inr e0), .inl rfl⟩
        rw [if_neg (by omega)]
      | some p =>
        dsimp only
        obtain ⟨p1, p2, p3⟩ := hq pc p e0
        have key : ∀ sh1 : Shadow,
            (∀ a, sh1 a = if pc ≤ a ∧ a < p.base + p.size then .unaddr else sh a) →
            ∃ sh' e, walkLoop y stop lim false n (p.base + p.size) sh1 = some (sh', e) ∧ pc ≤ e ∧
              (∀ a, sh' a = if pc ≤ a ∧ a < e then .unaddr else sh a) ∧
              (stop ≤ e ∨ (∃ l ∈ lim, l ≤ e) ∨ y.query e = none) ∧
              (e = pc ∨ ∃ x p, pc ≤ x ∧ x < stop ∧ (∀ l ∈ lim, x < l) ∧ y.query x = some p ∧
                e = p.base + p.size) := by
          intro sh1 h1
          obtain ⟨sh', e, r1, r2, r3, r4, r5⟩ :=
            walkLoop_remove hq stop lim n (p.base + p.size) sh1 (by omega)
              (fun p' hp' _ => hadj pc p e0 p' hp') hadj
          refine ⟨sh', e, r1, by omega, fun a => ?_, r4, .inr ?_⟩
          · rw [r3 a, h1 a]
            by_cases g1 : p.base + p.size ≤ a ∧ a < e
            · rw [if_pos g1, if_pos (by omega)]
            · rw [if_neg g1]
              by_cases g2 : pc ≤ a ∧ a < p.base + p.size
              · rw [if_pos g2, if_pos (by omega)]
              · rw [if_neg g2, if_neg (by omega)]
          · rcases r5 with r5 | ⟨x, p', q1, q2⟩
            · exact ⟨pc, p, Nat.le_refl _, hc.1, hc.2, e0, r5⟩
            · exact ⟨x, p', by omega, q2⟩
        cases hn : p.noprot with
        | true =>
          rw [if_pos rfl, if_neg (by simp)]
          have hb := hst p e0 hn
          refine key _ fun a => ?_
          rw [setRange, hb]
        | false =>
          rw [if_neg (by simp), if_neg (by simp)]
          exact key _ fun a => rfl
    · rw [if_neg hc]
      refine ⟨sh, pc, rfl, Nat.le_refl _, fun a => ?_, ?_, .inl rfl⟩
      · rw [if_neg (by omega)]
      · by_cases h1 : stop ≤ pc
        · exact .inl h1
        · refine .inr (.inl ?_)
          apply Classical.byContradiction
          intro hno
          exact hc ⟨by omega, fun l hl => Nat.lt_of_not_le fun hle => hno ⟨l, hl, hle⟩⟩

/-- The walk that ends after its first round. -/
theorem walk_once {y : Sys} {b s : Nat} {p : Piece} (hq : y.query b = some p)
    (hb : b < walkStop y b) (he : walkStop y b ≤ p.base + p.size ∨ (0 < s ∧ b + s ≤ p.base + p.size))
    (add : Bool) (sh : Shadow) :
    walk y b s add sh = some (if p.noprot then (if add then sh else setRange sh b (b + p.size) .unaddr)
      else setRange sh b (p.base + p.size) (if add then .defined else .unaddr)) := by
  have hlim : ∀ l ∈ (if s = 0 then none else some (b + s) : Option Nat), b < l := by
    intro l hl
    by_cases h0 : s = 0
    · rw [if_pos h0] at hl; cases hl
    · rw [if_neg h0] at hl; cases hl; omega
  have hstop : ¬ (p.base + p.size < walkStop y b ∧
      ∀ l ∈ (if s = 0 then none else some (b + s) : Option Nat), p.base + p.size < l) := by
    rintro ⟨h1, h2⟩
    rcases he with he | he
    · omega
    · have := h2 (b + s) (by rw [if_neg (by omega)]; rfl)
      omega
  unfold walk
  obtain ⟨m, hm⟩ : ∃ m, walkStop y b - b + 1 = m + 1 + 1 := ⟨walkStop y b - b - 1, by omega⟩
  rw [hm, walkLoop, if_pos ⟨hb, hlim⟩, hq]
  dsimp only
  cases p.noprot <;>
    simp only [if_true, Bool.false_eq_true, if_false] <;> rw [walkLoop, if_neg hstop] <;> rfl

end Verif.Mapping
