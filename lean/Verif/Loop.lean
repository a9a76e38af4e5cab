/-!
# C loops and C strings

Generic definitions used by all models (no code of /repo is modelled here).

* `loop`/`Runs`: a C `while` loop given by a step function; `Runs step s r` is total
  correctness: the loop started in `s` stops with result `r`.
* `rd`: a read of a NUL-terminated C string; reading past the terminator is `none`.
-/
namespace Verif

/-- Run a loop body at most `n` times.  `Sum.inr r` leaves the loop with result `r`. -/
def loop {σ ρ : Type} (step : σ → σ ⊕ ρ) : Nat → σ → Option ρ
  | 0, _ => none
  | n + 1, s =>
    match step s with
    | .inl s' => loop step n s'
    | .inr r => some r

/-- The loop started in `s` terminates with result `r`. -/
def Runs {σ ρ : Type} (step : σ → σ ⊕ ρ) (s : σ) (r : ρ) : Prop :=
  ∃ n, loop step n s = some r

theorem loop_mono {σ ρ : Type} (step : σ → σ ⊕ ρ) {n : Nat} :
    ∀ {s : σ} {r : ρ}, loop step n s = some r → ∀ m, n ≤ m → loop step m s = some r := by
  induction n with
  | zero => intro s r h; simp [loop] at h
  | succ n ih =>
    intro s r h m hm
    obtain ⟨m', rfl⟩ : ∃ m', m = m' + 1 := ⟨m - 1, by omega⟩
    simp only [loop] at h ⊢
    split at h
    · exact ih h m' (by omega)
    · exact h

/-- A loop has at most one result. -/
theorem Runs.unique {σ ρ : Type} {step : σ → σ ⊕ ρ} {s : σ} {r r' : ρ}
    (h : Runs step s r) (h' : Runs step s r') : r = r' := by
  obtain ⟨n, hn⟩ := h
  obtain ⟨m, hm⟩ := h'
  have h1 := loop_mono step hn (max n m) (Nat.le_max_left ..)
  have h2 := loop_mono step hm (max n m) (Nat.le_max_right ..)
  rw [h1] at h2
  exact Option.some.inj h2

theorem Runs.step_inl {σ ρ : Type} {step : σ → σ ⊕ ρ} {s s' : σ} {r : ρ}
    (h : step s = .inl s') (h' : Runs step s' r) : Runs step s r := by
  obtain ⟨n, hn⟩ := h'
  exact ⟨n + 1, by simp [loop, h, hn]⟩

theorem Runs.step_inr {σ ρ : Type} {step : σ → σ ⊕ ρ} {s : σ} {r : ρ}
    (h : step s = .inr r) : Runs step s r := ⟨1, by simp [loop, h]⟩

/-- Total-correctness rule: an invariant, a well-founded measure, a postcondition. -/
theorem Runs.of_inv {σ ρ α : Type} {step : σ → σ ⊕ ρ} (Inv : σ → Prop) (Post : ρ → Prop)
    (μ : σ → α) [w : WellFoundedRelation α]
    (hl : ∀ s s', Inv s → step s = .inl s' → Inv s' ∧ w.rel (μ s') (μ s))
    (hr : ∀ s r, Inv s → step s = .inr r → Post r)
    (s : σ) (hs : Inv s) : ∃ r, Runs step s r ∧ Post r := by
  have key : ∀ a : α, ∀ s, μ s = a → Inv s → ∃ r, Runs step s r ∧ Post r := by
    intro a
    induction a using w.wf.induction with
    | _ a ih =>
      intro s ha hs
      cases hst : step s with
      | inl s' =>
        have := hl s s' hs hst
        obtain ⟨r, h1, h2⟩ := ih (μ s') (ha ▸ this.2) s' rfl this.1
        exact ⟨r, Runs.step_inl hst h1, h2⟩
      | inr r => exact ⟨r, Runs.step_inr hst, hr s r hs hst⟩
  exact key (μ s) s rfl hs

/-- A NUL-terminated C string with contents `s`: reading index `s.length` gives the terminator,
reading beyond it is out of bounds (`none`). -/
def rd (s : List UInt8) (i : Nat) : Option UInt8 := (s ++ [0])[i]?

theorem rd_lt {s : List UInt8} {i : Nat} (h : i < s.length) : rd s i = some s[i] := by
  simp [rd, List.getElem?_append_left h]

theorem rd_len (s : List UInt8) : rd s s.length = some 0 := by
  simp [rd]

theorem rd_gt {s : List UInt8} {i : Nat} (h : s.length < i) : rd s i = none := by
  simp [rd]; omega

theorem rd_eq {s : List UInt8} {i : Nat} (h : i ≤ s.length) :
    rd s i = some ((s.drop i).headD 0) := by
  rcases Nat.lt_or_eq_of_le h with h | h
  · rw [rd_lt h, List.drop_eq_getElem_cons h]; rfl
  · subst h; simp [rd_len]

/-- ASCII `tolower` (the "C" locale), as called at common/utils.c:587-588,
common/utils_shared.c:71 and drmemory/replace.c. -/
def toLower (c : UInt8) : UInt8 := if 65 ≤ c ∧ c ≤ 90 then c + 32 else c

end Verif
