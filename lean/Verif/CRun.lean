/-!
# Running C functions with loops

Generic definitions (no code of /repo).  `Out` is the outcome of a computation: a result, a `fault`
(an access outside the accessible memory, or other undefined behaviour), or running out of the
number of loop turns allowed.  `Term f r`: the function stops without fault with result `r`, for
every large enough number of turns.
-/
namespace Verif

/-- Outcome of a computation. -/
inductive Out (ρ : Type) where
  | ok (r : ρ)
  | fault
  | fuel
  deriving DecidableEq, Repr

/-- Sequencing. -/
def Out.bind {α β : Type} : Out α → (α → Out β) → Out β
  | .ok a, f => f a
  | .fault, _ => .fault
  | .fuel, _ => .fuel

instance : Monad Out where
  pure := .ok
  bind := Out.bind

theorem Out.bind_ok {α β : Type} (a : α) (f : α → Out β) : (Out.ok a >>= f) = f a := rfl
theorem Out.bind_fault {α β : Type} (f : α → Out β) : ((Out.fault : Out α) >>= f) = .fault := rfl
theorem Out.pure_eq {α : Type} (a : α) : (pure a : Out α) = .ok a := rfl

/-- A loop whose body either goes on (`inl`) or leaves (`inr`), with at most `n` turns. -/
def loopF {σ ρ : Type} (step : σ → Out (σ ⊕ ρ)) : Nat → σ → Out ρ
  | 0, _ => .fuel
  | n + 1, s =>
    match step s with
    | .ok (.inl s') => loopF step n s'
    | .ok (.inr r) => .ok r
    | .fault => .fault
    | .fuel => .fuel

/-- `while (cond) body`. -/
def whileF {σ : Type} (cond : σ → Out Bool) (body : σ → Out σ) : Nat → σ → Out σ :=
  loopF fun s =>
    (cond s).bind fun c => if c then (body s).bind fun s' => .ok (.inl s') else .ok (.inr s)

/-- Stops without fault with result `r`. -/
def Term {ρ : Type} (f : Nat → Out ρ) (r : ρ) : Prop := ∃ N, ∀ n, N ≤ n → f n = .ok r

/-- Stops with a fault. -/
def Faults {ρ : Type} (f : Nat → Out ρ) : Prop := ∃ N, ∀ n, N ≤ n → f n = .fault

theorem Term.unique {ρ : Type} {f : Nat → Out ρ} {r r' : ρ} (h : Term f r) (h' : Term f r') :
    r = r' := by
  obtain ⟨N, h⟩ := h
  obtain ⟨N', h'⟩ := h'
  have h1 := h (max N N') (Nat.le_max_left ..)
  rw [h' (max N N') (Nat.le_max_right ..)] at h1
  exact (Out.ok.inj h1).symm

theorem Term.not_faults {ρ : Type} {f : Nat → Out ρ} {r : ρ} (h : Term f r) : ¬ Faults f := by
  rintro ⟨N', h'⟩
  obtain ⟨N, h⟩ := h
  have h1 := h (max N N') (Nat.le_max_left ..)
  rw [h' (max N N') (Nat.le_max_right ..)] at h1
  cases h1

theorem Term.pure {ρ : Type} (r : ρ) : Term (fun _ => Out.ok r) r := ⟨0, fun _ _ => rfl⟩

theorem Term.bind {α ρ : Type} {f : Nat → Out α} {g : α → Nat → Out ρ} {a : α} {r : ρ}
    (hf : Term f a) (hg : Term (g a) r) : Term (fun n => (f n).bind fun a => g a n) r := by
  obtain ⟨N, hf⟩ := hf
  obtain ⟨N', hg⟩ := hg
  refine ⟨max N N', fun n hn => ?_⟩
  simp only []
  rw [hf n (by omega)]
  exact hg n (by omega)

theorem Term.congr {ρ : Type} {f g : Nat → Out ρ} {r : ρ} (h : Term f r) (e : ∀ n, g n = f n) :
    Term g r := by
  obtain ⟨N, h⟩ := h
  exact ⟨N, fun n hn => by rw [e, h n hn]⟩

/-- A loop whose states are known in advance. -/
theorem Term.iter {σ ρ : Type} {step : σ → Out (σ ⊕ ρ)} {s : σ} {r : ρ} (k : Nat) (f : Nat → σ)
    (h0 : f 0 = s) (hs : ∀ i, i < k → step (f i) = .ok (.inl (f (i + 1))))
    (he : step (f k) = .ok (.inr r)) : Term (fun n => loopF step n s) r := by
  subst h0
  refine ⟨k + 1, fun n hn => ?_⟩
  simp only []
  suffices ∀ j i n, i + j = k → j + 1 ≤ n → loopF step n (f i) = .ok r from
    this k 0 n (by omega) hn
  intro j
  induction j with
  | zero =>
    intro i n hi hn
    obtain ⟨n', rfl⟩ : ∃ n', n = n' + 1 := ⟨n - 1, by omega⟩
    obtain rfl : i = k := by omega
    simp [loopF, he]
  | succ j ih =>
    intro i n hi hn
    obtain ⟨n', rfl⟩ : ∃ n', n = n' + 1 := ⟨n - 1, by omega⟩
    simp only [loopF, hs i (by omega)]
    exact ih (i + 1) n' (by omega) (by omega)

/-- A `while` loop whose states are known in advance. -/
theorem Term.while {σ : Type} {cond : σ → Out Bool} {body : σ → Out σ} {s : σ} (k : Nat)
    (f : Nat → σ) (h0 : f 0 = s) (hc : ∀ i, i < k → cond (f i) = .ok true)
    (hb : ∀ i, i < k → body (f i) = .ok (f (i + 1))) (he : cond (f k) = .ok false) :
    Term (fun n => whileF cond body n s) (f k) := by
  refine Term.iter k f h0 ?_ ?_
  · intro i hi
    simp only [hc i hi, Out.bind, if_true, hb i hi]
  · simp [he, Out.bind]

/-- Total-correctness rule with an invariant and a measure. -/
theorem Term.of_inv {σ ρ : Type} {step : σ → Out (σ ⊕ ρ)} (Inv : σ → Prop) (Post : ρ → Prop)
    (μ : σ → Nat)
    (h : ∀ s, Inv s → (∃ s', step s = .ok (.inl s') ∧ Inv s' ∧ μ s' < μ s) ∨
      (∃ r, step s = .ok (.inr r) ∧ Post r))
    (s : σ) (hs : Inv s) : ∃ r, Term (fun n => loopF step n s) r ∧ Post r := by
  suffices ∀ k s, μ s = k → Inv s → ∃ r, Term (fun n => loopF step n s) r ∧ Post r from
    this (μ s) s rfl hs
  intro k
  induction k using Nat.strongRecOn with
  | ind k ih =>
    intro s hk hs
    rcases h s hs with ⟨s', h1, h2, h3⟩ | ⟨r, h1, h2⟩
    · obtain ⟨r, ⟨N, hN⟩, hp⟩ := ih (μ s') (by omega) s' rfl h2
      refine ⟨r, ⟨N + 1, fun n hn => ?_⟩, hp⟩
      obtain ⟨n', rfl⟩ : ∃ n', n = n' + 1 := ⟨n - 1, by omega⟩
      simp only [loopF, h1]
      exact hN n' (by omega)
    · refine ⟨r, ⟨1, fun n hn => ?_⟩, h2⟩
      obtain ⟨n', rfl⟩ : ∃ n', n = n' + 1 := ⟨n - 1, by omega⟩
      simp [loopF, h1]

end Verif
