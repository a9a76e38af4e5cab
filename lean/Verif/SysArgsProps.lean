import Verif.SysTable
/-
Lemmas about the table-driven walk: each parameter is handled on its own.
-/

namespace Verif.SysArgs

/-! ## Every range that a handler reports carries the number of its parameter -/

theorem mem_single {α} {c : Prop} [Decidable c] {r x : α}
    (h : r ∈ (if c then [x] else [])) : r = x := by
  split at h <;> simp at h
  exact h

theorem handleCstring_ord {e pre ord fl start size c l}
    (h : handleCstring e pre ord fl start size c = some l) : ∀ r ∈ l, r.ord = ord := by
  unfold handleCstring at h
  dsimp only at h
  split at h <;> try cases h
  split at h <;> try cases h
  split at h
  · cases h; simp
  split at h <;> try cases h
  simp

theorem handleSockaddr_ord (e pre st ord fl p l) :
    ∀ r ∈ (handleSockaddr e pre st ord fl p l).1, r.ord = ord := by
  intro r hr
  unfold handleSockaddr at hr
  dsimp only at hr
  split at hr
  · simp at hr; rw [hr]
  · split at hr
    · dsimp only at hr
      split at hr
      · simp at hr; rw [hr]
      · simp at hr
    · split at hr
      · simp only [List.mem_append] at hr
        rcases hr with hr | hr
        · split at hr <;> simp at hr <;> rw [hr]
        · exact mem_single hr ▸ rfl
      · simp only [List.mem_append, List.mem_map] at hr
        rcases hr with hr | ⟨f, _, hr⟩
        · split at hr <;> simp at hr; rw [hr]
        · rw [← hr]

theorem iovLoop_ord (e ord fl limit) : ∀ n iov sofar,
    ∀ r ∈ iovLoop e ord fl limit n iov sofar, r.ord = ord := by
  intro n
  induction n with
  | zero => intro iov sofar r hr; simp [iovLoop] at hr
  | succ n ih =>
    intro iov sofar r hr
    rw [iovLoop] at hr
    split at hr
    · dsimp only at hr
      split at hr
      · exact mem_single hr ▸ rfl
      · simp only [List.mem_append] at hr
        rcases hr with hr | hr
        · exact mem_single hr ▸ rfl
        · exact ih _ _ r hr
    · exact ih _ _ r hr

theorem checkIov_ord (e ord fl iov n limit) : ∀ r ∈ checkIov e ord fl iov n limit,
    r.ord = ord := by
  intro r hr
  unfold checkIov at hr
  split at hr
  · simp at hr
  · rcases List.mem_cons.1 hr with h | h
    · rw [h]
    · exact iovLoop_ord e ord fl limit _ _ _ r h

theorem strArray_ord (e pre ord) : ∀ n array, ∀ r ∈ strArray e pre ord n array,
    r.ord = ord := by
  intro n
  induction n with
  | zero => intro a r hr; simp [strArray] at hr
  | succ n ih =>
    intro a r hr
    rw [strArray] at hr
    split at hr
    · split at hr
      · simp at hr
      · rcases List.mem_append.1 hr with h | h
        · cases hh : handleCstring e pre ord { r := true } _ 0 false with
          | none => rw [hh] at h; simp at h
          | some l => rw [hh] at h; exact handleCstring_ord hh r h
        · exact ih _ r h
    · simp at hr

theorem checkMsghdr_ord (e pre st ord fl msg) :
    ∀ r ∈ (checkMsghdr e pre st ord fl msg).1, r.ord = ord := by
  intro r hr
  unfold checkMsghdr at hr
  dsimp only at hr
  split at hr
  · simp only [List.mem_append] at hr
    rcases hr with ((hr | hr) | hr) | hr
    · rcases List.mem_cons.1 hr with h | h
      · rw [h]
      · split at h
        · cases h
        · simp at h; rw [h]
    · split at hr
      · split at hr
        · cases hr
        · split at hr
          · exact handleSockaddr_ord _ _ _ _ _ _ _ r hr
          · simp at hr; rw [hr]
      · cases hr
    · split at hr
      · split at hr
        · cases hr
        · exact checkIov_ord _ _ _ _ _ _ r hr
      · cases hr
    · split at hr
      · dsimp only at hr
        split at hr
        · cases hr
        · simp at hr; rw [hr]
      · cases hr
  · simp only [List.cons_append, List.mem_cons, List.mem_append] at hr
    rcases hr with hr | (hr | hr) | hr
    · rw [hr]
    · split at hr
      · split at hr
        · cases hr
        · exact checkIov_ord _ _ _ _ _ _ r hr
      · cases hr
    · split at hr
      · split at hr
        · cases hr
        · exact handleSockaddr_ord _ _ _ _ _ _ _ r hr
      · cases hr
    · split at hr
      · rcases List.mem_cons.1 hr with h | h
        · rw [h]
        · split at h
          · simp at h; rw [h]
          · cases h
      · cases hr

theorem osHandle_ord {e pre st a start size x}
    (h : osHandle e pre st a start size = some x) : ∀ r ∈ x.1, r.ord = a.param := by
  unfold osHandle at h
  split at h
  · cases h
  · dsimp only at h
    split at h
    · cases hh : handleCstring e pre a.param a.fl start (size % 2 ^ 32) false with
      | none => rw [hh] at h; cases h
      | some l =>
        rw [hh] at h
        cases h
        exact handleCstring_ord hh
    · cases h; exact handleSockaddr_ord _ _ _ _ _ _ _
    · cases h; exact checkMsghdr_ord _ _ _ _ _ _
    · cases h
      intro r hr
      unfold checkMsgbuf at hr
      split at hr
      · cases hr
      · simp at hr
        rcases hr with hr | hr <;> rw [hr]
    · cases h; exact strArray_ord _ _ _ _ _
    · cases h

/-- `known` is not changed by the handlers. -/
theorem osHandle_known {e pre st a start size x}
    (h : osHandle e pre st a start size = some x) : x.2.known = st.known := by
  have hs : ∀ st : St, ∀ ord fl p l, (handleSockaddr e pre st ord fl p l).2.known = st.known := by
    intro st ord fl p l
    unfold handleSockaddr
    dsimp only
    have : ∀ c : Bool, (if c = true then { st with sockLen := l } else st).known = st.known := by
      intro c; cases c <;> rfl
    split
    · exact this _
    · split
      · exact this _
      · split <;> exact this _
  unfold osHandle at h
  split at h
  · cases h
  · dsimp only at h
    split at h
    · cases hh : handleCstring e pre a.param a.fl start (size % 2 ^ 32) false with
      | none => rw [hh] at h; cases h
      | some l => rw [hh] at h; cases h; rfl
    · cases h; exact hs _ _ _ _ _
    · cases h
      unfold checkMsghdr
      dsimp only
      split
      · dsimp only
        split
        · split
          · rfl
          · split
            · exact hs _ _ _ _ _
            · rfl
        · rfl
      · rfl
    · cases h; rfl
    · cases h; rfl
    · cases h

theorem preArg_ord (e all i a st size) :
    ∀ r ∈ (preArg e all i a st size).1, r.ord = a.param := by
  intro r hr
  unfold preArg at hr
  dsimp only at hr
  split at hr
  · split at hr
    · rename_i x hx
      exact osHandle_ord hx r hr
    · split at hr
      · cases hr
      · simp at hr; rw [hr]
  · cases hr

theorem preArg_known (e all i a st size) :
    (preArg e all i a st size).2.known = st.known := by
  unfold preArg
  dsimp only
  split
  · split
    · rename_i x hx
      exact osHandle_known hx
    · split <;> rfl
  · rfl

theorem postArg_ord (e all st i a ign size) :
    ∀ r ∈ postArg e all st i a ign size, r.ord = a.param := by
  intro r hr
  unfold postArg at hr
  dsimp only at hr
  split at hr
  · split at hr
    · rename_i x hx
      exact osHandle_ord hx r hr
    · split at hr
      · cases hr
      · simp at hr; rw [hr]
  · cases hr

/-! ## The walk over the entries of other parameters -/

/-- Entries of other parameters before those of `p`: nothing is reported for `p`, the
size stored for `p` stays, and `last_param` is not `p` afterwards. -/
theorem preLoop_skip (e : Env) (all : List Arg) (p : Nat) (tl : List Arg) :
    ∀ (pre : List Arg) (i : Nat) (last : Option Nat) (st : St),
      (∀ a ∈ pre, invalid a = false ∧ a.param ≠ p) → i + pre.length ≤ 6 → last ≠ some p →
      ∃ X last' st', last' ≠ some p ∧ st'.known p = st.known p ∧ (∀ r ∈ X, r.ord ≠ p) ∧
        preLoop e all (pre ++ tl) i last st =
          (X ++ (preLoop e all tl (i + pre.length) last' st').1,
            (preLoop e all tl (i + pre.length) last' st').2) := by
  intro pre
  induction pre with
  | nil => intro i last st _ _ hl; exact ⟨[], last, st, hl, rfl, by simp, by simp⟩
  | cons a pre ih =>
    intro i last st hv hlen hl
    have hva := hv a List.mem_cons_self
    have hvr : ∀ a ∈ pre, invalid a = false ∧ a.param ≠ p :=
      fun b hb => hv b (List.mem_cons_of_mem _ hb)
    have hi : ¬ (invalid a = true ∨ MAX_ARGS ≤ i) := by
      rw [hva.1]
      simp [MAX_ARGS]
      simp at hlen
      omega
    have hlen' : i + 1 + pre.length ≤ 6 := by simp at hlen; omega
    have hi1 : i + (a :: pre).length = i + 1 + pre.length := by simp; omega
    rw [List.cons_append, preLoop, if_neg hi, hi1]
    split
    · rename_i hla
      obtain ⟨X, l', s', h1, h2, h3, h4⟩ := ih (i + 1) last st hvr hlen' hl
      exact ⟨X, l', s', h1, h2, h3, h4⟩
    · split
      · obtain ⟨X, l', s', h1, h2, h3, h4⟩ := ih (i + 1) (some a.param) st hvr hlen'
          (by simpa using hva.2)
        exact ⟨X, l', s', h1, h2, h3, h4⟩
      · dsimp only
        generalize hst : ({ st with known := fun q => (if q = a.param then
          getSize e true all i a else st.known q) } : St) = st1
        have hk : st1.known p = st.known p := by
          rw [← hst]
          show (if p = a.param then _ else st.known p) = _
          rw [if_neg (fun h => hva.2 h.symm)]
        obtain ⟨X, l', s', h1, h2, h3, h4⟩ := ih (i + 1) (some a.param)
          (preArg e all i a st1 (getSize e true all i a)).2 hvr hlen' (by simpa using hva.2)
        refine ⟨(preArg e all i a st1 (getSize e true all i a)).1 ++ X, l', s', h1, ?_, ?_, ?_⟩
        · rw [h2, preArg_known, hk]
        · intro r hr
          rcases List.mem_append.1 hr with h | h
          · rw [preArg_ord _ _ _ _ _ _ r h]; exact hva.2
          · exact h3 r h
        · rw [h4]; simp

/-- Likewise in the post-syscall event. -/
theorem postLoop_skip (e : Env) (all : List Arg) (st : St) (p : Nat) (tl : List Arg) :
    ∀ (pre : List Arg) (i : Nat) (last : Option Nat) (ls : Nat),
      (∀ a ∈ pre, invalid a = false ∧ a.param ≠ p) → i + pre.length ≤ 6 → last ≠ some p →
      ∃ X last' ls', last' ≠ some p ∧ (∀ r ∈ X, r.ord ≠ p) ∧
        postLoop e all st (pre ++ tl) i last ls =
          X ++ postLoop e all st tl (i + pre.length) last' ls' := by
  intro pre
  induction pre with
  | nil => intro i last ls _ _ hl; exact ⟨[], last, ls, hl, by simp, by simp⟩
  | cons a pre ih =>
    intro i last ls hv hlen hl
    have hva := hv a List.mem_cons_self
    have hvr : ∀ a ∈ pre, invalid a = false ∧ a.param ≠ p :=
      fun b hb => hv b (List.mem_cons_of_mem _ hb)
    have hi : ¬ (invalid a = true ∨ MAX_ARGS ≤ i) := by
      rw [hva.1]
      simp [MAX_ARGS]
      simp at hlen
      omega
    have hlen' : i + 1 + pre.length ≤ 6 := by simp at hlen; omega
    have hi1 : i + (a :: pre).length = i + 1 + pre.length := by simp; omega
    rw [List.cons_append, postLoop, if_neg hi, hi1]
    split
    · obtain ⟨X, l', s', h1, h2, h3⟩ := ih (i + 1) last ls hvr hlen' hl
      exact ⟨X, l', s', h1, h2, h3⟩
    · dsimp only
      split
      · obtain ⟨X, l', s', h1, h2, h3⟩ := ih (i + 1) last ls hvr hlen' hl
        rw [h3, ← List.append_assoc]
        refine ⟨_, l', s', h1, ?_, rfl⟩
        intro r hr
        rcases List.mem_append.1 hr with h | h
        · rw [postArg_ord _ _ _ _ _ _ _ r h]; exact hva.2
        · exact h2 r h
      · split
        · obtain ⟨X, l', s', h1, h2, h3⟩ := ih (i + 1) (some a.param)
            (min (getSize e false all i a) (st.known a.param)) hvr hlen' (by simpa using hva.2)
          exact ⟨X, l', s', h1, h2, h3⟩
        · obtain ⟨X, l', s', h1, h2, h3⟩ := ih (i + 1) (some a.param)
            (min (getSize e false all i a) (st.known a.param)) hvr hlen' (by simpa using hva.2)
          rw [h3, ← List.append_assoc]
          refine ⟨_, l', s', h1, ?_, rfl⟩
          intro r hr
          rcases List.mem_append.1 hr with h | h
          · rw [postArg_ord _ _ _ _ _ _ _ r h]; exact hva.2
          · exact h2 r h

/-- After the entries of `p` nothing more is reported for `p`, and the size stored for `p`
stays. -/
theorem preLoop_other (e : Env) (all : List Arg) (p : Nat) (suf : List Arg) (i last st)
    (hv : ∀ a ∈ suf, invalid a = false ∧ a.param ≠ p) (hlen : i + suf.length ≤ 6) :
    (∀ r ∈ (preLoop e all suf i last st).1, r.ord ≠ p) ∧
      (preLoop e all suf i last st).2.known p = st.known p := by
  induction suf generalizing i last st with
  | nil => simp [preLoop]
  | cons a suf ih =>
    have hva := hv a List.mem_cons_self
    have hvr : ∀ a ∈ suf, invalid a = false ∧ a.param ≠ p :=
      fun b hb => hv b (List.mem_cons_of_mem _ hb)
    have hlen' : i + 1 + suf.length ≤ 6 := by simp at hlen; omega
    rw [preLoop]
    split
    · exact ⟨by simp, rfl⟩
    · split
      · exact ih (i + 1) last st hvr hlen'
      · split
        · exact ih (i + 1) _ st hvr hlen'
        · dsimp only
          generalize hst : ({ st with known := fun q => (if q = a.param then
            getSize e true all i a else st.known q) } : St) = st1
          have hk : st1.known p = st.known p := by
            rw [← hst]
            show (if p = a.param then _ else st.known p) = _
            rw [if_neg (fun h => hva.2 h.symm)]
          obtain ⟨h1, h2⟩ := ih (i + 1) (some a.param)
            (preArg e all i a st1 (getSize e true all i a)).2 hvr hlen'
          constructor
          · intro r hr
            rcases List.mem_append.1 hr with h | h
            · rw [preArg_ord _ _ _ _ _ _ r h]; exact hva.2
            · exact h1 r h
          · rw [h2, preArg_known, hk]

theorem postLoop_other (e : Env) (all : List Arg) (st : St) (p : Nat) (suf : List Arg)
    (i last ls) (hv : ∀ a ∈ suf, a.param ≠ p) :
    ∀ r ∈ postLoop e all st suf i last ls, r.ord ≠ p := by
  induction suf generalizing i last ls with
  | nil => simp [postLoop]
  | cons a suf ih =>
    have hva := hv a List.mem_cons_self
    have hvr : ∀ a ∈ suf, a.param ≠ p := fun b hb => hv b (List.mem_cons_of_mem _ hb)
    intro r hr
    rw [postLoop] at hr
    split at hr
    · cases hr
    · split at hr
      · exact ih _ _ _ hvr r hr
      · dsimp only at hr
        split at hr
        · rcases List.mem_append.1 hr with h | h
          · rw [postArg_ord _ _ _ _ _ _ _ r h]; exact hva
          · exact ih _ _ _ hvr r h
        · split at hr
          · exact ih _ _ _ hvr r hr
          · rcases List.mem_append.1 hr with h | h
            · rw [postArg_ord _ _ _ _ _ _ _ r h]; exact hva
            · exact ih _ _ _ hvr r h

end Verif.SysArgs
