import Verif.WrapNestThms

/- C76: nested heap calls in wrapping mode. -/
namespace Verif.WrapNest

open Verif.Wrap (Kind)

/-- Whatever heap routines call each other, with exceptions or without: the count of the thread is the
number of its active calls, and between calls nothing is left of the adjustment. -/
theorem C76_counters {rep ex : Bool} {s : St} (h : Reach rep ex s) :
    s.pt.depth = s.stack.length ∧ (s.stack = [] → s.pt.adj = 0) := by
  refine ⟨h.inv.depth, fun e => ?_⟩
  rw [h.inv.adj, e]
  rfl

/-- A call has its arguments changed iff its routine is one of malloc, calloc, free, the size query and
(without -replace_realloc) realloc, and no active call has: one call of a nest, the outermost of them,
and with its own arguments. -/
theorem C76_changed {rep ex : Bool} {s s' : St} {r : R} {p n : Nat} {known : Bool} {l : List Act}
    (h : Reach rep ex s) (hs : step rep s (.call r p n known) = some (s', l)) :
    ((∃ q m, Act.args r q m ∈ l) ↔ adjusts rep r = true ∧ ∀ f ∈ s.stack, f.changed = false) ∧
    (∀ t q m, Act.args t q m ∈ l → t = r ∧ q = argBase ⟨r, p, n, true⟩ ∧ m = argSize ⟨r, p, n, true⟩) := by
  have hi := h.inv
  unfold step at hs
  dsimp only at hs
  by_cases hd : r.isDelete = true
  · rw [if_pos hd] at hs
    cases hs
    refine ⟨⟨?_, ?_⟩, ?_⟩
    · rintro ⟨q, m, hm⟩
      cases hm
    · rintro ⟨ha, -⟩
      revert hd ha
      cases r <;> simp [R.isDelete, adjusts]
    · intro t q m hm
      cases hm
  · rw [if_neg hd] at hs
    cases hs
    obtain ⟨h1, h2, -⟩ := enter_inv hi r
    have hrec := recursive_eq h1 h2
    have hbusy : busy s.stack = false ↔ ∀ f ∈ s.stack, f.changed = false := by
      unfold busy
      rw [List.any_eq_false]
      simp
    have key : ∀ pt : Pt, recursive pt = busy s.stack →
        (((∃ q m, Act.args r q m ∈ (handlePre rep pt r p n known).2) ↔
          adjusts rep r = true ∧ busy s.stack = false) ∧
        (∀ t q m, Act.args t q m ∈ (handlePre rep pt r p n known).2 →
          t = r ∧ q = argBase ⟨r, p, n, true⟩ ∧ m = argSize ⟨r, p, n, true⟩)) := by
      intro pt hpt
      unfold handlePre
      rw [hpt]
      cases hb : busy s.stack with
      | true =>
        cases r <;> simp [adjusts]
      | false =>
        cases r <;> simp [adjusts, argBase, argSize]
        · cases rep with
          | true => simp
          | false =>
            by_cases hp : p = 0
            · simp [hp]
            · simp [hp]
    have := key _ hrec
    rw [hbusy] at this
    exact this

/-- A call that was not changed has nothing done for its result. -/
theorem C76_untouched {rep ex : Bool} {s s' : St} {f : Frame} {fs : List Frame} {l : List Act}
    (h : Reach rep ex s) (hst : s.stack = f :: fs) (hf : f.changed = false)
    (hs : step rep s .ret = some (s', l)) : l = [] := by
  have hi := h.inv
  rcases ret_cases (gone := false) hi hs with ⟨e, -, -⟩ | ⟨g, gs, e1, -, -, -, e2⟩
  · rw [hst] at e; cases e
  · rw [hst] at e1
    cases e1
    have hi' : Inv rep ⟨s.pt, f :: fs⟩ := by rw [← hst]; exact hi
    rw [e2]
    exact (ret_unchanged (gone := false) hi' hf).1

/-- A call that was changed has its result taken with the pointer and the size that it was made with,
whatever calls it made in between; a block is taken as zeroed iff it is calloc's; and its kind is that of
the outermost call, or is not known.  Partial: without exceptions (see C76_unwound_*). -/
theorem C76_taken_partial {rep : Bool} {s s' : St} {f : Frame} {fs : List Frame} {l : List Act}
    (h : Reach rep false s) (hst : s.stack = f :: fs) (hf : f.changed = true)
    (hs : step rep s .ret = some (s', l)) :
    ∃ k, (k = .unknown ∨ k = outerKind s.stack) ∧ l = expected f k := by
  have hi := h.inv
  have hc := h.clean
  rcases ret_cases (gone := false) hi hs with ⟨e, -, -⟩ | ⟨g, gs, e1, -, -, -, e2⟩
  · rw [hst] at e; cases e
  · rw [hst] at e1
    cases e1
    have hi' : Inv rep ⟨s.pt, f :: fs⟩ := by rw [← hst]; exact hi
    have hc' : Clean ⟨s.pt, f :: fs⟩ := by rw [← hst]; exact hc
    exact ⟨s.pt.allocator, hc.kind, e2.trans (ret_changed hi' hc' hf).1⟩

/-- Calls only. -/
def Calls : List Ev → Prop
  | [] => True
  | .call _ _ _ _ :: es => Calls es
  | _ :: _ => False

theorem calls_kind {rep : Bool} (es : List Ev) : ∀ {s s' : St} {l : List Act}, Reach rep false s →
    (s.stack = [] ∨ s.pt.allocator = outerKind s.stack) → Calls es → run rep s es = some (s', l) →
    Reach rep false s' ∧ (s'.stack = [] ∨ s'.pt.allocator = outerKind s'.stack) := by
  induction es with
  | nil =>
    intro s s' l h hk _ hr
    cases hr
    exact ⟨h, hk⟩
  | cons e es ih =>
    intro s s' l h hk hc hr
    unfold run at hr
    cases hs : step rep s e with
    | none => rw [hs] at hr; cases hr
    | some a =>
      rw [hs] at hr
      dsimp only at hr
      cases e with
      | ret => exact absurd hc (by simp [Calls])
      | unwind => exact absurd hc (by simp [Calls])
      | call r p n known =>
        have h1 : Reach rep false a.1 := .step h (fun e => by cases e) hs
        have hk1 : a.1.stack = [] ∨ a.1.pt.allocator = outerKind a.1.stack := by
          unfold step at hs
          dsimp only at hs
          by_cases hd : r.isDelete = true
          · rw [if_pos hd] at hs
            cases hs
            dsimp only
            rw [record_delete h.inv h.clean r hd]
            exact hk
          · rw [if_neg hd] at hs
            cases hs
            right
            dsimp only
            have hd' : r.isDelete = false := by simpa using hd
            obtain ⟨-, -, -, g1, -⟩ := handlePre_spec rep (enter (record s.pt r) r) r p n known
            unfold pre
            rw [g1]
            exact (record_kind h.clean h.inv r p n _ hd').2 hk
        cases hr2 : run rep a.1 es with
        | none => rw [hr2] at hr; cases hr
        | some b =>
          rw [hr2] at hr
          dsimp only at hr
          have := ih h1 hk1 hc hr2
          cases hr
          exact this

/-- The first block of a nest of calls is of the kind of the outermost call: operator new[] calling
operator new calling malloc makes a block of new[]. -/
theorem C76_kind_partial {rep : Bool} {s s1 s2 : St} {es : List Ev} {l l' : List Act} {f : Frame} {fs : List Frame}
    (h : Reach rep false s) (hidle : s.stack = []) (hc : Calls es) (hr : run rep s es = some (s1, l))
    (hst : s1.stack = f :: fs) (hf : f.changed = true) (hs : step rep s1 .ret = some (s2, l')) :
    l' = expected f (outerKind s1.stack) := by
  obtain ⟨h1, hk⟩ := calls_kind es h (.inl hidle) hc hr
  rcases ret_cases (gone := false) h1.inv hs with ⟨e, -, -⟩ | ⟨g, gs, e1, -, -, -, e2⟩
  · rw [hst] at e; cases e
  · rw [hst] at e1
    cases e1
    have hi' : Inv rep ⟨s1.pt, f :: fs⟩ := by rw [← hst]; exact h1.inv
    have hc' : Clean ⟨s1.pt, f :: fs⟩ := by rw [← hst]; exact h1.clean
    rcases hk with hk | hk
    · rw [hst] at hk; cases hk
    · rw [e2, ← hk]
      exact (ret_changed hi' hc' hf).1

/-- The fast path is told that a heap routine is active iff one is.  Partial: without exceptions. -/
theorem C76_inheap_partial {rep : Bool} {s : St} (h : Reach rep false s) :
    s.pt.inheap = true ↔ s.stack ≠ [] := by
  rw [h.clean.inheap]
  cases s.stack <;> simp

/-- A free that is changed is reported iff its pointer is not known.  Partial: without exceptions. -/
theorem C76_invalid_free_partial {rep : Bool} {s s' : St} {p n : Nat} {known : Bool} {l : List Act}
    (h : Reach rep false s) (hq : ∀ f ∈ s.stack, f.changed = false)
    (hs : step rep s (.call .free p n known) = some (s', l)) : Act.invalidFree p ∈ l ↔ known = false := by
  have hb : busy s.stack = false := by
    unfold busy
    rw [List.any_eq_false]
    simpa using hq
  obtain ⟨h1, h2, -⟩ := enter_inv h.inv .free
  have hrec := recursive_eq h1 h2
  rw [hb] at hrec
  have hre : (enter (record s.pt .free) .free).inRealloc = false := by
    have e := (record_same s.pt .free).2.2.2.2.2.2.2.2
    unfold enter
    dsimp only
    rw [e, h.clean.realloc, holds_none hb]
  unfold step at hs
  dsimp only at hs
  rw [if_neg (by decide)] at hs
  cases hs
  unfold pre handlePre
  dsimp only
  rw [hrec, hre]
  cases known <;> simp

/-- Eleven active calls and fewer are no trouble: every event can be handled. -/
theorem C76_nesting_partial {rep ex : Bool} {s : St} (h : Reach rep ex s) (hl : s.stack.length < 12) (e : Ev) :
    step rep s e ≠ none := by
  have hd := h.inv.depth
  have hm : s.pt.depth < maxNest := by rw [hd]; exact hl
  cases e with
  | call r p n known =>
    unfold step
    dsimp only
    split <;> simp
  | ret =>
    unfold step
    dsimp only
    split
    · simp
    · unfold hookPost
      rw [if_pos hm]
      simp
  | unwind =>
    unfold step
    dsimp only
    split
    · simp
    · unfold hookPost
      rw [if_pos hm]
      simp

/-- With twelve active calls or more, the next return reads past the end of the arrays. -/
theorem C76_nesting_limit {rep ex : Bool} {s : St} (h : Reach rep ex s) (hl : 12 ≤ s.stack.length) :
    step rep s .ret = none ∧ step rep s .unwind = none := by
  have hd := h.inv.depth
  have hm : ¬ s.pt.depth < maxNest := by
    rw [hd]
    have : maxNest = 12 := rfl
    omega
  unfold step
  dsimp only
  cases hst : s.stack with
  | nil => rw [hst] at hl; exact absurd hl (by decide)
  | cons f fs =>
    dsimp only
    unfold hookPost
    rw [if_neg hm, if_neg hm]
    exact ⟨rfl, rfl⟩

/-! ## Examples -/

/-- operator new[] calls operator new, which calls malloc: malloc is changed, and the block is new[]'s. -/
example : (run true St.init [.call .newArray 0 40 true, .call .new 0 40 true, .call .malloc 0 40 true, .ret, .ret,
    .ret]).map (·.2) = some [.args .malloc 0 40, .block 40 .newArray false] := by decide +kernel

/-- realloc that calls malloc and free is changed, and they are not. -/
example : (run false St.init [.call .realloc 64 40 true, .call .malloc 0 72 true, .ret, .call .free 48 0 true, .ret,
    .ret]).map (·.2) = some [.args .realloc 64 40, .moved 64 40 .malloc] := by decide +kernel

/-- With -replace_realloc the malloc and the free are changed. -/
example : (run true St.init [.call .realloc 64 40 true, .call .malloc 0 40 true, .ret, .call .free 64 0 true, .ret,
    .ret]).map (·.2) = some [.args .malloc 0 40, .block 40 .malloc false, .args .free 64 0] := by decide +kernel

/-- calloc that calls malloc: one block, and it is zeroed. -/
example : (run true St.init [.call .calloc 0 24 true, .call .malloc 0 56 true, .ret, .ret]).map (·.2) =
    some [.args .calloc 0 24, .block 24 .malloc true] := by decide +kernel

/-- The state after the calls of the first example: the hypotheses of C76_kind_partial hold. -/
example : ∃ s1 l, run true St.init [.call .newArray 0 40 true, .call .malloc 0 40 true] = some (s1, l) ∧
    s1.stack = [⟨.malloc, 0, 40, true⟩, ⟨.newArray, 0, 40, false⟩] ∧ outerKind s1.stack = .newArray :=
  ⟨_, _, rfl, by decide +kernel, by decide +kernel⟩

/-- An invalid free is reported. -/
example : (run true St.init [.call .free 64 0 false, .ret]).map (·.2) = some [.invalidFree 64, .args .free 64 0] := by
  decide +kernel

end Verif.WrapNest
