import Verif.WrapNestProps

/- C76: where the counters and flags go wrong. -/
namespace Verif.WrapNest

open Verif.Wrap (Kind)

theorem reach_run {rep ex : Bool} (es : List Ev) : ∀ {s s' : St} {l : List Act}, Reach rep ex s →
    (ex = true ∨ ∀ e ∈ es, e ≠ .unwind) → run rep s es = some (s', l) → Reach rep ex s' := by
  induction es with
  | nil => intro s s' l h _ hr; cases hr; exact h
  | cons e es ih =>
    intro s s' l h hx hr
    unfold run at hr
    cases hs : step rep s e with
    | none => rw [hs] at hr; cases hr
    | some a =>
      rw [hs] at hr
      dsimp only at hr
      cases hr2 : run rep a.1 es with
      | none => rw [hr2] at hr; cases hr
      | some b =>
        rw [hr2] at hr
        have h1 : Reach rep ex a.1 := by
          refine .step h ?_ hs
          intro he
          rcases hx with hx | hx
          · exact hx
          · exact absurd he (hx e (List.mem_cons_self ..))
        have := ih h1 (by
          rcases hx with hx | hx
          · exact .inl hx
          · exact .inr fun x hm => hx x (List.mem_cons_of_mem _ hm)) hr2
        cases hr
        exact this

/-- Twelve nested calls, and the first return of them reads past the end of last_alloc_info: the comment
of enter_heap_routine (alloc.c:5006-5008) has it that a deeper call need not be recorded. -/
theorem C76_twelve_deep : ∃ s l, run true St.init (List.replicate 12 (.call .malloc 0 8 true)) = some (s, l) ∧
    Reach true false s ∧ step true s .ret = none := by
  refine ⟨_, _, rfl, ?_, ?_⟩
  · exact reach_run (List.replicate 12 (.call .malloc 0 8 true)) .init (.inr (by
      intro e he
      rw [List.eq_of_mem_replicate he]
      simp)) rfl
  · refine (C76_nesting_limit (ex := false) (reach_run (List.replicate 12 (.call .malloc 0 8 true)) .init (.inr (by
      intro e he
      rw [List.eq_of_mem_replicate he]
      simp)) rfl) ?_).1
    decide +kernel

/-- operator new whose malloc fails, and which calls it again after the new handler: the kind of the
block is not known, and no mismatch of it is ever reported. -/
theorem C76_second_malloc : (run true St.init [.call .new 0 40 true, .call .malloc 0 40 true, .ret,
    .call .malloc 0 40 true, .ret]).map (·.2) =
    some [.args .malloc 0 40, .block 40 .new false, .args .malloc 0 40, .block 40 .unknown false] := by
  decide +kernel

/-- An exception out of operator new: no heap routine is active, but the fast path goes on ignoring
unaddressable accesses until another heap call returns. -/
theorem C76_unwound_inheap : ∃ s l, run true St.init [.call .new 0 40 true, .call .malloc 0 40 true, .ret, .unwind] =
    some (s, l) ∧ Reach true true s ∧ s.stack = [] ∧ s.pt.depth = 0 ∧ s.pt.inheap = true :=
  ⟨_, _, rfl, reach_run [.call .new 0 40 true, .call .malloc 0 40 true, .ret, .unwind] .init (.inl rfl) rfl,
    by decide +kernel, by decide +kernel, by decide +kernel⟩

/-- An exception out of calloc: the next block of malloc is taken as zeroed, and so as defined; and the
result of the next calloc is not taken at all, though its arguments were changed. -/
theorem C76_unwound_calloc : (run true St.init [.call .calloc 0 24 true, .unwind, .call .malloc 0 40 true, .ret,
    .call .calloc 0 16 true, .ret]).map (·.2) =
    some [.args .calloc 0 24, .args .malloc 0 40, .block 40 .malloc true, .args .calloc 0 16] := by
  decide +kernel

/-- An exception out of realloc: an invalid free after it is not reported. -/
theorem C76_unwound_realloc : (run false St.init [.call .realloc 64 24 true, .unwind, .call .free 96 0 false,
    .ret]).map (·.2) = some [.args .realloc 64 24, .args .free 96 0] := by
  decide +kernel

/-- An exception out of operator new before it has called malloc: a later block of malloc counts as
new's, and its free is reported as a mismatch. -/
theorem C76_unwound_kind : (run true St.init [.call .new 0 40 true, .unwind, .call .malloc 0 16 true,
    .ret]).map (·.2) = some [.args .malloc 0 16, .block 16 .new false] := by
  decide +kernel

end Verif.WrapNest
