import Verif.FuzzDriverCorpusSeq

/-!
# Where the fuzzing driver does not do what its options say (C71)

Concrete runs with a small mutator: it adds one to every byte, three times.
-/

namespace Verif.FuzzDriver

/-- A mutator that adds one to every byte, three times. -/
def inc : Lib (List Byte × Nat) where
  start b := (b, 0)
  hasNext m := decide (m.2 < 3)
  next m := if m.2 < 3 then some (m.1.map (· + 1), (m.1.map (· + 1), m.2 + 1)) else none
  current m := m.1
  feedback m _ := m

theorem inc_ok : inc.Ok (fun m => m.1.length) where
  start _ := rfl
  next m v m' h := by
    simp only [inc] at h
    split at h
    · simp only [Option.some.injEq, Prod.mk.injEq] at h
      obtain ⟨h1, h2⟩ := h
      rw [← h1, ← h2]
      simp
    · simp at h
  feedback _ _ := rfl
  current _ := rfl

deriving instance DecidableEq for Except

/-- No shadow. -/
def sh0 : Sh := ⟨[], [], []⟩

/-- The target leaves these bytes (zeros after them) and has reached so many blocks. -/
def leaves (l : List Byte) (n : Nat) : Eff := ⟨fun i => l.getD i 0, sh0, some n⟩

/-- The bytes of the fuzzed iterations of a run, or the error. -/
def inputs (c : Cfg) (evs : List Ev) : Except Err (List (List Byte)) :=
  match run inc c (St.init _ c) evs with
  | .error e => .error e
  | .ok (_, os) => .ok ((os.filter (fun p => p.2.fuzzed)).map (fun p => p.2.bytes))

/-- The inputs added to the corpus. -/
def dumped (c : Cfg) (evs : List Ev) : Except Err (List (List Byte)) :=
  match run inc c (St.init _ c) evs with
  | .error e => .error e
  | .ok (s, _) => .ok s.dumps

/-! ## Without a corpus -/

/-- A target that does not write its buffer: three values, then the mutator is
exhausted. -/
example : inputs { iters := -1 } [.call 0 [1, 2] sh0, .done 0 (leaves [2, 3] 1),
    .done 0 (leaves [3, 4] 2), .done 0 (leaves [4, 5] 2)] = .ok [[2, 3], [3, 4], [4, 5]] := by
  decide +kernel

/-- The bytes outside the mutated part are not put back: what the target did to them
in one iteration is there in the next. -/
theorem C71_outside_window :
    inputs { iters := 2, offset := 1 } [.call 0 [7, 1] sh0, .done 0 (leaves [9, 9] 1)] =
      .ok [[7, 2], [9, 3]] := by
  decide +kernel

/-- `-fuzz_one_input` is not used when the first iteration is to run on the input as it
is: with `-fuzz_num_iters 0` the given input is never run. -/
theorem C71_one_input_ignored :
    inputs { iters := 0, singleton := some [5, 6] } [.call 0 [1, 2] sh0, .done 0 (leaves [1, 2] 1)] =
      .ok [[1, 2]] ∧
    inputs { iters := 1, coverage := true, singleton := some [5, 6] }
      [.call 0 [1, 2] sh0, .done 0 (leaves [1, 2] 1)] = .ok [[1, 2]] := by
  decide +kernel

/-- `-fuzz_one_input` is written over the whole buffer, not over the part that
`-fuzz_buffer_offset` and `-fuzz_buffer_fixed_size` choose. -/
theorem C71_one_input_offset :
    inputs { iters := 1, offset := 1, fixed := 1, singleton := some [5, 6, 7] }
      [.call 0 [1, 2, 3] sh0] = .ok [[5, 6, 7]] := by
  decide +kernel

/-- An input file shorter than the buffer leaves the call's bytes after it, and the
size stays that of the call: a dumped input is reproduced only by a call whose
buffer is not larger. -/
theorem C71_short_file :
    inputs { iters := 0, replace := true, input := some (some [5]) } [.call 0 [1, 2] sh0] =
      .ok [[5, 2]] := by
  decide +kernel

/-! ## With a corpus -/

/-- Two files of the buffer's size: each is run, then their mutators take turns. -/
example : inputs { iters := 6, corpus := some [some [1, 1], none, some [5, 5]] }
    [.call 0 [0, 0] sh0, .done 0 (leaves [] 1), .done 0 (leaves [] 1), .done 0 (leaves [] 1),
     .done 0 (leaves [] 1), .done 0 (leaves [] 1), .done 0 (leaves [] 1)] =
      .ok [[1, 1], [5, 5], [2, 2], [6, 6], [3, 3], [7, 7]] := by
  decide +kernel

/-- A mutated input that reaches new blocks is dumped, and its mutator joins. -/
example :
    let c : Cfg := { iters := 4, corpus := some [some [1, 1]] }
    let evs := [Ev.call 0 [0, 0] sh0, .done 0 (leaves [1, 1] 1), .done 0 (leaves [2, 2] 2),
      .done 0 (leaves [3, 3] 2), .done 0 (leaves [3, 3] 2)]
    inputs c evs = .ok [[1, 1], [2, 2], [3, 3], [3, 3]] ∧ dumped c evs = .ok [[2, 2]] := by
  decide +kernel

/-- What is dumped is the buffer after the target returned: a target that writes its
input adds a file that was never run. -/
theorem C71_dump_after :
    let c : Cfg := { iters := 3, corpus := some [some [1, 1]] }
    let evs := [Ev.call 0 [0, 0] sh0, .done 0 (leaves [1, 1] 1), .done 0 (leaves [8, 9] 2)]
    inputs c evs = .ok [[1, 1], [2, 2], [3, 3]] ∧ dumped c evs = .ok [[8, 9]] := by
  decide +kernel

/-- With an offset, the mutator of a new input is started on bytes past the end of a heap
block. -/
theorem C71_copy_overread :
    inputs { iters := 3, offset := 1, corpus := some [some [1, 1]] }
      [.call 0 [0, 0] sh0, .done 0 (leaves [1, 1] 1), .done 0 (leaves [1, 2] 2)] =
      .error .overread := by
  decide +kernel

/-- With a fixed size smaller than the buffer, it is started on heap bytes that were
never written. -/
theorem C71_copy_uninit :
    inputs { iters := 3, fixed := 1, corpus := some [some [1, 1]] }
      [.call 0 [0, 0] sh0, .done 0 (leaves [1, 1] 1), .done 0 (leaves [2, 1] 2)] =
      .error .uninit := by
  decide +kernel

/-- So is it when a later file made the replacement buffer larger. -/
theorem C71_copy_grown :
    inputs { iters := 4, replace := true, corpus := some [some [1], some [5, 5]] }
      [.call 0 [0] sh0, .done 0 (leaves [1] 1), .done 0 (leaves [5, 5] 2),
       .done 0 (leaves [2, 5] 3)] = .error .uninit := by
  decide +kernel

/-- A file shorter than an earlier one is run with the end of what the buffer held. -/
theorem C71_corpus_short :
    inputs { iters := 2, replace := true, corpus := some [some [1, 2, 3], some [9]] }
      [.call 0 [0] sh0, .done 0 (leaves [1, 2, 3] 1)] = .ok [[1, 2, 3], [9, 2, 3]] := by
  decide +kernel

/-- With a corpus and no limit on the iterations, the target is run once only, on the
first file, and never fuzzed again. -/
theorem C71_corpus_once :
    inputs { iters := -1, corpus := some [some [1, 1], some [5, 5]] }
      [.call 0 [0, 0] sh0, .done 0 (leaves [1, 1] 1), .call 0 [0, 0] sh0, .done 0 (leaves [1, 1] 1)] =
      .ok [[1, 1]] := by
  decide +kernel

/-- With a corpus, a mutator that is exhausted is still asked: the target is run again on
what is in the buffer. -/
theorem C71_corpus_exhausted :
    inputs { iters := 6, corpus := some [some [1]] }
      [.call 0 [0] sh0, .done 0 (leaves [1] 1), .done 0 (leaves [2] 1), .done 0 (leaves [3] 1),
       .done 0 (leaves [4] 1), .done 0 (leaves [4] 1)] =
      .ok [[1], [2], [3], [4], [4], [4]] := by
  decide +kernel

/-- When no file can be read, the call's own bytes are run; and when that reaches no
block, they are never mutated. -/
theorem C71_corpus_stuck :
    inputs { iters := 3, corpus := some [none] }
      [.call 0 [4] sh0, .done 0 (leaves [4] 0), .done 0 (leaves [4] 0)] = .ok [[4], [4], [4]] := by
  decide +kernel

/-! ## The hypotheses can be met -/

/-- `C71_pass`: a second call by the fuzzing thread after a skipped one. -/
example : ∃ s os, run inc { iters := 2, skip := 1 } (St.init _ { iters := 2, skip := 1 })
      [.call 3 [1, 2] sh0, .done 3 (leaves [1, 2] 1)] = .ok (s, os) ∧
    s.busy 3 = false ∧ s.enabled = true ∧ s.owner = some 3 ∧ (s.th 3).skip = 0 ∧
    loaded { iters := 2, skip := 1 } [1, 2] = some ([1, 2], false) ∧
    goes inc { iters := 2, skip := 1 } 0 (machAt inc { iters := 2, skip := 1 }
      (inc.start [1, 2]) 0 (fun _ => leaves [2, 3] 1) 1).1 = true := by
  refine ⟨_, _, rfl, ?_⟩
  decide +kernel

/-- `C71_corpus_partial`. -/
example : Whole { iters := 4, corpus := some [some [1, 1]] } ∧
    Fits { iters := 4, corpus := some [some [1, 1]] } [some [1, 1]] 2 ∧
    readable [none, some [], some [1, 1]] = [[1, 1]] ∧
    (∀ u, ¬ passing (St.init (List Byte × Nat) { iters := 4, corpus := some [some [1, 1]] }) u) := by
  refine ⟨⟨rfl, rfl⟩, Or.inl rfl, rfl, ?_⟩
  intro u h
  simp [passing, St.init] at h

/-- `C71_corpus_turns`: no new blocks after the files. -/
example : ∀ j, blocks (fun k => leaves [] (min k 1)) ((readable [some [1, 1], some [2, 2]]).length + j) ≤
    blocks (fun k => leaves [] (min k 1)) ((readable [some [1, 1], some [2, 2]]).length + j - 1) := by
  intro j
  simp only [blocks, leaves, Option.getD_some, readable]
  simp; omega

end Verif.FuzzDriver
