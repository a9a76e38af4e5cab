import Verif.FuzzDriverWrong

/-!
# The values of a pass, and reproducing an input (C71)
-/

namespace Verif.FuzzDriver

theorem machAt_plain {M : Type} (L : Lib M) (c : Cfg) (hcov : c.coverage = false) (hit : c.iters ≠ 0)
    (m0 : M) (n0 : Nat) (effs : Nat → Eff) (k : Nat) :
    (machAt L c m0 n0 effs k).1 = stepN L c m0 k := by
  induction k with
  | zero => rfl
  | succ k ih =>
    have hm : mutates c k = true := by simp [mutates, hcov, hit]
    rw [machAt, hm]
    simp only [told, hcov, Bool.false_eq_true, if_false, if_true, ih]
    cases (effs k).bbs <;> rfl

/-- Without coverage guidance, iteration `k` of a pass has the value of the mutator after
`k` earlier values in the mutated part, and outside it what the target left (or the
input): the target's own writes do not reach the mutator. -/
theorem C71_values {M : Type} {L : Lib M} {size : M → Nat} (hL : L.Ok size) (c : Cfg)
    (hcov : c.coverage = false) (hit : c.iters ≠ 0) (hsi : c.singleton = none) (b0 : List Byte)
    (ho : c.offset < b0.length) (n0 : Nat) (effs : Nat → Eff) (k : Nat) (v : List Byte) (m' : M)
    (hv : L.next (stepN L c (L.start (window c b0)) k) = some (v, m')) :
    window c (bytesAt L c (L.start (window c b0)) n0 b0 effs k) = v ∧
    ∀ i, i < c.offset ∨ c.offset + windowLen c b0.length ≤ i →
      (bytesAt L c (L.start (window c b0)) n0 b0 effs k)[i]? = (foundAt b0 effs k)[i]? := by
  have hsz : ∀ j, size (stepN L c (L.start (window c b0)) j) = windowLen c b0.length := by
    intro j
    induction j with
    | zero => exact (hL.start _).trans (window_length c b0 ho)
    | succ j ih => rw [stepN, stepM_size hL, ih]
  have hl : v.length = windowLen c b0.length := ((hL.next _ v m' hv).1).trans (hsz k)
  have hw := windowLen_le c b0.length ho
  have hm : mutates c k = true := by simp [mutates, hcov, hit]
  have hb : bytesAt L c (L.start (window c b0)) n0 b0 effs k =
      splice (foundAt b0 effs k) c.offset v := by
    simp only [bytesAt, hm, if_true, putVal, hsi]
    rw [machAt_plain L c hcov hit, hv]
  have hf := foundAt_length b0 effs k
  rw [hb]
  constructor
  · unfold window
    rw [splice_length _ _ _ (by omega), hf, splice, List.append_assoc, ← hl]
    rw [List.drop_append_of_le_length (by simp; omega), List.drop_of_length_le (by simp; omega),
      List.nil_append, List.take_left']
    rfl
  · intro i hi
    unfold splice
    rcases hi with hi | hi
    · rw [List.append_assoc, List.getElem?_append_left (by simp; omega), List.getElem?_take]
      simp [hi]
    · rw [List.getElem?_append_right (by simp; omega), List.getElem?_drop]
      congr 1
      simp; omega

/-- **An input is reproduced by its file**: with the bytes of an iteration as the input
file, a replaced buffer and `-fuzz_num_iters 0`, a call whose buffer is not larger runs
exactly once, on these bytes and this size, all of them defined. -/
theorem C71_reproduce {M : Type} {L : Lib M} {size : M → Nat} (hL : L.Ok size) (c : Cfg)
    (hc : c.corpus = none) (v : List Byte) (hin : c.input = some (some v)) (hrep : c.replace = true)
    (hit : c.iters = 0) (hun : c.uninit = true) (hist : List Ev) (s : St M) (os0 : List (Nat × Obs))
    (hrun : run L c (St.init M c) hist = .ok (s, os0)) (t : Nat) (b : List Byte) (sh : Sh)
    (hbusy : s.busy t = false) (hen : s.enabled = true) (how : s.owner = none ∨ s.owner = some t)
    (hsk : (s.th t).skip = 0) (ho : c.offset < b.length) (hle : b.length ≤ v.length) (e : Eff) :
    ∃ s', run L c s [.call t b sh, .done t e] =
        .ok (s', [(t, ⟨true, v, { sh with buf := List.replicate v.length 0 }⟩)]) ∧
      s'.busy t = false := by
  have hl : loaded c b = some (v, decide (b.length < v.length)) := by
    unfold loaded load
    rw [hin]
    simp only [hrep, if_true]
    rw [if_neg (by omega)]
    by_cases h : b.length < v.length
    · simp [h]
    · simp only [h, if_false, decide_false, splice, List.take_zero, List.nil_append,
        Option.some.injEq, Prod.mk.injEq, and_true]
      rw [List.drop_of_length_le (by omega), List.append_nil]
  obtain ⟨s1, os, h1, h2, h3, h4, h5⟩ := C71_pass hL c hc hist s os0 hrun t b sh v _ hbusy hen how hsk
    ho hl (fun _ => e) 0 [] rfl (fun j hj => by omega)
  obtain ⟨s2, h6, h7, _⟩ := h5 (by simp [goes, hit])
  have hos : os = [(t, ⟨true, v, { sh with buf := List.replicate v.length 0 }⟩)] := by
    have hall : os.filter (fun p => p.1 == t) = os := by
      rw [List.filter_eq_self]
      intro p hp
      by_cases hpt : p.1 = t
      · simp [hpt]
      · obtain ⟨b', sh', hmem, _⟩ := h3 p hp hpt
        simp at hmem
    rw [← hall, h2]
    have hm : mutates c 0 = false := by simp [mutates, hit]
    simp [bytesAt, hm, foundAt, shAt, hun, shSpec, hrep]
  refine ⟨s2, ?_, h7⟩
  rw [show [Ev.call t b sh, Ev.done t e] = [Ev.call t b sh] ++ [Ev.done t e] from rfl, run_append]
  rw [h1]
  simp only [run, h6, hos, List.append_nil]

/-- `C71_reproduce`: the third input of a pass, `[3, 4]`, run again. -/
example : inputs { iters := 0, replace := true, input := some (some [3, 4]) }
    [.call 0 [1, 2] sh0, .done 0 (leaves [3, 4] 1)] = .ok [[3, 4]] := by
  decide +kernel

/-- `C71_values`: the mutator still has a value. -/
example : inc.next (stepN inc { iters := 5, offset := 1 } (inc.start (window { offset := 1 } [7, 1])) 2) =
    some ([4], ([4], 3)) := by
  decide +kernel

end Verif.FuzzDriver
