import Verif.TextUtils
/-!
# Properties C03 and C04: string search and line iteration
-/
namespace Verif.Text

/-! ## C03: strnchr -/

/-- **C03 (strnchr).**  If the memory at `str` has a NUL or at least `max` readable bytes, the call
stops without an out-of-bounds read, and the result is the first occurrence: `some i` iff `i` is the
least index holding `c`, `i < max` and no NUL occurs before `i`; NULL iff there is no such index. -/
theorem C03_strnchr (M : List UInt8) (c : UInt8) (max : Nat)
    (hM : max ≤ M.length ∨ (0 : UInt8) ∈ M) :
    ∃ r, Strnchr M c max r ∧
      (∀ i, r = some i ↔ i < max ∧ M[i]? = some c ∧ ∀ j < i, M[j]? ≠ some c ∧ M[j]? ≠ some 0) ∧
      (r = none ↔ ¬ ∃ i, i < max ∧ M[i]? = some c ∧ ∀ j < i, M[j]? ≠ some 0) := by
  have key : ∃ r, Runs (strnchrStep M c max) 0 r ∧ ∃ r', r = some r' ∧
      (∀ i, r' = some i → i < max ∧ M[i]? = some c ∧ ∀ j < i, M[j]? ≠ some c ∧ M[j]? ≠ some 0) ∧
      (r' = none → ∀ i, i < max → M[i]? = some c → ∃ j < i, M[j]? = some 0) := by
    refine Runs.of_inv (fun i => ∀ j < i, M[j]? ≠ some c ∧ M[j]? ≠ some 0) _ (fun i => max - i)
      ?_ ?_ 0 (by intro j hj; omega)
    · intro i i' hi hs
      unfold strnchrStep at hs
      split at hs
      · simp at hs
      · cases hx : M[i]? with
        | none => simp [hx] at hs
        | some x =>
          simp only [hx] at hs
          split at hs
          · simp at hs
          · split at hs
            · simp at hs
            · simp at hs
              subst hs
              refine ⟨?_, by show max - (i + 1) < max - i; omega⟩
              intro j hj
              by_cases hji : j = i
              · subst hji; simp_all
              · exact hi j (by omega)
    · intro i r hi hs
      unfold strnchrStep at hs
      split at hs
      · simp at hs; subst hs
        refine ⟨none, rfl, by simp, ?_⟩
        intro _ k hk hc
        exact absurd hc (hi k (by omega)).1
      · cases hx : M[i]? with
        | none =>
          exfalso
          rw [List.getElem?_eq_none_iff] at hx
          rcases hM with h | h
          · omega
          · obtain ⟨j, hj, e⟩ := List.getElem_of_mem h
            exact (hi j (by omega)).2 (by rw [List.getElem?_eq_getElem hj, e])
        | some x =>
          simp only [hx] at hs
          split at hs
          · rename_i hxc
            simp at hs; subst hs
            refine ⟨some i, rfl, ?_, by simp⟩
            intro k hk
            injection hk with hk; subst hk
            exact ⟨by omega, by rw [hx, hxc], hi⟩
          · split at hs
            · rename_i hne h0
              simp at hs; subst hs
              refine ⟨none, rfl, by simp, ?_⟩
              intro _ k hk hc
              by_cases h1 : k < i
              · exact absurd hc (hi k h1).1
              · by_cases h2 : k = i
                · subst h2; rw [hx] at hc; injection hc with hc; exact absurd hc hne
                · exact ⟨i, by omega, by rw [hx, h0]⟩
            · simp at hs
  obtain ⟨_, h1, r, rfl, h2, h3⟩ := key
  refine ⟨r, h1, ?_, ?_⟩
  · intro i
    constructor
    · exact h2 i
    · rintro ⟨a, b, d⟩
      cases r with
      | none =>
        obtain ⟨j, hj, e⟩ := h3 rfl i a b
        exact absurd e (d j hj).2
      | some k =>
        obtain ⟨a', b', d'⟩ := h2 k rfl
        have : ¬ k < i := fun h => (d k h).1 b'
        have : ¬ i < k := fun h => (d' i h).1 b
        have : k = i := by omega
        rw [this]
  · constructor
    · rintro rfl ⟨i, a, b, d⟩
      obtain ⟨j, hj, e⟩ := h3 rfl i a b
      exact d j hj e
    · intro h
      cases r with
      | none => rfl
      | some k =>
        obtain ⟨a', b', d'⟩ := h2 k rfl
        exact absurd ⟨k, a', b', fun j hj => (d' j hj).2⟩ h

example : loop (strnchrStep [97, 98, 99, 98, 0] 98 4) 10 0 = some (some (some 1)) := by decide
example : loop (strnchrStep [97, 98, 99, 98, 0] 98 1) 10 0 = some (some none) := by decide

/-! ## C03: strcasestr -/

/-- `P` occurs in `T` at offset `k`, up to ASCII letter case. -/
def OccursAt (T P : List UInt8) (k : Nat) : Prop :=
  k + P.length ≤ T.length ∧
    ∀ j (h : j < P.length) (h' : k + j < T.length), toLower T[k + j] = toLower P[j]

theorem toLower_zero_iff (c : UInt8) : toLower c = 0 ↔ c = 0 := by
  constructor
  · intro e
    unfold toLower at e
    split at e
    · rename_i hh
      have := congrArg UInt8.toNat e
      simp [UInt8.le_iff_toNat_le] at hh
      simp [UInt8.toNat_add] at this
      omega
    · exact e
  · rintro rfl; decide

/-- **C03 (strcasestr).**  The call stops without out-of-bounds reads and returns the least offset at
which the pattern occurs up to case; NULL iff it occurs nowhere. -/
theorem C03_strcasestr (T P : List UInt8) (hT : (0 : UInt8) ∉ T) (hP : (0 : UInt8) ∉ P) :
    ∃ r, Strcasestr T P r ∧
      (∀ k, r = some k ↔ OccursAt T P k ∧ ∀ j < k, ¬ OccursAt T P j) ∧
      (r = none ↔ ∀ k, ¬ OccursAt T P k) := by
  have key : ∃ r, Runs (casestrStep T P) ⟨0, 0, 0⟩ r ∧ ∃ r', r = some r' ∧
      (∀ k, r' = some k → OccursAt T P k ∧ ∀ j < k, ¬ OccursAt T P j) ∧
      (r' = none → ∀ k, ¬ OccursAt T P k) := by
    refine Runs.of_inv
      (fun s : CsSt => s.cur = s.root + s.pat ∧ s.cur ≤ T.length ∧ s.pat ≤ P.length ∧
        (∀ j (h : j < P.length) (h' : s.root + j < T.length), j < s.pat →
          toLower T[s.root + j] = toLower P[j]) ∧ ∀ j < s.root, ¬ OccursAt T P j)
      _ (fun s : CsSt => (T.length - s.root, P.length - s.pat)) ?_ ?_ ⟨0, 0, 0⟩
      ⟨rfl, by simp, by simp, by intro j h h' hj; simp at hj, by intro j hj; simp at hj⟩
    · rintro s s' ⟨hc, hct, hp, hm, hno⟩ hs
      unfold casestrStep at hs
      rcases Nat.lt_or_eq_of_le hp with hp' | hp'
      · rw [rd_lt hp'] at hs
        have hpne : P[s.pat] ≠ 0 := fun e => hP (e ▸ List.getElem_mem hp')
        simp only [hpne, if_false] at hs
        rcases Nat.lt_or_eq_of_le hct with hc' | hc'
        · rw [rd_lt hc'] at hs
          have htne : T[s.cur] ≠ 0 := fun e => hT (e ▸ List.getElem_mem hc')
          simp only [htne, if_false] at hs
          split at hs
          · rename_i heq
            simp at hs; subst hs
            refine ⟨⟨by simp; omega, by simp; omega, by simp; omega, ?_, hno⟩, ?_⟩
            · intro j h h' hj
              simp at hj
              by_cases hjp : j = s.pat
              · subst hjp
                have : s.root + s.pat = s.cur := hc.symm
                simp only [this]; exact heq
              · exact hm j h h' (by omega)
            · exact Prod.Lex.right _ (by show P.length - (s.pat + 1) < P.length - s.pat; omega)
          · rename_i hneq
            simp at hs; subst hs
            refine ⟨⟨by simp, by simp; omega, by simp, by intro j h h' hj; simp at hj, ?_⟩, ?_⟩
            · intro j hj
              by_cases hjr : j = s.root
              · subst hjr
                rintro ⟨hl, ho⟩
                have := ho s.pat hp' (by omega)
                have e : s.root + s.pat = s.cur := hc.symm
                simp only [e] at this
                exact hneq this
              · exact hno j (by simp at hj; omega)
            · exact Prod.Lex.left _ _ (by show T.length - (s.root + 1) < T.length - s.root; omega)
        · rw [hc', rd_len] at hs; simp at hs
      · rw [hp', rd_len] at hs; simp at hs
    · rintro s r ⟨hc, hct, hp, hm, hno⟩ hs
      unfold casestrStep at hs
      rcases Nat.lt_or_eq_of_le hp with hp' | hp'
      · rw [rd_lt hp'] at hs
        have hpne : P[s.pat] ≠ 0 := fun e => hP (e ▸ List.getElem_mem hp')
        simp only [hpne, if_false] at hs
        rcases Nat.lt_or_eq_of_le hct with hc' | hc'
        · rw [rd_lt hc'] at hs
          have htne : T[s.cur] ≠ 0 := fun e => hT (e ▸ List.getElem_mem hc')
          simp only [htne, if_false] at hs
          split at hs <;> simp at hs
        · rw [hc', rd_len] at hs
          simp at hs; subst hs
          refine ⟨none, rfl, by simp, ?_⟩
          intro _ k hk
          by_cases hkr : k < s.root
          · exact hno k hkr hk
          · have := hk.1; omega
      · rw [hp', rd_len] at hs
        simp at hs; subst hs
        refine ⟨some s.root, rfl, ?_, by simp⟩
        intro k hk
        injection hk with hk; subst hk
        exact ⟨⟨by omega, fun j h h' => hm j h h' (by omega)⟩, hno⟩
  obtain ⟨_, h1, r, rfl, h2, h3⟩ := key
  refine ⟨r, h1, ?_, ?_⟩
  · intro k
    constructor
    · exact h2 k
    · rintro ⟨ho, hno⟩
      cases r with
      | none => exact absurd ho (h3 rfl k)
      | some k' =>
        obtain ⟨a, b⟩ := h2 k' rfl
        have : ¬ k' < k := fun h => hno k' h a
        have : ¬ k < k' := fun h => b k h ho
        have : k' = k := by omega
        rw [this]
  · constructor
    · exact h3
    · intro h
      cases r with
      | none => rfl
      | some k' => exact absurd (h2 k' rfl).1 (h k')

-- "aAb" occurs in "aaAB" at 1 (restart after a partial match)
example : loop (casestrStep [97, 97, 65, 66] [97, 65, 98]) 20 ⟨0, 0, 0⟩ = some (some (some 1)) := by
  decide

/-! ## C04 -/

/-- Blank characters trimmed when `skip_ws`. -/
def blank (c : UInt8) : Bool := c == SP || c == TAB
def isCrLf (c : UInt8) : Bool := c == CR || c == LF

/-- Trim blanks on the left. -/
def ltrim (s : List UInt8) : List UInt8 := s.dropWhile blank
/-- Trim blanks on the right. -/
def rtrim (s : List UInt8) : List UInt8 := (s.reverse.dropWhile blank).reverse
/-- Remove one CR at the end. -/
def dropCr (s : List UInt8) : List UInt8 := if s.getLast? = some CR then s.dropLast else s

/-- Text of the memory range `[a, b)`. -/
def slice (M : List UInt8) (a b : Nat) : List UInt8 := (M.drop a).take (b - a)

/-- **C04, violation 1**: a file that starts with an empty line makes the reader access the byte
before the mapping (line 129 reads `*(newline-1)` with `newline == start`). -/
theorem C04_reads_before_mapping :
    ∃ (M : List UInt8) (eof : Nat), eof ≤ M.length ∧ M = [LF, 97, LF, 0] ∧
      findNextLine M 0 eof true = none := ⟨[LF, 97, LF, 0], 3, by decide, rfl, by decide⟩

/-- **C04, violation 2**: if the mapping ends exactly at end-of-file (file size a multiple of the page
size) and the file ends in a newline, the reader accesses the byte after the mapping
(lines 126-128 are not bounded by `eof`). -/
theorem C04_reads_after_mapping :
    ∃ (M : List UInt8), M = [97, LF] ∧ findNextLine M 0 M.length true = none :=
  ⟨[97, LF], rfl, by decide⟩

/-- **C04, violation 3**: the last line is not trimmed when it has no newline: a trailing blank (or
CR) stays part of it, so it does not match the same line in the middle of a file. -/
theorem C04_last_line_untrimmed :
    ∃ (M : List UInt8), M = [97, SP, LF, 97, SP, 0] ∧
      walk M 5 true 10 0 = some [(0, 1), (3, 5)] := ⟨_, rfl, by decide⟩

/-! ### Helper lemmas -/

theorem findNl_found (M seg rest : List UInt8) (eof n i : Nat)
    (hM : M.drop i = seg ++ LF :: rest) (hLF : LF ∉ seg) (h0 : (0 : UInt8) ∉ seg)
    (he : i + seg.length < eof) (hn : seg.length < n) :
    findNl M eof n i = some (some (i + seg.length)) := by
  induction n generalizing seg i with
  | zero => omega
  | succ n ih =>
    have hi : i < M.length := by
      apply Decidable.byContradiction; intro h
      rw [List.drop_eq_nil_of_le (by omega)] at hM
      cases seg <;> simp at hM
    have hd := List.drop_eq_getElem_cons hi
    rw [hM] at hd
    rw [findNl, if_neg (by omega), List.getElem?_eq_getElem hi]
    cases seg with
    | nil =>
      simp only [List.nil_append, List.cons.injEq] at hd
      simp [← hd.1]
    | cons c seg =>
      simp only [List.cons_append, List.cons.injEq] at hd
      have hc : M[i] ≠ LF := by rw [← hd.1]; intro e; exact hLF (by simp [e])
      have hc0 : M[i] ≠ 0 := by rw [← hd.1]; intro e; exact h0 (by simp [e])
      simp only [hc, hc0, if_false]
      rw [ih seg (i + 1) hd.2.symm (fun h => hLF (by simp [h])) (fun h => h0 (by simp [h]))
        (by simp at he; omega) (by simp at hn; omega)]
      simp; omega

theorem findNl_none (M seg rest : List UInt8) (n i : Nat)
    (hM : M.drop i = seg ++ rest) (hLF : LF ∉ seg) (h0 : (0 : UInt8) ∉ seg) :
    findNl M (i + seg.length) n i = some none := by
  induction n generalizing seg i with
  | zero => rfl
  | succ n ih =>
    rw [findNl]
    cases seg with
    | nil => simp
    | cons c seg =>
      have hi : i < M.length := by
        apply Decidable.byContradiction; intro h
        rw [List.drop_eq_nil_of_le (by omega)] at hM
        simp at hM
      have hd := List.drop_eq_getElem_cons hi
      rw [hM] at hd
      simp only [List.cons_append, List.cons.injEq] at hd
      have hc : M[i] ≠ LF := by rw [← hd.1]; intro e; exact hLF (by simp [e])
      have hc0 : M[i] ≠ 0 := by rw [← hd.1]; intro e; exact h0 (by simp [e])
      rw [if_neg (by simp), List.getElem?_eq_getElem hi]
      simp only [hc, hc0, if_false]
      have := ih seg (i + 1) hd.2.symm (fun h => hLF (by simp [h])) (fun h => h0 (by simp [h]))
      rw [← this]; congr 1; simp; omega

theorem skipCrLf_spec (M ws rest : List UInt8) (x : UInt8) (n i : Nat)
    (hM : M.drop i = ws ++ x :: rest) (hws : ∀ c ∈ ws, isCrLf c = true) (hx : isCrLf x = false)
    (hn : ws.length < n) : skipCrLf M n i = some (i + ws.length) := by
  induction n generalizing ws i with
  | zero => omega
  | succ n ih =>
    have hi : i < M.length := by
      apply Decidable.byContradiction; intro h
      rw [List.drop_eq_nil_of_le (by omega)] at hM
      cases ws <;> simp at hM
    have hd := List.drop_eq_getElem_cons hi
    rw [hM] at hd
    rw [skipCrLf, List.getElem?_eq_getElem hi]
    cases ws with
    | nil =>
      simp only [List.nil_append, List.cons.injEq] at hd
      simp [isCrLf] at hx
      simp [← hd.1, hx]
    | cons c ws =>
      simp only [List.cons_append, List.cons.injEq] at hd
      have hc : M[i] = CR ∨ M[i] = LF := by
        have := hws c (by simp)
        simpa [isCrLf, ← hd.1] using this
      simp only [hc, if_true]
      rw [ih ws (i + 1) hd.2.symm (fun c h => hws c (by simp [h])) (by simp at hn; omega)]
      simp; omega

theorem trimFront_spec (M s rest : List UInt8) (i : Nat) (hM : M.drop i = s ++ rest) :
    trimFront M s.length i = some (i + (s.length - (ltrim s).length)) := by
  induction s generalizing i with
  | nil => simp [trimFront, ltrim]
  | cons c s ih =>
    have hi : i < M.length := by
      apply Decidable.byContradiction; intro h
      rw [List.drop_eq_nil_of_le (by omega)] at hM
      simp at hM
    have hd := List.drop_eq_getElem_cons hi
    rw [hM] at hd
    simp only [List.cons_append, List.cons.injEq] at hd
    rw [List.length_cons, trimFront, List.getElem?_eq_getElem hi, ← hd.1]
    have hlen : (ltrim s).length ≤ s.length := by
      unfold ltrim; exact (List.dropWhile_sublist _).length_le
    by_cases hb : c = SP ∨ c = TAB
    · simp only [hb, if_true]
      rw [ih (i + 1) hd.2.symm]
      have : ltrim (c :: s) = ltrim s := by
        unfold ltrim; rw [List.dropWhile_cons_of_pos]; simpa [blank] using hb
      rw [this]; simp; omega
    · simp only [hb, if_false]
      have : ltrim (c :: s) = c :: s := by
        unfold ltrim; rw [List.dropWhile_cons_of_neg]; simpa [blank] using hb
      rw [this]; simp

theorem trimBack_spec (M pre s rest : List UInt8) (hM : M = pre ++ s ++ rest) :
    trimBack M pre.length (pre.length + s.length) = some (pre.length + (rtrim s).length) := by
  induction hs : s.length generalizing s rest with
  | zero =>
    have : s = [] := List.length_eq_zero_iff.mp hs
    subst this
    simp only [Nat.add_zero, rtrim, List.reverse_nil, List.dropWhile_nil, List.length_nil]
    cases hp : pre.length with
    | zero => simp [trimBack]
    | succ k => simp [trimBack]
  | succ n ih =>
    have hne : s ≠ [] := by intro e; subst e; simp at hs
    obtain ⟨t, c, rfl⟩ : ∃ t c, s = t ++ [c] := ⟨s.dropLast, s.getLast hne, (List.dropLast_concat_getLast hne).symm⟩
    simp at hs
    rw [show pre.length + (n + 1) = (pre.length + n) + 1 by omega, trimBack, if_pos (by omega)]
    have hget : M[pre.length + n]? = some c := by
      rw [hM, ← hs]
      simp
    rw [hget]
    simp only
    by_cases hb : c = SP ∨ c = TAB
    · simp only [hb, if_true]
      rw [ih t ([c] ++ rest) (by rw [hM]; simp) hs]
      have : rtrim (t ++ [c]) = rtrim t := by
        unfold rtrim
        rw [List.reverse_append, List.reverse_singleton, List.singleton_append,
          List.dropWhile_cons_of_pos (by simpa [blank] using hb)]
      rw [this]
    · simp only [hb, if_false]
      have : rtrim (t ++ [c]) = t ++ [c] := by
        unfold rtrim
        rw [List.reverse_append, List.reverse_singleton, List.singleton_append,
          List.dropWhile_cons_of_neg (by simpa [blank] using hb)]
        simp
      rw [this]; simp; omega

theorem slice_append (a b c : List UInt8) : slice (a ++ b ++ c) a.length (a.length + b.length) = b := by
  simp [slice]

theorem ltrim_split (s : List UInt8) : s = s.take (s.length - (ltrim s).length) ++ ltrim s := by
  have h : ∃ t, s = t ++ ltrim s := ⟨s.takeWhile blank, (List.takeWhile_append_dropWhile).symm⟩
  obtain ⟨t, h⟩ := h
  have hl : s.length - (ltrim s).length = t.length := by
    have := congrArg List.length h
    rw [List.length_append] at this; omega
  rw [hl]
  generalize ltrim s = u at h
  subst h
  simp

theorem rtrim_prefix (s : List UInt8) : ∃ t, s = rtrim s ++ t := by
  unfold rtrim
  refine ⟨(s.reverse.takeWhile blank).reverse, ?_⟩
  rw [← List.reverse_append, List.takeWhile_append_dropWhile, List.reverse_reverse]

theorem dropCr_prefix (s : List UInt8) : ∃ t, s = dropCr s ++ t := by
  unfold dropCr
  split
  · rename_i h
    rw [List.getLast?_eq_some_iff] at h
    obtain ⟨ys, rfl⟩ := h
    exact ⟨[CR], by simp⟩
  · exact ⟨[], by simp⟩

theorem slice_ltrim (a r c : List UInt8) :
    slice (a ++ r ++ c) (a.length + (r.length - (ltrim r).length)) (a.length + r.length) = ltrim r := by
  have h := ltrim_split r
  have hle : (ltrim r).length ≤ r.length := (List.dropWhile_sublist _).length_le
  have hlen : (r.take (r.length - (ltrim r).length)).length = r.length - (ltrim r).length := by
    rw [List.length_take]; omega
  have := slice_append (a ++ r.take (r.length - (ltrim r).length)) (ltrim r) c
  rw [List.length_append, hlen, List.append_assoc a, ← h] at this
  have e : a.length + (r.length - (ltrim r).length) + (ltrim r).length = a.length + r.length := by omega
  rwa [e] at this

/-- One call on a line that ends in a newline. -/
theorem line_nl (pre seg ws rest : List UInt8) (x : UInt8) (eof : Nat)
    (hseg : seg ≠ []) (hLF : LF ∉ seg) (h0 : (0 : UInt8) ∉ seg)
    (hws : ∀ c ∈ ws, isCrLf c = true) (hx : isCrLf x = false) (he : pre.length + seg.length < eof) :
    findNextLine (pre ++ seg ++ LF :: (ws ++ x :: rest)) pre.length eof true =
      some ⟨pre.length + ((rtrim (dropCr seg)).length - (ltrim (rtrim (dropCr seg))).length),
        pre.length + (rtrim (dropCr seg)).length, pre.length + seg.length + (ws.length + 1)⟩ := by
  generalize hM : pre ++ seg ++ LF :: (ws ++ x :: rest) = M
  have hd1 : M.drop pre.length = seg ++ LF :: (ws ++ x :: rest) := by rw [← hM]; simp
  have hd2 : M.drop (pre.length + seg.length) = (LF :: ws) ++ x :: rest := by
    rw [← hM, ← List.length_append]; simp
  have hlen : M.length = pre.length + seg.length + (ws.length + (rest.length + 1) + 1) := by
    rw [← hM]; simp; omega
  have hprev : rdPrev M (pre.length + seg.length) = seg.getLast? := by
    obtain ⟨t, c, rfl⟩ : ∃ t c, seg = t ++ [c] := ⟨seg.dropLast, seg.getLast hseg, (List.dropLast_concat_getLast hseg).symm⟩
    unfold rdPrev
    rw [if_neg (by simp), ← hM]
    simp
  obtain ⟨c, hc⟩ : ∃ c, seg.getLast? = some c := ⟨_, List.getLast?_eq_some_getLast hseg⟩
  have hnl1 : (if c = CR then pre.length + seg.length - 1 else pre.length + seg.length) =
      pre.length + (dropCr seg).length := by
    unfold dropCr
    rw [hc]
    have : 0 < seg.length := List.length_pos_iff.mpr hseg
    by_cases hcc : c = CR
    · simp [hcc]; omega
    · simp [hcc]
  obtain ⟨t1, ht1⟩ := dropCr_prefix seg
  obtain ⟨t2, ht2⟩ := rtrim_prefix (dropCr seg)
  have hM1 : M = pre ++ dropCr seg ++ (t1 ++ LF :: (ws ++ x :: rest)) := by
    rw [← hM]; conv => lhs; rw [ht1]
    simp
  have hM2 : M = pre ++ rtrim (dropCr seg) ++ (t2 ++ (t1 ++ LF :: (ws ++ x :: rest))) := by
    rw [hM1]; conv => lhs; rw [ht2]
    simp
  have hd3 : M.drop pre.length = rtrim (dropCr seg) ++ (t2 ++ (t1 ++ LF :: (ws ++ x :: rest))) := by
    rw [hM2]; simp
  unfold findNextLine
  rw [findNl_found M seg _ eof _ _ hd1 hLF h0 he (by omega)]
  simp only [Option.bind_eq_bind, Option.bind_some]
  rw [skipCrLf_spec M (LF :: ws) rest x _ _ hd2 (by
      intro c hc; rcases List.mem_cons.mp hc with h | h
      · subst h; rfl
      · exact hws c h) hx (by simp; omega), hprev, hc]
  simp only [Option.bind_some, hnl1]
  simp only [if_true]
  rw [trimBack_spec M pre (dropCr seg) _ hM1]
  simp only [Option.bind_some]
  rw [Nat.add_sub_cancel_left, trimFront_spec M _ _ _ hd3]
  simp

/-- One call on the last line, without a newline. -/
theorem line_last (pre seg rest : List UInt8) (hLF : LF ∉ seg) (h0 : (0 : UInt8) ∉ seg) :
    findNextLine (pre ++ seg ++ rest) pre.length (pre.length + seg.length) true =
      some ⟨pre.length + (seg.length - (ltrim seg).length), pre.length + seg.length,
        pre.length + seg.length + 1⟩ := by
  unfold findNextLine
  rw [findNl_none _ seg rest _ _ (by simp) hLF h0]
  simp only [Option.bind_eq_bind, Option.bind_some, if_true]
  rw [Nat.add_sub_cancel_left, trimFront_spec _ seg rest _ (by simp)]
  simp

/-! ### Specification of the lines of a file -/

/-- Split at LF (a file ending in LF has an empty last segment). -/
def splitLF : List UInt8 → List (List UInt8)
  | [] => [[]]
  | c :: s =>
    if c = LF then [] :: splitLF s
    else match splitLF s with
      | [] => [[c]]
      | h :: t => (c :: h) :: t

/-- Texts of the lines: a terminated line loses one CR and its blanks on both sides; the last,
unterminated one only its leading blanks (see `C04_last_line_untrimmed`). -/
def lineTexts : List (List UInt8) → List (List UInt8)
  | [] => []
  | [last] => [ltrim last]
  | seg :: rest => ltrim (rtrim (dropCr seg)) :: lineTexts rest

/-- The non-empty line texts of a file. -/
def textLines (F : List UInt8) : List (List UInt8) := (lineTexts (splitLF F)).filter (· ≠ [])

theorem splitLF_ne (s : List UInt8) : splitLF s ≠ [] := by
  cases s with
  | nil => simp [splitLF]
  | cons c s =>
    unfold splitLF
    split
    · simp
    · split <;> simp

theorem splitLF_seg (seg tail : List UInt8) (h : LF ∉ seg) :
    splitLF (seg ++ LF :: tail) = seg :: splitLF tail := by
  induction seg with
  | nil => simp [splitLF]
  | cons c seg ih =>
    have hc : c ≠ LF := fun e => h (by simp [e])
    rw [List.cons_append, splitLF, if_neg hc, ih (fun e => h (by simp [e]))]

theorem splitLF_last (seg : List UInt8) (h : LF ∉ seg) : splitLF seg = [seg] := by
  induction seg with
  | nil => simp [splitLF]
  | cons c seg ih =>
    have hc : c ≠ LF := fun e => h (by simp [e])
    rw [splitLF, if_neg hc, ih (fun e => h (by simp [e]))]

theorem textLines_seg (seg tail : List UInt8) (h : LF ∉ seg) :
    textLines (seg ++ LF :: tail) =
      [ltrim (rtrim (dropCr seg))].filter (· ≠ []) ++ textLines tail := by
  unfold textLines
  rw [splitLF_seg seg tail h]
  cases hs : splitLF tail with
  | nil => exact absurd hs (splitLF_ne tail)
  | cons a b => rw [lineTexts, ← List.filter_append]; simp; simp

/-- In the file every CR is directly followed by an LF. -/
def CrBeforeLf (F : List UInt8) : Prop := ∀ i, F[i]? = some CR → F[i + 1]? = some LF

theorem CrBeforeLf.tail {c : UInt8} {s : List UInt8} (h : CrBeforeLf (c :: s)) : CrBeforeLf s :=
  fun i hi => by simpa using h (i + 1) (by simpa using hi)

theorem CrBeforeLf.drop {s : List UInt8} (h : CrBeforeLf s) (n : Nat) : CrBeforeLf (s.drop n) := by
  intro i hi
  rw [List.getElem?_drop] at hi ⊢
  exact h (n + i) hi

theorem textLines_skip (n : Nat) (t : List UInt8) (hn : t.length ≤ n) (h : CrBeforeLf t) :
    textLines t = textLines (t.dropWhile isCrLf) := by
  induction n generalizing t with
  | zero =>
    have : t = [] := List.length_eq_zero_iff.mp (by omega)
    subst this; rfl
  | succ n ih =>
    cases t with
    | nil => rfl
    | cons c s =>
      by_cases hc : c = LF
      · subst hc
        have := textLines_seg [] s (by simp)
        rw [List.nil_append] at this
        rw [this, List.dropWhile_cons_of_pos (by decide), ← ih s (by simp at hn; omega) h.tail]
        simp [dropCr, rtrim, ltrim]
      · by_cases hc' : c = CR
        · subst hc'
          have h1 := h 0 (by simp)
          cases s with
          | nil => simp at h1
          | cons d s =>
            simp at h1
            subst h1
            have := textLines_seg [CR] s (by decide)
            rw [List.singleton_append] at this
            rw [this, List.dropWhile_cons_of_pos (by decide), List.dropWhile_cons_of_pos (by decide),
              ← ih s (by simp at hn; omega) h.tail.tail]
            simp [dropCr, rtrim, ltrim]
        · rw [List.dropWhile_cons_of_neg (by simp [isCrLf, hc, hc'])]

theorem span_ex (p : UInt8 → Bool) (s : List UInt8) :
    ∃ a b, s = a ++ b ∧ (∀ c ∈ a, p c = true) ∧ (∀ c, b.head? = some c → p c = false) ∧
      s.dropWhile p = b := by
  induction s with
  | nil => exact ⟨[], [], rfl, by simp, by simp, rfl⟩
  | cons c s ih =>
    by_cases h : p c = true
    · obtain ⟨a, b, h1, h2, h3, h4⟩ := ih
      refine ⟨c :: a, b, by simp [h1], ?_, h3, by rw [List.dropWhile_cons_of_pos h, h4]⟩
      intro d hd
      rcases List.mem_cons.mp hd with e | e
      · rw [e]; exact h
      · exact h2 d e
    · exact ⟨[], c :: s, rfl, by simp, by intro d hd; simp at hd; subst hd; simpa using h,
        List.dropWhile_cons_of_neg h⟩

theorem walk_ok (n : Nat) (pre S pad : List UInt8) (x : UInt8) (fuel : Nat) (hn : S.length ≤ n)
    (hf : S.length < fuel) (h0 : (0 : UInt8) ∉ S) (hhead : S.head? ≠ some LF) (hcr : CrBeforeLf S)
    (hx : isCrLf x = false) :
    ∃ L, walk (pre ++ S ++ x :: pad) (pre.length + S.length) true fuel pre.length = some L ∧
      (L.map fun p => slice (pre ++ S ++ x :: pad) p.1 p.2).filter (· ≠ []) = textLines S := by
  induction n generalizing pre S fuel with
  | zero =>
    have : S = [] := List.length_eq_zero_iff.mp (by omega)
    subst this
    obtain ⟨f, rfl⟩ : ∃ f, fuel = f + 1 := ⟨fuel - 1, by omega⟩
    exact ⟨[], by simp [walk], by simp [textLines, splitLF, lineTexts, ltrim]⟩
  | succ n ih =>
    obtain ⟨f, rfl⟩ : ∃ f, fuel = f + 1 := ⟨fuel - 1, by omega⟩
    by_cases hS : S = []
    · subst hS
      exact ⟨[], by simp [walk], by simp [textLines, splitLF, lineTexts, ltrim]⟩
    · have hpos : 0 < S.length := List.length_pos_iff.mpr hS
      by_cases hl : LF ∈ S
      · -- a terminated line
        obtain ⟨seg, tail, hsplit, hseg⟩ := List.eq_append_cons_of_mem hl
        have hsegne : seg ≠ [] := by
          intro e; subst e; rw [hsplit] at hhead; simp at hhead
        have hcrt : CrBeforeLf tail := by
          have := hcr.drop (seg.length + 1)
          rw [hsplit] at this
          rw [List.drop_append, List.drop_eq_nil_of_le (by omega)] at this
          simpa using this
        obtain ⟨ws, S', htail, hwsall, hS'head, hS'⟩ := span_ex isCrLf tail
        -- what follows the skipped CR/LFs
        obtain ⟨y, rest, hy, hyrest⟩ : ∃ y rest, S' ++ x :: pad = y :: rest ∧ isCrLf y = false := by
          cases S' with
          | nil => exact ⟨x, pad, rfl, hx⟩
          | cons d t => exact ⟨d, t ++ x :: pad, rfl, hS'head d rfl⟩
        have hM : pre ++ S ++ x :: pad = pre ++ seg ++ LF :: (ws ++ y :: rest) := by
          rw [hsplit, htail, ← hy]; simp
        have hlenS : S.length = seg.length + (ws.length + S'.length + 1) := by
          rw [hsplit, htail]; simp
        have hcall := line_nl pre seg ws rest y (pre.length + S.length) hsegne hseg
          (fun h => h0 (by rw [hsplit]; simp [h])) hwsall hyrest (by omega)
        have hpre' : (pre ++ seg ++ LF :: ws).length = pre.length + seg.length + (ws.length + 1) := by
          simp; omega
        have hM' : pre ++ S ++ x :: pad = (pre ++ seg ++ LF :: ws) ++ S' ++ x :: pad := by
          rw [hsplit, htail]; simp
        obtain ⟨L, hL1, hL2⟩ := ih (pre ++ seg ++ LF :: ws) S' f (by omega) (by omega)
          (fun h => h0 (by rw [hsplit, htail]; simp [h]))
          (fun h => by have := hS'head LF h; exact absurd this (by decide))
          (by
            have := hcrt.drop ws.length
            rw [htail] at this; simpa using this)
        refine ⟨(pre.length + ((rtrim (dropCr seg)).length - (ltrim (rtrim (dropCr seg))).length),
          pre.length + (rtrim (dropCr seg)).length) :: L, ?_, ?_⟩
        · rw [walk, if_pos (by omega), hM, hcall, ← hM]
          simp only [Option.bind_eq_bind, Option.bind_some]
          rw [← hM', hpre'] at hL1
          have e : pre.length + seg.length + (ws.length + 1) + S'.length = pre.length + S.length := by
            omega
          rw [e] at hL1
          rw [hL1]
          rfl
        · rw [List.map_cons]
          rw [← hM'] at hL2
          obtain ⟨t1, ht1⟩ := dropCr_prefix seg
          obtain ⟨t2, ht2⟩ := rtrim_prefix (dropCr seg)
          have hM2 : pre ++ S ++ x :: pad =
              pre ++ rtrim (dropCr seg) ++ (t2 ++ (t1 ++ LF :: (ws ++ y :: rest))) := by
            rw [hM]; conv => lhs; rw [ht1, ht2]
            simp
          rw [hsplit, textLines_seg seg tail hseg, textLines_skip _ tail (Nat.le_refl _) hcrt, hS',
            ← hL2, ← hsplit, ← List.filter_append, List.singleton_append]
          congr 2
          simp only
          rw [hM2]
          exact slice_ltrim _ _ _
      · -- the last line
        obtain ⟨f', rfl⟩ : ∃ f', f = f' + 1 := ⟨f - 1, by omega⟩
        refine ⟨[(pre.length + (S.length - (ltrim S).length), pre.length + S.length)], ?_, ?_⟩
        · rw [walk, if_pos (by omega), line_last pre S _ hl h0]
          simp only [Option.bind_eq_bind, Option.bind_some]
          rw [walk, if_neg (by omega)]; rfl
        · rw [List.map_singleton, slice_ltrim]
          unfold textLines
          rw [splitLF_last S hl]; rfl

/-- **C04 (partial).**  Missing with respect to the full claim: the first byte of the file must not be
LF (violation 1), the mapping must extend at least one byte beyond the file with a byte that is
neither CR nor LF (violation 2; the OS pads the last page with zeros), CR only occurs in CR LF pairs,
and no NUL occurs in the file.  Under these conditions walking the whole file terminates without
an out-of-bounds read and the visited non-empty line texts are exactly the non-empty trimmed lines of
the file, each once and in order. -/
theorem C04_line_walk_partial (F pad : List UInt8) (x : UInt8) (h0 : (0 : UInt8) ∉ F)
    (hhead : F.head? ≠ some LF) (hcr : CrBeforeLf F) (hx : isCrLf x = false) :
    ∃ L, walk (F ++ x :: pad) F.length true (F.length + 1) 0 = some L ∧
      (L.map fun p => slice (F ++ x :: pad) p.1 p.2).filter (· ≠ []) = textLines F := by
  have := walk_ok F.length [] F pad x (F.length + 1) (Nat.le_refl _) (by omega) h0 hhead hcr hx
  simpa using this

-- " a\r\n\n b" has the lines "a" and "b"
example : textLines [32, 97, 13, 10, 10, 32, 98] = [[97], [98]] := by decide
example : walk ([32, 97, 13, 10, 10, 32, 98] ++ [0]) 7 true 8 0 = some [(1, 2), (6, 7)] := by decide

end Verif.Text
