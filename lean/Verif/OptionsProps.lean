import Verif.Options

/-!
# Options: quoting, words and assignments

The specification works on the list of the words: `asgs` says which assignments a list of
words stands for, `final` which value an option has after them.
-/

namespace Verif.Options

/-! ## Specification -/

/-- What a list of words assigns to an option: a value, or a string that is added to a
repeatable option. -/
inductive Asg where
  | bool (b : Bool)
  | num (n : Int)
  | str (s : Str)
  | add (s : Str)
deriving DecidableEq

/-- The value a word stands for, for an option whose value is a number. -/
def numOf (ty : Ty) (v : Str) : Except Err Int :=
  match ty with
  | .uint lo hi => readUint (2 ^ 32) lo hi v
  | .uint64 lo hi => readUint (2 ^ 64) lo hi v
  | .int lo hi => readInt lo hi v
  | _ => .error .invalid

/-- The assignments of a list of words: a word that names a switch assigns its value; other
options take the next word.  A string option whose next word starts with a dash gets the
empty string, and that word is read as an option. -/
def asgs (tbl : List Entry) : List Str → Except Err (List (String × Asg))
  | [] => .ok []
  | w :: ws =>
    match lookup tbl w with
    | none => .error .unknown
    | some (e, .set b) => (asgs tbl ws).map ((e.name, .bool b) :: ·)
    | some (e, .value) =>
      match ws with
      | [] => .error .missing
      | v :: vs =>
        match e.ty with
        | .str =>
          if v.head? = some '-' then (asgs tbl (v :: vs)).map ((e.name, .str []) :: ·)
          else (asgs tbl vs).map ((e.name, .str v) :: ·)
        | .multi => (asgs tbl vs).map ((e.name, .add v) :: ·)
        | ty =>
          match numOf ty v with
          | .error x => .error x
          | .ok n => (asgs tbl vs).map ((e.name, .num n) :: ·)

/-- The strings added to an option. -/
def added (n : String) (l : List (String × Asg)) : List Str :=
  l.filterMap fun x => if x.1 = n then (match x.2 with | .add s => some s | _ => none) else none

/-- The last value assigned to an option that is not repeatable. -/
def lastVal (n : String) (l : List (String × Asg)) : Option Val :=
  l.reverse.findSome? fun x =>
    if x.1 = n then
      match x.2 with
      | .bool b => some (.bool b)
      | .num k => some (.num k)
      | .str s => some (.str s)
      | .add _ => none
    else none

/-! ## The words -/

theorem takeWord_app {stop : Char → Bool} : ∀ {n : Nat} {a r : Str}, a.length ≤ n → (∀ c ∈ a, stop c = false) →
    (∀ c ∈ r.head?, stop c = true) → takeWord stop n (a ++ r) = (a, r) := by
  intro n
  induction n with
  | zero =>
    intro a r h _ _
    have : a = [] := List.length_eq_zero_iff.1 (by omega)
    subst this; rfl
  | succ n ih =>
    intro a r h ha hr
    cases a with
    | nil =>
      cases r with
      | nil => rfl
      | cons c r => simp [takeWord, hr c (by simp)]
    | cons c a =>
      simp only [List.cons_append, takeWord, ha c (by simp), Bool.false_eq_true, if_false]
      rw [ih (by simpa using h) (fun c hc => ha c (by simp [hc])) hr]

theorem takeWord_length {stop : Char → Bool} : ∀ {n : Nat} {s : Str},
    (takeWord stop n s).1.length + (takeWord stop n s).2.length = s.length := by
  intro n
  induction n with
  | zero => intro s; simp [takeWord]
  | succ n ih =>
    intro s
    cases s with
    | nil => simp [takeWord]
    | cons c s =>
      simp only [takeWord]
      split
      · simp
      · have := ih (s := s)
        simp only [List.length_cons]
        omega

theorem openQuote_length (s : Str) : (openQuote s).2.length ≤ s.length ∧
    ((openQuote s).1.isSome → (openQuote s).2.length < s.length) := by
  unfold openQuote
  have h : (s.dropWhile isSpace).length ≤ s.length := (List.dropWhile_suffix isSpace).length_le
  split
  · simp
  · rename_i c r e
    rw [e] at h
    simp only [List.length_cons] at h
    split
    · dsimp only; omega
    · simp only [List.length_cons, Option.isSome_none, Bool.false_eq_true, false_implies, and_true]; exact h

theorem closeQuote_length (q : Option Char) (s : Str) : (closeQuote q s).length ≤ s.length := by
  unfold closeQuote
  split
  · split
    · simp
    · simp
  · exact Nat.le_refl _

/-- Every word takes at least one character off the string. -/
theorem getWord_progress {max : Nat} (hm : 2 ≤ max) {s w r : Str} (h : getWord max s = some (w, r)) :
    r.length < s.length := by
  unfold getWord at h
  dsimp only at h
  have h1 := openQuote_length s
  split at h
  · cases h
  · rename_i hne
    cases h
    have h2 := takeWord_length (stop := stopAt (openQuote s).1) (n := max - 1) (s := (openQuote s).2)
    have h3 := closeQuote_length (openQuote s).1 (takeWord (stopAt (openQuote s).1) (max - 1) (openQuote s).2).2
    cases ho : (openQuote s).1 with
    | some q =>
      have := h1.2 (by simp [ho])
      rw [ho] at h2 h3
      omega
    | none =>
      rw [ho] at h2 h3 hne
      cases hw : (takeWord (stopAt none) (max - 1) (openQuote s).2).1 with
      | cons c w =>
        rw [hw] at h2
        simp only [List.length_cons] at h2
        omega
      | nil =>
        exfalso
        have hq : ∀ c ∈ (openQuote s).2.head?, isSpace c = false := by
          unfold openQuote
          have hd := @List.head?_dropWhile_not Char isSpace s
          split
          · simp
          · rename_i c r e
            rw [e] at hd
            split
            · rename_i hqq
              unfold openQuote at ho
              rw [e] at ho
              simp [hqq] at ho
            · simpa using hd
        apply hne
        obtain ⟨m, hm'⟩ : ∃ m, max - 1 = m + 1 := ⟨max - 2, by omega⟩
        rw [hm'] at hw ⊢
        cases hs : (openQuote s).2 with
        | nil => exact ⟨rfl, rfl⟩
        | cons c t =>
          rw [hs] at hw
          have := hq c (by simp [hs])
          simp only [takeWord, stopAt, this, Bool.false_eq_true, if_false] at hw
          cases hw

/-- The frontend's quotes are taken off again. -/
theorem getWord_quote {max : Nat} {sp a r : Str} (hs : ∀ c ∈ sp, isSpace c = true) (ha : '`' ∉ a)
    (hl : a.length < max) : getWord max (sp ++ quoteArg a ++ r) = some (a, ' ' :: r) := by
  have ho : openQuote (sp ++ quoteArg a ++ r) = (some '`', a ++ ('`' :: ' ' :: r)) := by
    unfold openQuote
    have : (sp ++ quoteArg a ++ r).dropWhile isSpace = '`' :: (a ++ ('`' :: ' ' :: r)) := by
      rw [List.append_assoc, List.dropWhile_append_of_pos hs]
      unfold quoteArg
      simp [isSpace]
    rw [this]
    simp [isQuote]
  unfold getWord
  rw [ho]
  dsimp only
  rw [takeWord_app (by omega)]
  · simp [closeQuote]
  · intro c hc
    simp only [stopAt, decide_eq_false_iff_not]
    rintro rfl
    exact ha hc
  · simp [stopAt]

theorem getWord_spaces {max : Nat} {sp : Str} (hs : ∀ c ∈ sp, isSpace c = true) : getWord max sp = none := by
  have : sp.dropWhile isSpace = [] := by
    have := List.dropWhile_append_of_pos (l₂ := []) hs
    simpa using this
  unfold getWord openQuote
  rw [this]
  have : takeWord (stopAt none) (max - 1) [] = ([], []) := by cases max - 1 <;> rfl
  simp [this, closeQuote]

/-! ## The text and the words -/

/-- The effect of an assignment on the state. -/
def apply (t : St) (x : String × Asg) : St :=
  match x.2 with
  | .bool b => t.set x.1 (.bool b)
  | .num n => t.set x.1 (.num n)
  | .str s => t.set x.1 (.str s)
  | .add s =>
    match t.val x.1 with
    | .multi buf => t.set x.1 (.multi (readMulti buf s))
    | v => t.set x.1 v

theorem lookup_some : ∀ {tbl : List Entry} {w : Str} {e : Entry} {a : Say}, lookup tbl w = some (e, a) →
    e ∈ tbl ∧ e.matchWord w = some a := by
  intro tbl
  induction tbl with
  | nil => intro w e a h; cases h
  | cons x tbl ih =>
    intro w e a h
    simp only [lookup] at h
    cases hx : x.matchWord w with
    | some b =>
      rw [hx] at h
      cases h
      exact ⟨List.mem_cons_self, hx⟩
    | none =>
      rw [hx] at h
      exact ⟨List.mem_cons_of_mem _ (ih h).1, (ih h).2⟩

theorem value_ty {e : Entry} {w : Str} (h : e.matchWord w = some .value) : e.ty ≠ .bool := by
  intro hb
  unfold Entry.matchWord at h
  rw [if_pos hb] at h
  split at h
  · cases h
  · split at h <;> cases h

theorem flatten_cons' (a : Str) (as : List Str) : clientOps (a :: as) = quoteArg a ++ clientOps as := by
  simp [clientOps]

theorem set_apply (t : St) (n : String) (a : Asg) (l : List (String × Asg)) :
    List.foldl apply t ((n, a) :: l) = List.foldl apply (apply t (n, a)) l := rfl

/-- Reading the text that the frontend writes gives the assignments of the words. -/
theorem parse_clientOps {max : Nat} {tbl : List Entry} : ∀ (k : Nat) (as : List Str) (fuel : Nat) (sp : Str) (t : St),
    as.length ≤ k → as.length < fuel → (∀ c ∈ sp, isSpace c = true) → (∀ a ∈ as, '`' ∉ a ∧ a.length < max) →
    parse max tbl fuel (sp ++ clientOps as) t =
      match asgs tbl as with
      | .error e => .error e
      | .ok l => .ok (l.foldl apply t) := by
  intro k
  induction k with
  | zero =>
    intro as fuel sp t hk hf hsp _
    have : as = [] := List.length_eq_zero_iff.1 (by omega)
    subst this
    obtain ⟨f, rfl⟩ : ∃ f, fuel = f + 1 := ⟨fuel - 1, by simp at hf; omega⟩
    simp only [clientOps, List.map_nil, List.flatten_nil, List.append_nil, parse, getWord_spaces hsp, asgs]
    rfl
  | succ k ih =>
    intro as fuel sp t hk hf hsp hq
    obtain ⟨f, rfl⟩ : ∃ f, fuel = f + 1 := ⟨fuel - 1, by omega⟩
    cases as with
    | nil =>
      simp only [clientOps, List.map_nil, List.flatten_nil, List.append_nil, parse, getWord_spaces hsp, asgs]
      rfl
    | cons w ws =>
      have hw := hq w (by simp)
      have hq' : ∀ a ∈ ws, '`' ∉ a ∧ a.length < max := fun a ha => hq a (by simp [ha])
      have hk' : ws.length ≤ k := by simpa using hk
      have hf' : ws.length < f := by simpa using hf
      have hsp1 : ∀ c ∈ [' '], isSpace c = true := by simp [isSpace]
      rw [flatten_cons', ← List.append_assoc]
      simp only [parse, getWord_quote hsp hw.1 hw.2]
      rw [asgs]
      cases hl : lookup tbl w with
      | none => rfl
      | some p =>
        obtain ⟨e, a⟩ := p
        cases a with
        | set b =>
          dsimp only
          have := ih ws f [' '] (t.set e.name (.bool b)) hk' hf' hsp1 hq'
          rw [show ' ' :: clientOps ws = [' '] ++ clientOps ws from rfl, this]
          cases asgs tbl ws <;> rfl
        | value =>
          have hty := value_ty (lookup_some hl).2
          dsimp only
          cases ws with
          | nil =>
            have h0 : getWord max (' ' :: clientOps []) = none := getWord_spaces (sp := [' ']) hsp1
            simp only [readValue, h0]
          | cons v vs =>
            have hv := hq' v (by simp)
            have hg : getWord max (' ' :: clientOps (v :: vs)) = some (v, ' ' :: clientOps vs) := by
              rw [flatten_cons']
              exact getWord_quote (sp := [' ']) hsp1 hv.1 hv.2
            have hvs := fun t => ih vs f [' '] t (by simp at hk'; omega) (by simp at hf'; omega) hsp1
              fun a ha => hq' a (by simp [ha])
            have hvvs := fun t => ih (v :: vs) f [' '] t hk' hf' hsp1 hq'
            simp only [List.cons_append, List.nil_append] at hvs hvvs
            simp only [readValue, hg]
            cases hT : e.ty with
            | bool => exact absurd hT hty
            | str =>
              dsimp only
              cases v with
              | nil =>
                rw [if_neg (show ¬ (([] : Str).head? = some '-') by simp)]
                dsimp only
                rw [hvs]
                cases asgs tbl vs <;> rfl
              | cons c v =>
                by_cases hc : c = '-'
                · subst hc
                  rw [if_pos (show ('-' :: v).head? = some '-' from rfl)]
                  change parse max tbl f (' ' :: clientOps (('-' :: v) :: vs)) (t.set e.name (.str [])) = _
                  rw [hvvs]
                  cases asgs tbl (('-' :: v) :: vs) <;> rfl
                · rw [if_neg (by simp [hc])]
                  split
                  · rename_i h
                    split at h
                    · cases h
                    · cases h
                  · rename_i x y h
                    split at h
                    · rename_i h'
                      exact absurd (List.cons.inj h').1 hc
                    · cases h
                      rw [hvs]
                      cases asgs tbl vs <;> rfl
            | multi =>
              dsimp only
              cases hc : t.val e.name with
              | multi buf =>
                dsimp only
                rw [hvs]
                cases asgs tbl vs with
                | error x => rfl
                | ok l => simp only [Except.map, set_apply, apply, hc]
              | bool b =>
                dsimp only
                rw [hvs]
                cases asgs tbl vs with
                | error x => rfl
                | ok l => simp only [Except.map, set_apply, apply, hc]
              | num b =>
                dsimp only
                rw [hvs]
                cases asgs tbl vs with
                | error x => rfl
                | ok l => simp only [Except.map, set_apply, apply, hc]
              | str b =>
                dsimp only
                rw [hvs]
                cases asgs tbl vs with
                | error x => rfl
                | ok l => simp only [Except.map, set_apply, apply, hc]
            | uint lo hi =>
              dsimp only [numOf]
              cases readUint (2 ^ 32) lo hi v with
              | error x => rfl
              | ok n =>
                dsimp only
                rw [hvs]
                cases asgs tbl vs <;> rfl
            | uint64 lo hi =>
              dsimp only [numOf]
              cases readUint (2 ^ 64) lo hi v with
              | error x => rfl
              | ok n =>
                dsimp only
                rw [hvs]
                cases asgs tbl vs <;> rfl
            | int lo hi =>
              dsimp only [numOf]
              cases readInt lo hi v with
              | error x => rfl
              | ok n =>
                dsimp only
                rw [hvs]
                cases asgs tbl vs <;> rfl

end Verif.Options
