import Verif.FuzzTarget
/-
C75: the descriptor of a fuzz target.
-/
namespace Verif.FuzzTarget

/-! ## The specification -/

/-- What may be in a field: something, without white space and without bars. -/
def Field (s : List Char) : Prop := s ≠ [] ∧ ∀ c ∈ s, isSpace c = false ∧ c ≠ '|'

/-- A number: digits. -/
def Number (s : List Char) : Prop := s ≠ [] ∧ ∀ c ∈ s, c.isDigit = true

/-- The name of a module that a descriptor can give: without the two separators, and not the alias. -/
def ModName (s : List Char) : Prop := Field s ∧ (∀ c ∈ s, c ≠ '!' ∧ c ≠ '+') ∧ s ≠ ['<', 'm', 'a', 'i', 'n', '>']

/-- A symbol: it may have blanks, but no other white space, no bars and no character 1. -/
def SymName (s : List Char) : Prop := s ≠ [] ∧ ∀ c ∈ s, (c = ' ' ∨ isSpace c = false) ∧ c ≠ '|' ∧ c ≠ '\x01'

/-- The fields that follow the target, each after a bar. -/
def tail (fs : List (List Char)) : List Char := fs.flatMap (fun f => '|' :: f)

/-! ## Fields -/

theorem space_iff (c : Char) : isSpace c = true ↔ c = ' ' ∨ c = '\t' ∨ c = '\n' ∨ c = '\r' := by
  unfold isSpace
  simp only [Bool.or_eq_true, beq_iff_eq, or_assoc]

/-- A token without white space. -/
def Solid (s : List Char) : Prop := s ≠ [] ∧ ∀ c ∈ s, isSpace c = false

/-- What comes after a token: nothing, or a blank. -/
def After (r : List Char) : Prop := r = [] ∨ ∃ r', r = ' ' :: r'

theorem takeWhile_solid {s r : List Char} (h : ∀ c ∈ s, isSpace c = false) (hr : After r) :
    (s ++ r).takeWhile (fun c => !isSpace c) = s ∧ (s ++ r).dropWhile (fun c => !isSpace c) = r := by
  induction s with
  | nil =>
    rcases hr with h | ⟨r', h⟩ <;> subst h
    · exact ⟨rfl, rfl⟩
    · exact ⟨rfl, rfl⟩
  | cons a s ih =>
    have ha := h a List.mem_cons_self
    obtain ⟨h1, h2⟩ := ih (fun c hc => h c (List.mem_cons_of_mem _ hc))
    constructor
    · rw [List.cons_append, List.takeWhile_cons, ha]; simp [h1]
    · rw [List.cons_append, List.dropWhile_cons, ha]; simp [h2]

theorem getToken_solid {s r : List Char} (h : Solid s) (hr : After r) : getToken (s ++ r) s.length = some (s, r) := by
  obtain ⟨h0, h⟩ := h
  cases s with
  | nil => exact absurd rfl h0
  | cons a s =>
    have ha := h a List.mem_cons_self
    have hd : (a :: s ++ r).dropWhile isSpace = a :: s ++ r := by
      rw [List.cons_append, List.dropWhile_cons, ha]; simp
    obtain ⟨h1, h2⟩ := takeWhile_solid h hr
    unfold getToken
    dsimp only
    rw [hd, if_neg (by simp), h1, h2, List.take_length]

theorem find_blank {s r : List Char} (h : ∀ c ∈ s, isSpace c = false) :
    (s ++ ' ' :: r).findIdx? (· == ' ') = some s.length := by
  induction s with
  | nil => rfl
  | cons a s ih =>
    have ha := h a List.mem_cons_self
    have : (a == ' ') = false := by
      apply Decidable.byContradiction
      intro hh
      rw [Bool.not_eq_false, beq_iff_eq] at hh
      rw [hh] at ha
      exact absurd ha (by decide)
    rw [List.cons_append, List.findIdx?_cons, this, ih (fun c hc => h c (List.mem_cons_of_mem _ hc))]
    rfl

theorem find_none {s : List Char} (h : ∀ c ∈ s, isSpace c = false) : s.findIdx? (· == ' ') = none := by
  rw [List.findIdx?_eq_none_iff]
  intro c hc
  have := h c hc
  apply Decidable.byContradiction
  intro hh
  rw [Bool.not_eq_false, beq_iff_eq] at hh
  rw [hh] at this
  exact absurd this (by decide)

/-- A field after a blank is read as it is. -/
theorem copyNext_field {s r : List Char} (h : Solid s) (hr : After r) :
    copyNext ⟨false, ' ' :: (s ++ r)⟩ = .ok (s, ⟨false, r⟩) := by
  have hn : findNext ⟨false, ' ' :: (s ++ r)⟩ = .ok (⟨false, s ++ r⟩, s.length) := by
    unfold findNext
    dsimp only [List.tail]
    rw [if_neg (by simp)]
    rcases hr with hr | ⟨r', hr⟩ <;> subst hr
    · rw [List.append_nil, find_none h.2]
      dsimp only
      rw [if_neg h.1]
    · rw [find_blank h.2]
  unfold copyNext
  rw [hn]
  show copyTo ⟨false, s ++ r⟩ s.length = _
  unfold copyTo
  dsimp only
  rw [getToken_solid h hr]

theorem digit_solid {c : Char} (h : c.isDigit = true) : isSpace c = false := by
  apply Decidable.byContradiction
  intro hh
  rw [Bool.not_eq_false, space_iff] at hh
  rcases hh with hh | hh | hh | hh <;> rw [hh] at h <;> exact absurd h (by decide)

theorem digit_not_sign {c : Char} (h : c.isDigit = true) : c ≠ '-' ∧ c ≠ '+' := by
  constructor <;> intro hh <;> rw [hh] at h <;> exact absurd h (by decide)

theorem number_solid {s : List Char} (h : Number s) : Solid s := ⟨h.1, fun c hc => digit_solid (h.2 c hc)⟩

theorem takeWhile_all {s : List Char} {p : Char → Bool} (h : ∀ c ∈ s, p c = true) : s.takeWhile p = s := by
  induction s with
  | nil => rfl
  | cons a s ih =>
    rw [List.takeWhile_cons, h a List.mem_cons_self, ih (fun c hc => h c (List.mem_cons_of_mem _ hc))]
    simp

theorem scanD_number {s : List Char} (h : Number s) : scanD s = some (decVal s % 2 ^ 32) := by
  obtain ⟨h0, h⟩ := h
  cases s with
  | nil => exact absurd rfl h0
  | cons a s =>
    obtain ⟨h1, h2⟩ := digit_not_sign (h a List.mem_cons_self)
    have e1 : ¬ ((a :: s).head? = some '-') := by rw [List.head?_cons]; intro hh; injection hh with hh; exact h1 hh
    have e2 : ¬ ((a :: s).head? = some '+') := by rw [List.head?_cons]; intro hh; injection hh with hh; exact h2 hh
    have e3 : (if (a :: s).head? = some '-' ∨ (a :: s).head? = some '+' then (a :: s).tail else a :: s) = a :: s :=
      if_neg (fun hh => hh.elim e1 e2)
    unfold scanD
    dsimp only
    rw [e3, takeWhile_all h, if_neg h0, if_neg e1]

theorem scanD_neg {s : List Char} (h : Number s) :
    scanD ('-' :: s) = some ((2 ^ 32 - decVal s % 2 ^ 32) % 2 ^ 32) := by
  have e3 : (if ('-' :: s).head? = some '-' ∨ ('-' :: s).head? = some '+' then ('-' :: s).tail else '-' :: s) = s :=
    if_pos (Or.inl rfl)
  have e4 : ('-' :: s).head? = some '-' := rfl
  unfold scanD
  dsimp only
  rw [e3, takeWhile_all h.2, if_neg h.1, if_pos e4]

theorem nextInt_number {s r : List Char} (h : Number s) (hr : After r) :
    nextInt ⟨false, ' ' :: (s ++ r)⟩ = .ok (decVal s % 2 ^ 32, ⟨false, r⟩) := by
  unfold nextInt
  rw [copyNext_field (number_solid h) hr]
  show (match scanD s with | some v => Out.ok (v, (⟨false, r⟩ : Tok)) | none => .abort) = _
  rw [scanD_number h]

theorem nextInt_bad {s r : List Char} (h : Solid s) (hs : scanD s = none) (hr : After r) :
    nextInt ⟨false, ' ' :: (s ++ r)⟩ = .abort := by
  unfold nextInt
  rw [copyNext_field h hr]
  show (match scanD s with | some v => Out.ok (v, (⟨false, r⟩ : Tok)) | none => .abort) = _
  rw [hs]

theorem nextInt_end : nextInt ⟨false, []⟩ = .abort := rfl

/-! ## The descriptor -/

/-- The count of repetitions: a number, or one with a minus. -/
def Count (s : List Char) (v : Nat) : Prop :=
  (Number s ∧ v = decVal s % 2 ^ 32) ∨ (∃ n, s = '-' :: n ∧ Number n ∧ v = (2 ^ 32 - decVal n % 2 ^ 32) % 2 ^ 32)

theorem nextInt_count {s r : List Char} {v : Nat} (h : Count s v) (hr : After r) :
    nextInt ⟨false, ' ' :: (s ++ r)⟩ = .ok (v, ⟨false, r⟩) := by
  rcases h with ⟨h, hv⟩ | ⟨n, hs, h, hv⟩
  · rw [hv]; exact nextInt_number h hr
  · subst hs hv
    have hso : Solid ('-' :: n) := by
      refine ⟨by simp, ?_⟩
      intro c hc
      rcases List.mem_cons.mp hc with hc | hc
      · rw [hc]; decide
      · exact digit_solid (h.2 c hc)
    unfold nextInt
    rw [copyNext_field hso hr]
    show (match scanD ('-' :: n) with | some v => Out.ok (v, (⟨false, r⟩ : Tok)) | none => .abort) = _
    rw [scanD_neg h]

theorem parseArgs_ok (cfg : Cfg) (m : List Char) (f : List Char ⊕ Nat) {a b c r : List Char} {v : Nat}
    (ha : Number a) (hb : Number b) (hc : Number c) (hr : Count r v) {k : List Char} {code n : Nat}
    (hk : (k = [] ∧ code = cfg.dflt) ∨ (∃ k', k = ' ' :: k' ∧ Number k' ∧ code = decVal k' % 2 ^ 32 % 256))
    (hn : regCount cfg.arch code = some n) :
    parseArgs cfg m f ⟨false, ' ' :: (a ++ ' ' :: (b ++ ' ' :: (c ++ ' ' :: (r ++ k))))⟩ =
      .ok ⟨m, f, decVal a % 2 ^ 32, decVal b % 2 ^ 32, decVal c % 2 ^ 32, v, code,
        min (decVal a % 2 ^ 32) n, decVal a % 2 ^ 32 - min (decVal a % 2 ^ 32) n⟩ := by
  have hak : After k := by
    rcases hk with ⟨h, _⟩ | ⟨k', h, _⟩
    · exact Or.inl h
    · exact Or.inr ⟨k', h⟩
  unfold parseArgs
  rw [nextInt_number ha (Or.inr ⟨_, rfl⟩)]
  simp only [Out.bind]
  rw [nextInt_number hb (Or.inr ⟨_, rfl⟩)]
  simp only [Out.bind]
  rw [nextInt_number hc (Or.inr ⟨_, rfl⟩)]
  simp only [Out.bind]
  rw [nextInt_count hr hak]
  simp only [Out.bind]
  rcases hk with ⟨h1, h2⟩ | ⟨k', h1, h2, h3⟩
  · subst h1 h2
    rw [if_neg (by decide)]
    simp only [Out.bind]
    rw [hn]
  · subst h1
    have : hasNext ⟨false, ' ' :: k'⟩ = true := rfl
    rw [if_pos this]
    have hnk := nextInt_number h2 (Or.inl rfl)
    rw [List.append_nil] at hnk
    rw [hnk]
    simp only [Out.bind]
    rw [← h3, hn]

/-- The first part of the descriptor. -/
theorem find_sep {m : List Char} {sep : Char} {r : List Char} (hm : ∀ c ∈ m, c ≠ '!' ∧ c ≠ '+') (hs : sep = '!' ∨ sep = '+') :
    (m ++ sep :: r).findIdx? (fun c => c == '!' || c == '+') = some m.length := by
  induction m with
  | nil => rcases hs with h | h <;> subst h <;> rfl
  | cons a m ih =>
    have ha := hm a List.mem_cons_self
    have : (a == '!' || a == '+') = false := by simp [ha.1, ha.2]
    rw [List.cons_append, List.findIdx?_cons, this, ih (fun c hc => hm c (List.mem_cons_of_mem _ hc))]
    rfl

theorem prep_field {s : List Char} (h : Field s) : s.map prep = s := by
  rw [List.map_congr_left (g := id)]
  · exact List.map_id s
  · intro c hc
    obtain ⟨h1, h2⟩ := h.2 c hc
    have : c ≠ ' ' := by intro hh; rw [hh] at h1; exact absurd h1 (by decide)
    unfold prep
    rw [if_neg this, if_neg h2]
    rfl

theorem field_solid {s : List Char} (h : Field s) : Solid s := ⟨h.1, fun c hc => (h.2 c hc).1⟩

theorem number_field {s : List Char} (h : Number s) : Field s := by
  refine ⟨h.1, fun c hc => ⟨digit_solid (h.2 c hc), ?_⟩⟩
  intro hh
  have := h.2 c hc
  rw [hh] at this
  exact absurd this (by decide)

theorem set_sep (m : List Char) (sep : Char) (r : List Char) : (m ++ sep :: r).set m.length ' ' = m ++ ' ' :: r := by
  induction m with
  | nil => rfl
  | cons a m ih => simp [List.set_cons_succ, ih]

theorem get_sep (m : List Char) (sep : Char) (r : List Char) : (m ++ sep :: r)[m.length]? = some sep := by
  rw [List.getElem?_append_right (Nat.le_refl _), Nat.sub_self]
  rfl

/-- The symbol as it is read. -/
theorem sym_solid {f : List Char} (h : SymName f) : Solid (f.map prep) := by
  refine ⟨by intro hh; exact h.1 (List.map_eq_nil_iff.mp hh), ?_⟩
  intro c hc
  obtain ⟨x, hx, hxc⟩ := List.mem_map.mp hc
  obtain ⟨h1, h2, _⟩ := h.2 x hx
  rw [← hxc]
  unfold prep
  by_cases h3 : x = ' '
  · rw [if_pos h3]; decide
  · rw [if_neg h3, if_neg h2]
    exact h1.resolve_left h3

/-- The parser up to the arguments. -/
theorem parse_front (cfg : Cfg) {m : List Char} (hm : Field m) (hm' : ∀ c ∈ m, c ≠ '!' ∧ c ≠ '+') {sep : Char}
    (hs : sep = '!' ∨ sep = '+') {f : List Char} (hf : Solid (f.map prep)) {r : List Char} (hr : After (r.map prep)) :
    parse cfg (m ++ sep :: (f ++ r)) =
      (resolve cfg m).bind fun name =>
          if sep = '+' then parseOffset cfg name (f.map prep) ⟨false, r.map prep⟩
          else parseArgs cfg name (.inl (mkSymbol cfg name (f.map prep))) ⟨false, r.map prep⟩ := by
  have hsep : prep sep = sep := by rcases hs with h | h <;> subst h <;> decide
  have hmap : (m ++ sep :: (f ++ r)).map prep = m ++ sep :: (f.map prep ++ r.map prep) := by
    rw [List.map_append, List.map_cons, List.map_append, prep_field hm, hsep]
  unfold parse
  dsimp only
  rw [hmap, find_sep hm' hs]
  dsimp only
  rw [set_sep, get_sep]
  have hcp : copyTo ⟨true, m ++ ' ' :: (f.map prep ++ r.map prep)⟩ m.length =
      .ok (m, ⟨false, ' ' :: (f.map prep ++ r.map prep)⟩) := by
    unfold copyTo
    dsimp only
    rw [getToken_solid (field_solid hm) (Or.inr ⟨_, rfl⟩)]
  rw [hcp]
  dsimp only [Out.bind]
  rw [copyNext_field hf hr]
  simp only [Option.some.injEq]

/-- What is behind the function, as it is read. -/
theorem tail_prep {fs : List (List Char)} (h : ∀ f ∈ fs, Field f) : (tail fs).map prep = fs.flatMap (fun f => ' ' :: f) := by
  induction fs with
  | nil => rfl
  | cons f fs ih =>
    have h1 := prep_field (h f List.mem_cons_self)
    have h2 := ih (fun g hg => h g (List.mem_cons_of_mem _ hg))
    unfold tail at *
    rw [List.flatMap_cons, List.flatMap_cons, List.map_append, List.map_cons, h1, h2]
    rfl

theorem after_tail (fs : List (List Char)) : After (fs.flatMap (fun f => ' ' :: f)) := by
  cases fs with
  | nil => exact Or.inl rfl
  | cons f fs => exact Or.inr ⟨_, rfl⟩

theorem count_field {s : List Char} {v : Nat} (h : Count s v) : Field s := by
  rcases h with ⟨h, _⟩ | ⟨n, hs, h, _⟩
  · exact number_field h
  · subst hs
    refine ⟨by simp, ?_⟩
    intro c hc
    rcases List.mem_cons.mp hc with hc | hc
    · rw [hc]; decide
    · exact (number_field h).2 c hc

/-- The calling convention: none, or its code. -/
def Conv (cfg : Cfg) (k : List (List Char)) (code : Nat) : Prop :=
  (k = [] ∧ code = cfg.dflt) ∨ (∃ s, k = [s] ∧ Number s ∧ code = decVal s % 2 ^ 32 % 256)

/-- The arguments of a whole descriptor. -/
theorem args_ok (cfg : Cfg) (m : List Char) (f : List Char ⊕ Nat) {a b c r : List Char} {v : Nat}
    (ha : Number a) (hb : Number b) (hc : Number c) (hr : Count r v) {k : List (List Char)} {code n : Nat}
    (hk : Conv cfg k code) (hn : regCount cfg.arch code = some n) :
    parseArgs cfg m f ⟨false, (tail (a :: b :: c :: r :: k)).map prep⟩ =
      .ok ⟨m, f, decVal a % 2 ^ 32, decVal b % 2 ^ 32, decVal c % 2 ^ 32, v, code,
        min (decVal a % 2 ^ 32) n, decVal a % 2 ^ 32 - min (decVal a % 2 ^ 32) n⟩ := by
  have hfs : ∀ g ∈ a :: b :: c :: r :: k, Field g := by
    intro g hg
    rcases List.mem_cons.mp hg with h | hg
    · rw [h]; exact number_field ha
    rcases List.mem_cons.mp hg with h | hg
    · rw [h]; exact number_field hb
    rcases List.mem_cons.mp hg with h | hg
    · rw [h]; exact number_field hc
    rcases List.mem_cons.mp hg with h | hg
    · rw [h]; exact count_field hr
    rcases hk with ⟨h, _⟩ | ⟨s, h, h2, _⟩
    · rw [h] at hg; cases hg
    · rw [h] at hg
      rw [List.mem_singleton.mp hg]
      exact number_field h2
  rw [tail_prep hfs]
  have he : (a :: b :: c :: r :: k).flatMap (fun f => ' ' :: f) =
      ' ' :: (a ++ ' ' :: (b ++ ' ' :: (c ++ ' ' :: (r ++ k.flatMap (fun f => ' ' :: f))))) := by
    simp [List.flatMap_cons]
  rw [he]
  apply parseArgs_ok cfg m f ha hb hc hr _ hn
  rcases hk with ⟨h, h2⟩ | ⟨s, h, h2, h3⟩
  · left; rw [h]; exact ⟨rfl, h2⟩
  · right; refine ⟨s, ?_, h2, h3⟩; rw [h]; simp [List.flatMap_cons]

/-- The symbol of a plain name. -/
theorem mkSymbol_plain (cfg : Cfg) {m f : List Char} (hm : ∀ c ∈ m, c ≠ '\x01') (hf : SymName f)
    (hq : f.head? ≠ some '?') : mkSymbol cfg m (f.map prep) = stem cfg m ++ '!' :: f := by
  have hback : ∀ s : List Char, (∀ c ∈ s, c ≠ '|' ∧ c ≠ '\x01') →
      (s.map prep).map (fun c => if c = '\x01' then ' ' else c) = s := by
    intro s hs
    rw [List.map_map]
    rw [List.map_congr_left (g := id)]
    · exact List.map_id s
    · intro c hc
      obtain ⟨h1, h2⟩ := hs c hc
      show (if prep c = '\x01' then ' ' else prep c) = c
      unfold prep
      by_cases h : c = ' '
      · rw [if_pos h, if_pos rfl, h]
      · rw [if_neg h, if_neg h1, if_neg h2]
  have hid : ∀ s : List Char, (∀ c ∈ s, c ≠ '\x01') → s.map (fun c => if c = '\x01' then ' ' else c) = s := by
    intro s hs
    rw [List.map_congr_left (g := id)]
    · exact List.map_id s
    · intro c hc; rw [if_neg (hs c hc)]; rfl
  have hhead : ¬ ((f.map prep).head? = some '?') := by
    cases f with
    | nil => exact absurd rfl hf.1
    | cons a f =>
      rw [List.map_cons, List.head?_cons]
      intro hh
      injection hh with hh
      apply hq
      rw [List.head?_cons]
      unfold prep at hh
      split at hh
      · exact absurd hh (by decide)
      · split at hh
        · exact absurd hh (by decide)
        · rw [hh]
  have hstem : ∀ c ∈ stem cfg m, c ≠ '\x01' := by
    intro c hc
    apply hm
    unfold stem at hc
    split at hc
    · rename_i a e hsp
      split at hc
      · unfold splitDot at hsp
        dsimp only at hsp
        split at hsp
        · cases hsp
        · injection hsp with hsp
          injection hsp with h1 h2
          rw [← h1, List.mem_reverse] at hc
          exact List.mem_reverse.mp (List.mem_of_mem_drop hc)
      · exact hc
    · exact hc
  unfold mkSymbol
  rw [if_neg hhead, List.map_append, List.map_cons, hid _ hstem, hback f (fun c hc => ⟨(hf.2 c hc).2.1, (hf.2 c hc).2.2⟩),
    if_neg (by decide)]

/-- The symbol of a mangled name. -/
theorem mkSymbol_mangled (cfg : Cfg) {m f : List Char} (hf : SymName f) (hq : f.head? = some '?') :
    mkSymbol cfg m (f.map prep) = f.map (fun c => if c = '-' then '@' else c) := by
  have hhead : (f.map prep).head? = some '?' := by
    cases f with
    | nil => cases hq
    | cons a f =>
      rw [List.head?_cons] at hq
      injection hq with hq
      subst hq
      rfl
  unfold mkSymbol
  rw [if_pos hhead, List.map_map, List.map_map]
  apply List.map_congr_left
  intro c hc
  obtain ⟨_, h1, h2⟩ := hf.2 c hc
  show (if (if prep c = '-' then '@' else prep c) = '\x01' then ' ' else (if prep c = '-' then '@' else prep c)) = _
  unfold prep
  by_cases hb : c = ' '
  · rw [if_pos hb, hb]; decide
  · rw [if_neg hb, if_neg h1]
    by_cases hd : c = '-'
    · rw [if_pos hd, if_neg (by decide)]
    · rw [if_neg hd, if_neg h2]

end Verif.FuzzTarget
