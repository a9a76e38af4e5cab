import Verif.LtraceThms
/-!
# C78: what the library tracer takes from its prototype file and prints

Property theorems.  The specification says what the comment at the head of the shipped prototype files
says (/repo/drltrace/drltrace_linux.config: return type, name and arguments separated by `|`, `__out`
and `__inout` mark outputs, "the syntax is not space sensitive").
-/
namespace Verif.Ltrace

namespace Spec

/-- Fields with separators between them. -/
def join (d : Char) : List (List Char) → List Char
  | [] => []
  | [t] => t
  | t :: ts => t ++ d :: join d ts

/-- How an argument is marked. -/
inductive Mark where
  | plain | out | inout
deriving DecidableEq, Repr

/-- The word for a mark. -/
def Mark.text : Mark → List Char
  | .plain => []
  | .out => "__out".toList
  | .inout => "__inout".toList

/-- Blanks and stars, which may stand around the words of a field. -/
def Pad (l : List Char) : Prop := ∀ c ∈ l, c = ' ' ∨ c = '\r' ∨ c = '*'

/-- The types the file may name: the word, what it is, the size of a value in the 64-bit ABI, the name
printed.  The first four and the last two are for both systems. -/
def types (win : Bool) : List (List Char × Ty × Nat × List Char) :=
  [("VOID".toList, .void, 0, "void".toList), ("INT".toList, .signedInt, 4, "int".toList),
   ("LONG".toList, .signedInt, (if win then 4 else 8), "long".toList),
   ("SIZE_T".toList, .sizeT, 8, "size_t".toList),
   ("CHAR".toList, .cstring, 0, "char".toList), ("WCHAR".toList, .cwstring, 0, "wchar_t".toList)] ++
  if win then
    [("HANDLE".toList, .handle, 8, "HANDLE".toList), ("HKEY".toList, .handle, 8, "HKEY".toList),
     ("HDC".toList, .handle, 8, "HDC".toList), ("HFILE".toList, .hfile, 4, "HFILE".toList),
     ("UINT".toList, .unsignedInt, 4, "uint".toList), ("ULONG".toList, .unsignedInt, 4, "ULONG".toList),
     ("ULONGLONG".toList, .unsignedInt, 8, "ULONGLONG".toList),
     ("DWORD".toList, .unsignedInt, 4, "DWORD".toList), ("WORD".toList, .unsignedInt, 2, "WORD".toList),
     ("BYTE".toList, .unsignedInt, 1, "BYTE".toList), ("BOOL".toList, .bool, 4, "BOOL".toList),
     ("LCID".toList, .lcid, 4, "LCID".toList), ("LPARAM".toList, .lparam, 8, "LPARAM".toList),
     ("HMODULE".toList, .hmodule, 8, "HMODULE".toList)]
  else []

/-- A line that says nothing: a comment or an empty line. -/
def Blank (l : List Char) : Prop :=
  l = [] ∨ ∃ r, l = '#' :: r ∨ l = '\n' :: r ∨ l = '\r' :: r

/-- A line with a return type, a name and something after it. -/
def Proto (l ret name rest : List Char) : Prop :=
  '|' ∉ ret ∧ '|' ∉ name ∧ rest ≠ [] ∧ l = ret ++ '|' :: (name ++ '|' :: rest)

end Spec

/-! ## Small facts about letters -/

theorem up_eq (x : Char) (hx : x.toNat < 65 ∨ 90 < x.toNat) (hy : x.toNat < 97 ∨ 122 < x.toNat)
    (c : Char) : up c = x ↔ c = x := by
  unfold up
  by_cases h : 97 ≤ c.toNat ∧ c.toNat ≤ 122
  · rw [if_pos h]
    have hn : (Char.ofNat (c.toNat - 32)).toNat = c.toNat - 32 := by
      have : (c.toNat - 32).isValidChar := Or.inl (by omega)
      unfold Char.ofNat
      rw [dif_pos this]
      rfl
    constructor
    · intro e
      rw [← e, hn] at hx
      omega
    · intro e
      rw [e] at h
      omega
  · rw [if_neg h]

theorem dbl_map_up (w : List Char) : dbl (w.map up) = dbl w := by
  induction w with
  | nil => rfl
  | cons a w ih =>
    cases w with
    | nil => rfl
    | cons b w =>
      show dbl (up a :: up b :: w.map up) = dbl (a :: b :: w)
      rw [dbl, dbl]
      have ih' : dbl (up b :: w.map up) = dbl (b :: w) := ih
      rw [ih']
      have e : ∀ c, (up c == '_') = (c == '_') := by
        intro c
        have := up_eq '_' (by decide) (by decide) c
        by_cases h : c = '_'
        · rw [h]; decide
        · have h2 : up c ≠ '_' := fun h' => h (this.1 h')
          rw [beq_eq_false_iff_ne.2 h, beq_eq_false_iff_ne.2 h2]
      rw [e a, e b]

theorem pad_no_underscore {l : List Char} (h : Spec.Pad l) : '_' ∉ l := by
  intro hm
  rcases h _ hm with e | e | e <;> exact absurd e (by decide)

theorem pad_up {l : List Char} (h : Spec.Pad l) : l.map up = l := by
  induction l with
  | nil => rfl
  | cons c cs ih =>
    rw [List.map_cons, ih (fun x hx => h x (by simp [hx]))]
    rcases h c (by simp) with e | e | e <;> (rw [e]; rfl)

theorem filter_id {p : Char → Bool} {l : List Char} (h : ∀ c ∈ l, p c = true) : l.filter p = l := by
  rw [List.filter_eq_self]; exact h

/-- The letters that are dropped from a type. -/
theorem pad_gone {l : List Char} (h : Spec.Pad l) :
    ((((l.filter (· != '*')).filter (· != ' ')).filter (· != '\r')).filter (· != '\n')) = [] := by
  induction l with
  | nil => rfl
  | cons c cs ih =>
    have hcs := ih (fun x hx => h x (by simp [hx]))
    rcases h c (by simp) with e | e | e <;> (rw [e]; exact hcs)

theorem has_pad (p a s : List Char) (ha : '_' ∉ a) : has ('_' :: p) (a ++ s) = has ('_' :: p) s := by
  induction a with
  | nil => rfl
  | cons c cs ih =>
    have hc : c ≠ '_' := by intro e; exact ha (by simp [e])
    have hcs : '_' ∉ cs := by intro e; exact ha (by simp [e])
    rw [List.cons_append, has, ih hcs]
    have : ('_' :: p).isPrefixOf (c :: (cs ++ s)) = false := by
      cases hh : ('_' :: p).isPrefixOf (c :: (cs ++ s)) with
      | false => rfl
      | true =>
        obtain ⟨r, e⟩ := (prefix_iff _ _).1 hh
        exact absurd (List.cons.inj e).1 hc
    rw [this]; simp

theorem has_here (p s : List Char) : has p (p ++ s) = true :=
  (has_iff _ _).2 ⟨[], s, rfl⟩

/-- The words of the table contain no two underscores in a row and none of the dropped letters. -/
theorem word_ok (win : Bool) (e : List Char × Ty × Nat × List Char) (he : e ∈ Spec.types win) :
    dbl e.1 = false ∧ (∀ c ∈ e.1, c ≠ '*' ∧ c ≠ ' ' ∧ c ≠ '\r' ∧ c ≠ '\n') := by
  have : ∀ win, ∀ e ∈ Spec.types win,
      dbl e.1 = false ∧ (∀ c ∈ e.1, c ≠ '*' ∧ c ≠ ' ' ∧ c ≠ '\r' ∧ c ≠ '\n') := by decide +kernel
  exact this win e he

theorem typeOf_word (win : Bool) (e : List Char × Ty × Nat × List Char) (he : e ∈ Spec.types win)
    (hm : e.1 ≠ "HMODULE".toList) : typeOf win e.1 = e.2 := by
  have : ∀ win, ∀ e ∈ Spec.types win, e.1 ≠ "HMODULE".toList → typeOf win e.1 = e.2 := by
    decide +kernel
  exact this win e he hm

/-- A spelling of a word keeps what the word is free of. -/
theorem spell_ok {w W : List Char} (hw : w.map up = W)
    (h : ∀ c ∈ W, c ≠ '*' ∧ c ≠ ' ' ∧ c ≠ '\r' ∧ c ≠ '\n') :
    ∀ c ∈ w, c ≠ '*' ∧ c ≠ ' ' ∧ c ≠ '\r' ∧ c ≠ '\n' := by
  intro c hc
  have hu : up c ∈ W := by rw [← hw]; exact List.mem_map_of_mem hc
  obtain ⟨h1, h2, h3, h4⟩ := h _ hu
  refine ⟨?_, ?_, ?_, ?_⟩
  · intro e; exact h1 ((up_eq '*' (by decide) (by decide) c).2 e)
  · intro e; exact h2 ((up_eq ' ' (by decide) (by decide) c).2 e)
  · intro e; exact h3 ((up_eq '\r' (by decide) (by decide) c).2 e)
  · intro e; exact h4 ((up_eq '\n' (by decide) (by decide) c).2 e)

/-- The two erasures leave what stands around the mark. -/
theorem erase_marks (q : Spec.Mark) (a r : List Char) (ha : '_' ∉ a) (hr : dbl r = false) :
    erase "__out".toList 0 (erase "__inout".toList 0 (a ++ (q.text ++ r))) = a ++ r := by
  have hd : dbl (a ++ r) = false := by rw [dbl_pad_left a r ha]; exact hr
  cases q with
  | plain =>
    show erase "__out".toList 0 (erase "__inout".toList 0 (a ++ r)) = _
    rw [erase_absent "__inout".toList _ (no_token "inout".toList _ hd),
      erase_absent "__out".toList _ (no_token "out".toList _ hd)]
  | out =>
    have h1 : has "__inout".toList (a ++ ("__out".toList ++ r)) = false := by
      rw [show "__inout".toList = '_' :: "_inout".toList from rfl, has_pad _ _ _ ha]
      show has "__inout".toList ('_' :: '_' :: 'o' :: 'u' :: 't' :: r) = false
      have := no_token "inout".toList r hr
      simp only [has]
      rw [show "__inout".toList = '_' :: '_' :: "inout".toList from rfl, this]
      rfl
    show erase "__out".toList 0 (erase "__inout".toList 0 (a ++ ("__out".toList ++ r))) = _
    rw [erase_absent _ _ h1]
    have := erase_at '_' "_out".toList a r ha
    rw [show '_' :: "_out".toList = "__out".toList from rfl] at this
    rw [this, erase_absent "__out".toList _ (no_token "out".toList _ hr)]
  | inout =>
    have := erase_at '_' "_inout".toList a r ha
    rw [show '_' :: "_inout".toList = "__inout".toList from rfl] at this
    show erase "__out".toList 0 (erase "__inout".toList 0 (a ++ ("__inout".toList ++ r))) = _
    rw [this, erase_absent "__inout".toList _ (no_token "inout".toList _ hr),
      erase_absent "__out".toList _ (no_token "out".toList _ hd)]

theorem dbl_body (b w c W : List Char) (hb : Spec.Pad b) (hc : Spec.Pad c) (hw : w.map up = W)
    (hW : dbl W = false) : dbl (b ++ (w ++ c)) = false := by
  rw [dbl_pad_left _ _ (pad_no_underscore hb), dbl_pad_right _ _ (pad_no_underscore hc),
    ← dbl_map_up, hw]
  exact hW

theorem pad_filter {l : List Char} (p : Char → Bool) (h : Spec.Pad l) : Spec.Pad (l.filter p) :=
  fun c hc => h c (List.mem_filter.1 hc).1

/-! ## C78: fields -/

/-- **C78.**  The pieces a text is cut into contain no separator and, put together again, give the
text; only a separator at the very end is lost. -/
theorem C78_split (d : Char) (s : List Char) :
    (∀ t ∈ split d s, d ∉ t) ∧
      (s = Spec.join d (split d s) ∨ s = Spec.join d (split d s) ++ [d]) := by
  refine ⟨split_free d s, ?_⟩
  generalize hn : s.length = n
  induction n using Nat.strongRecOn generalizing s with
  | _ n ih =>
    rcases cut d s with h | ⟨a, b, ha, hs⟩
    · by_cases h0 : s = []
      · subst h0; left; rfl
      · left; rw [split_last d s h h0]; rfl
    · rw [hs, split_field d a b ha]
      have hlt : b.length < n := by rw [← hn, hs, List.length_append, List.length_cons]; omega
      have hb := ih b.length hlt b rfl
      by_cases h0 : b = []
      · subst h0; right; rfl
      · have h1 : split d b ≠ [] := fun h => h0 ((split_nil_iff d b).1 h)
        cases hsp : split d b with
        | nil => exact absurd hsp h1
        | cons t ts =>
          rw [hsp] at hb
          have e : Spec.join d (a :: t :: ts) = a ++ d :: Spec.join d (t :: ts) := rfl
          rw [e]
          rcases hb with hb | hb
          · left; rw [← hb]
          · right
            rw [List.append_assoc, List.cons_append, ← hb]

/-- **C78.**  Fields free of separators are found again, whatever they are, as long as the last one is
not empty. -/
theorem C78_fields (d : Char) (ts : List (List Char)) (t : List Char) (h : ∀ x ∈ ts, d ∉ x)
    (ht : d ∉ t) (hn : t ≠ []) : split d (Spec.join d (ts ++ [t])) = ts ++ [t] := by
  induction ts with
  | nil => exact split_last d t ht hn
  | cons x ts ih =>
    have e : Spec.join d (x :: ts ++ [t]) = x ++ d :: Spec.join d (ts ++ [t]) := by
      cases ts <;> rfl
    rw [e, split_field d x _ (h x (by simp)), ih (fun y hy => h y (by simp [hy]))]
    rfl

example : split '|' "int|open|char *|int".toList =
    ["int".toList, "open".toList, "char *".toList, "int".toList] := by decide +kernel

/-- **C78** (difference).  An empty last field is not found: a function written with an empty list of
arguments looks as if the separator were not there. -/
theorem C78_last_empty (d : Char) (ts : List (List Char)) (t : List Char) (h : ∀ x ∈ ts, d ∉ x)
    (ht : d ∉ t) (hn : t ≠ []) :
    split d (Spec.join d (ts ++ [t]) ++ [d]) = ts ++ [t] := by
  induction ts with
  | nil =>
    show split d (t ++ d :: []) = [t]
    rw [split_field d t [] ht]; rfl
  | cons x ts ih =>
    have e : Spec.join d (x :: ts ++ [t]) = x ++ d :: Spec.join d (ts ++ [t]) := by
      cases ts <;> rfl
    rw [e, List.append_assoc, List.cons_append, split_field d x _ (h x (by simp)),
      ih (fun y hy => h y (by simp [hy]))]
    rfl

/-! ## C78: types -/

/-- **C78.**  A field of the file is read as written: any type of the table but `HMODULE`, in upper or
lower case, with or without a mark, with blanks and stars anywhere around the words, gives that type,
its size and its name, at the position of the field; it is an input and output if marked `__inout`, an
output if marked `__out`, otherwise an input through a pointer if there is a star and a plain value if
there is none. -/
theorem C78_type_partial (win : Bool) (W : List Char) (ty : Ty) (sz : Nat) (nm : List Char)
    (hW : (W, ty, sz, nm) ∈ Spec.types win) (hm : W ≠ "HMODULE".toList) (q : Spec.Mark)
    (a b w c : List Char) (ha : Spec.Pad a) (hb : Spec.Pad b) (hc : Spec.Pad c) (hw : w.map up = W)
    (i : Nat) :
    parseType win (a ++ (q.text ++ (b ++ (w ++ c)))) i =
      { type := ty
        ordinal := i
        size := sz
        isIn := q = .inout ∨ (q = .plain ∧ '*' ∈ a ++ b ++ c)
        isOut := q ≠ .plain
        inlined := q = .plain ∧ '*' ∉ a ++ b ++ c
        typeName := nm } := by
  obtain ⟨hd, hW2⟩ := word_ok win _ hW
  have hw2 := spell_ok hw hW2
  -- the bare name
  have hbare : bare (a ++ (q.text ++ (b ++ (w ++ c)))) = W := by
    have hwf : w.filter (· != '*') = w := filter_id (fun x hx => by simpa using (hw2 x hx).1)
    have hqf : q.text.filter (· != '*') = q.text := by cases q <;> rfl
    unfold bare
    dsimp only
    rw [erase_star, List.filter_append, List.filter_append, List.filter_append, List.filter_append,
      hwf, hqf]
    rw [erase_marks q _ _ (pad_no_underscore (pad_filter _ ha))
      (dbl_body _ w _ W (pad_filter _ hb) (pad_filter _ hc) hw hd)]
    rw [List.map_append, List.map_append, List.map_append, pad_up (pad_filter _ ha),
      pad_up (pad_filter _ hb), pad_up (pad_filter _ hc), hw]
    simp only [List.filter_append]
    rw [pad_gone ha, pad_gone hb, pad_gone hc]
    have h1 : W.filter (· != ' ') = W := filter_id (fun x hx => by simpa using (hW2 x hx).2.1)
    have h2 : W.filter (· != '\r') = W := filter_id (fun x hx => by simpa using (hW2 x hx).2.2.1)
    have h3 : W.filter (· != '\n') = W := filter_id (fun x hx => by simpa using (hW2 x hx).2.2.2)
    rw [h1, h2, h3]
    simp
  have hstar : has "*".toList (a ++ (q.text ++ (b ++ (w ++ c)))) = decide ('*' ∈ a ++ b ++ c) := by
    have hq : '*' ∉ q.text := by cases q <;> decide
    have hww : '*' ∉ w := fun h => (hw2 _ h).1 rfl
    by_cases h : '*' ∈ a ++ b ++ c
    · rw [decide_eq_true h]
      rw [has_star]
      simp only [List.mem_append] at h ⊢
      rcases h with (h | h) | h
      · exact Or.inl h
      · exact Or.inr (Or.inr (Or.inl h))
      · exact Or.inr (Or.inr (Or.inr (Or.inr h)))
    · rw [decide_eq_false h]
      cases hh : has "*".toList (a ++ (q.text ++ (b ++ (w ++ c)))) with
      | false => rfl
      | true =>
        exfalso
        rw [has_star] at hh
        simp only [List.mem_append] at h hh
        rcases hh with hh | hh | hh | hh | hh
        · exact h (Or.inl (Or.inl hh))
        · exact hq hh
        · exact h (Or.inl (Or.inr hh))
        · exact hww hh
        · exact h (Or.inr hh)
  have hbody := dbl_body b w c W hb hc hw hd
  have hau := pad_no_underscore ha
  have hall : dbl (a ++ (b ++ (w ++ c))) = false := by rw [dbl_pad_left _ _ hau]; exact hbody
  have hmode : mode (a ++ (q.text ++ (b ++ (w ++ c)))) =
      (decide (q = .inout ∨ (q = .plain ∧ '*' ∈ a ++ b ++ c)), decide (q ≠ .plain),
        decide (q = .plain ∧ '*' ∉ a ++ b ++ c)) := by
    unfold mode
    rw [hstar]
    cases q with
    | plain =>
      have h1 : has "__inout".toList (a ++ (Spec.Mark.plain.text ++ (b ++ (w ++ c)))) = false :=
        no_token "inout".toList _ hall
      have h2 : has "__out".toList (a ++ (Spec.Mark.plain.text ++ (b ++ (w ++ c)))) = false :=
        no_token "out".toList _ hall
      rw [h1, h2]
      by_cases h : '*' ∈ a ++ b ++ c <;> simp only [h] <;> rfl
    | out =>
      have h1 : has "__inout".toList (a ++ (Spec.Mark.out.text ++ (b ++ (w ++ c)))) = false := by
        rw [show "__inout".toList = '_' :: "_inout".toList from rfl, has_pad _ _ _ hau]
        show has "__inout".toList ('_' :: '_' :: 'o' :: 'u' :: 't' :: (b ++ (w ++ c))) = false
        have := no_token "inout".toList _ hbody
        simp only [has]
        rw [show "__inout".toList = '_' :: '_' :: "inout".toList from rfl, this]
        rfl
      have h2 : has "__out".toList (a ++ (Spec.Mark.out.text ++ (b ++ (w ++ c)))) = true := by
        rw [show "__out".toList = '_' :: "_out".toList from rfl, has_pad _ _ _ hau]
        exact has_here _ _
      rw [h1, h2]
      simp
    | inout =>
      have h1 : has "__inout".toList (a ++ (Spec.Mark.inout.text ++ (b ++ (w ++ c)))) = true := by
        rw [show "__inout".toList = '_' :: "_inout".toList from rfl, has_pad _ _ _ hau]
        exact has_here _ _
      rw [h1]
      simp
  unfold parseType
  dsimp only
  rw [hbare, hmode, typeOf_word win _ hW hm]

example : parseType false " __inout  Char* ".toList 3 =
    { type := .cstring
      ordinal := 3
      size := 0
      isIn := true
      isOut := true
      inlined := false
      typeName := "char".toList } := by decide +kernel

/-- The words for both systems, and those for Windows only. -/
def both : List (List Char) :=
  ["VOID".toList, "INT".toList, "LONG".toList, "SIZE_T".toList, "CHAR".toList, "WCHAR".toList]

@[inherit_doc both]
def winOnly : List (List Char) :=
  ["HANDLE".toList, "HKEY".toList, "HDC".toList, "HFILE".toList, "HMODULE".toList, "UINT".toList,
   "ULONG".toList, "ULONGLONG".toList, "DWORD".toList, "WORD".toList, "BYTE".toList, "BOOL".toList,
   "LCID".toList, "LPARAM".toList]

theorem both_word : ∀ win, ∀ W ∈ both, ∃ e ∈ Spec.types win, e.1 = W := by decide +kernel

theorem win_word : ∀ W ∈ winOnly, ∃ e ∈ Spec.types true, e.1 = W := by decide +kernel

theorem typeOf_other (win : Bool) (n : List Char) (hb : ∀ W ∈ both, n ≠ W)
    (hw : ∀ W ∈ winOnly, ¬ (win = true ∧ n = W)) :
    typeOf win n = (.unknown, 0, "<unknown>".toList) := by
  simp only [both, winOnly, List.forall_mem_cons] at hb hw
  obtain ⟨b1, b2, b3, b4, b5, b6, _⟩ := hb
  obtain ⟨w1, w2, w3, w4, w5, w6, w7, w8, w9, w10, w11, w12, w13, w14, _⟩ := hw
  unfold typeOf
  rw [if_neg b1, if_neg b2, if_neg b3, if_neg b4, if_neg w1, if_neg w2, if_neg w3, if_neg w4,
    if_neg w5, if_neg w6, if_neg w7, if_neg w8, if_neg w9, if_neg w10, if_neg w11, if_neg w12,
    if_neg w13, if_neg w14, if_neg b5, if_neg b6]

/-- **C78.**  A word that is not in the table is an unknown type of no size. -/
theorem C78_type_other (win : Bool) (s : List Char) (i : Nat)
    (h : ∀ e ∈ Spec.types win, bare s ≠ e.1) :
    (parseType win s i).type = .unknown ∧ (parseType win s i).size = 0 ∧
      (parseType win s i).typeName = "<unknown>".toList := by
  have : typeOf win (bare s) = (.unknown, 0, "<unknown>".toList) := by
    revert h
    generalize bare s = n
    intro h
    have hb : ∀ W ∈ both, n ≠ W := fun W hW => by
      obtain ⟨e, he, h1⟩ := both_word win W hW
      rw [← h1]; exact h e he
    have hw : ∀ W ∈ winOnly, ¬ (win = true ∧ n = W) := fun W hW hx => by
      obtain ⟨e, he, h1⟩ := win_word W hW
      rw [hx.1] at h
      exact h e he (by rw [h1]; exact hx.2)
    exact typeOf_other win n hb hw
  unfold parseType
  dsimp only
  rw [this]
  exact ⟨rfl, rfl, rfl⟩

/-- **C78** (difference).  A module handle is taken to be four bytes long: through a pointer only half of
it is read. -/
theorem C78_hmodule : (parseType true "HMODULE *".toList 0).size = 4 ∧
    ("HMODULE".toList, Ty.hmodule, 8, "HMODULE".toList) ∈ Spec.types true := by decide +kernel

/-- **C78** (difference).  A tab is not dropped: the type is unknown. -/
theorem C78_tab : (parseType false ("int".toList ++ ['\t']) 0).type = .unknown := by decide +kernel

/-! ## C78: lines -/

/-- **C78.**  A line is a prototype exactly when it is not blank and has a return type, a name and
something after it; then the name is taken as written and the arguments are the remaining fields in
order. -/
theorem C78_line (win : Bool) (l name : List Char) (args : List Arg) :
    parseLine win l = .add name args ↔
      ¬ Spec.Blank l ∧ ∃ ret rest, Spec.Proto l ret name rest ∧
        args = parseArgs win 0 (split '|' rest) := by
  have hblank : Spec.Blank l ↔ (l.head? = some '#' ∨
      (l = [] ∨ l.head? = some '\n' ∨ l.head? = some '\r')) := by
    unfold Spec.Blank
    cases l with
    | nil => simp
    | cons c cs =>
      constructor
      · rintro (h | ⟨r, h | h | h⟩)
        · exact absurd h (by simp)
        · left; rw [(List.cons.inj h).1]; rfl
        · right; right; left; rw [(List.cons.inj h).1]; rfl
        · right; right; right; rw [(List.cons.inj h).1]; rfl
      · intro h
        right
        refine ⟨cs, ?_⟩
        simpa using h
  unfold parseLine
  by_cases h1 : l.head? = some '#'
  · rw [if_pos h1]
    constructor
    · intro h; exact absurd h (by simp)
    · rintro ⟨h, _⟩; exact absurd (hblank.2 (Or.inl h1)) h
  · rw [if_neg h1]
    by_cases h2 : l = [] ∨ l.head? = some '\n' ∨ l.head? = some '\r'
    · rw [if_pos h2]
      constructor
      · intro h; exact absurd h (by simp)
      · rintro ⟨h, _⟩; exact absurd (hblank.2 (Or.inr h2)) h
    · rw [if_neg h2]
      have hnb : ¬ Spec.Blank l := fun h => by
        rcases hblank.1 h with h | h
        · exact h1 h
        · exact h2 h
      constructor
      · intro h
        refine ⟨hnb, ?_⟩
        rcases cut '|' l with hl | ⟨a, b, ha, hl⟩
        · rw [split_last '|' l hl (fun e => h2 (Or.inl e))] at h
          exact absurd h (by simp)
        · rw [hl, split_field '|' a b ha] at h
          rcases cut '|' b with hb | ⟨a', b', ha', hb⟩
          · by_cases h0 : b = []
            · rw [h0] at h; exact absurd h (by simp [split])
            · rw [split_last '|' b hb h0] at h
              exact absurd h (by simp)
          · rw [hb, split_field '|' a' b' ha'] at h
            by_cases h0 : b' = []
            · rw [h0] at h; exact absurd h (by simp [split])
            · have hne : split '|' b' ≠ [] := fun e => h0 ((split_nil_iff _ _).1 e)
              cases hsp : split '|' b' with
              | nil => exact absurd hsp hne
              | cons t ts =>
                rw [hsp] at h
                injection h with h3 h4
                subst h3
                exact ⟨a, b', ⟨ha, ha', h0, by rw [hl, hb]⟩, by rw [hsp, ← h4]⟩
      · rintro ⟨_, ret, rest, ⟨hr, hn, h0, hl⟩, harg⟩
        rw [hl, split_field '|' ret _ hr, split_field '|' name _ hn]
        have hne : split '|' rest ≠ [] := fun e => h0 ((split_nil_iff _ _).1 e)
        cases hsp : split '|' rest with
        | nil => exact absurd hsp hne
        | cons t ts =>
          dsimp only
          rw [harg, hsp]

/-- **C78.**  A line is refused exactly when it is neither blank nor a prototype. -/
theorem C78_refused (win : Bool) (l : List Char) :
    parseLine win l = .bad ↔ ¬ Spec.Blank l ∧ ¬ ∃ ret name rest, Spec.Proto l ret name rest := by
  constructor
  · intro h
    refine ⟨?_, ?_⟩
    · intro hb
      unfold parseLine at h
      by_cases h1 : l.head? = some '#'
      · rw [if_pos h1] at h; exact absurd h (by simp)
      · rw [if_neg h1] at h
        have h2 : l = [] ∨ l.head? = some '\n' ∨ l.head? = some '\r' := by
          rcases hb with e | ⟨r, e | e | e⟩
          · exact Or.inl e
          · rw [e] at h1; exact absurd rfl h1
          · rw [e]; exact Or.inr (Or.inl rfl)
          · rw [e]; exact Or.inr (Or.inr rfl)
        rw [if_pos h2] at h
        exact absurd h (by simp)
    · rintro ⟨ret, name, rest, hp⟩
      by_cases hb : Spec.Blank l
      · obtain ⟨_, _, _, _⟩ := hp
        unfold parseLine at h
        by_cases h1 : l.head? = some '#'
        · rw [if_pos h1] at h; exact absurd h (by simp)
        · rw [if_neg h1] at h
          have h2 : l = [] ∨ l.head? = some '\n' ∨ l.head? = some '\r' := by
            rcases hb with e | ⟨r, e | e | e⟩
            · exact Or.inl e
            · rw [e] at h1; exact absurd rfl h1
            · rw [e]; exact Or.inr (Or.inl rfl)
            · rw [e]; exact Or.inr (Or.inr rfl)
          rw [if_pos h2] at h
          exact absurd h (by simp)
      · have := (C78_line win l name _).2 ⟨hb, ret, rest, hp, rfl⟩
        rw [this] at h
        exact absurd h (by simp)
  · rintro ⟨hb, hp⟩
    cases h : parseLine win l with
    | bad => rfl
    | add name args =>
      obtain ⟨_, ret, rest, h1, _⟩ := (C78_line win l name args).1 h
      exact absurd ⟨ret, name, rest, h1⟩ hp
    | skip =>
      exfalso
      apply hb
      unfold parseLine at h
      by_cases h1 : l.head? = some '#'
      · cases l with
        | nil => exact Or.inl rfl
        | cons c cs =>
          have : c = '#' := by simpa using h1
          exact Or.inr ⟨cs, Or.inl (by rw [this])⟩
      · rw [if_neg h1] at h
        by_cases h2 : l = [] ∨ l.head? = some '\n' ∨ l.head? = some '\r'
        · cases l with
          | nil => exact Or.inl rfl
          | cons c cs =>
            rcases h2 with e | e | e
            · exact absurd e (by simp)
            · have : c = '\n' := by simpa using e
              exact Or.inr ⟨cs, Or.inr (Or.inl (by rw [this]))⟩
            · have : c = '\r' := by simpa using e
              exact Or.inr ⟨cs, Or.inr (Or.inr (by rw [this]))⟩
        · rw [if_neg h2] at h
          revert h
          split <;> intro h <;> exact absurd h (by simp)

/-- A function without arguments cannot be written: neither way is a prototype. -/
example : parseLine false "int|rand".toList = .bad ∧ parseLine false "int|rand|".toList = .bad ∧
    parseLine false "int|rand|void".toList =
      .add "rand".toList [parseType false "void".toList 0] := by decide +kernel

/-- A comment that does not start in the first column, or a line of blanks, is refused. -/
example : parseLine false " # strings".toList = .bad ∧ parseLine false "  ".toList = .bad := by
  decide +kernel

/-! ## C78: the file -/

/-- The prototype a line gives for a name; names are compared without regard to case. -/
def Spec.lineFor (win : Bool) (n : List Char) (l : List Char) : Option (List Arg) :=
  match parseLine win l with
  | .add m a => if m.map up = n.map up then some a else none
  | _ => none

theorem lines_search (win : Bool) (n : List Char) : ∀ (ls : List (List Char)) (t t' : List Entry),
    lines win t ls = some t' →
      search t' n = (search t n).or (ls.findSome? (Spec.lineFor win n)) := by
  intro ls
  induction ls with
  | nil =>
    intro t t' h
    have : t = t' := by simpa [lines] using h
    subst this
    simp
  | cons l ls ih =>
    intro t t' h
    rw [lines] at h
    rw [List.findSome?_cons]
    cases hp : parseLine win l with
    | skip =>
      rw [hp] at h
      have e : Spec.lineFor win n l = none := by unfold Spec.lineFor; rw [hp]
      rw [e]
      exact ih t t' h
    | bad => rw [hp] at h; exact absurd h (by simp)
    | add m a =>
      rw [hp] at h
      have := ih (insert t m a) t' h
      rw [this, search_insert]
      cases hs : search t n with
      | some x => simp
      | none =>
        dsimp only
        have e : Spec.lineFor win n l = if m.map up = n.map up then some a else none := by
          unfold Spec.lineFor; rw [hp]
        rw [e]
        by_cases hm : m.map up = n.map up
        · have h2 : same m n = true := by unfold same; rw [hm]; simp
          rw [if_pos hm, if_pos h2]; simp
        · have h2 : ¬ same m n = true := by unfold same; simpa using hm
          rw [if_neg hm, if_neg h2]

theorem mapped_text (f : List Char) (h0 : Char.ofNat 0 ∉ f) (h1 : f.length % 4096 ≠ 0) :
    cstr (mapped f) = some f := by
  unfold mapped
  have : ∃ k, (4096 - f.length % 4096) % 4096 = k + 1 := by
    refine ⟨(4096 - f.length % 4096) % 4096 - 1, ?_⟩
    have := Nat.mod_lt f.length (show 0 < 4096 by decide)
    omega
  obtain ⟨k, hk⟩ := this
  rw [hk, List.replicate_succ]
  exact cstr_free f _ h0

/-- **C78.**  A file of text whose size is not a whole number of pages is used exactly when no line is
refused; then the prototype of a name is the one of the first line for that name, in any case of
letters, and a name without a line has none. -/
theorem C78_file_partial (win : Bool) (f : List Char) (h0 : Char.ofNat 0 ∉ f)
    (h1 : f.length % 4096 ≠ 0) :
    (parseConfig win (some f) = .off ↔ ∃ l ∈ split '\n' f, parseLine win l = .bad) ∧
      (parseConfig win (some f) = .off ∨ ∃ t, parseConfig win (some f) = .on t ∧
        ∀ n, search t n = (split '\n' f).findSome? (Spec.lineFor win n)) := by
  cases f with
  | nil => exact absurd rfl h1
  | cons c cs =>
    have hne : split '\n' (c :: cs) ≠ [] := fun e => absurd ((split_nil_iff _ _).1 e) (by simp)
    have hpc : parseConfig win (some (c :: cs)) =
        (match lines win [] (split '\n' (c :: cs)) with
          | none => .off
          | some t => .on t) := by
      unfold parseConfig
      dsimp only
      rw [mapped_text _ h0 h1]
      dsimp only
      cases hs : split '\n' (c :: cs) with
      | nil => exact absurd hs hne
      | cons l ls => rfl
    rw [hpc]
    have hiff := lines_isSome win (split '\n' (c :: cs)) []
    cases hl : lines win [] (split '\n' (c :: cs)) with
    | none =>
      dsimp only
      refine ⟨?_, Or.inl rfl⟩
      rw [hl] at hiff
      constructor
      · intro _
        by_cases h : ∃ l ∈ split '\n' (c :: cs), parseLine win l = .bad
        · exact h
        · exfalso
          have : (none : Option (List Entry)).isSome = true :=
            hiff.2 (fun l hm e => h ⟨l, hm, e⟩)
          exact absurd this (by simp)
      · intro _; rfl
    | some t =>
      dsimp only
      rw [hl] at hiff
      have hall := hiff.1 rfl
      refine ⟨?_, Or.inr ⟨t, rfl, ?_⟩⟩
      · constructor
        · intro h; exact absurd h (by simp)
        · rintro ⟨l, hm, e⟩; exact absurd e (hall l hm)
      · intro n
        have := lines_search win n _ [] t hl
        rw [this, search_nil]; simp

example : parseConfig false (some "# c\nint|open|char *|int\nint|Open|int\n".toList) =
    .on [("open".toList, [parseType false "char *".toList 0, parseType false "int".toList 1])] := by
  decide +kernel

/-- **C78** (difference).  One refused line anywhere and nothing of the file is used. -/
theorem C78_one_bad_line (win : Bool) (f : List Char) (h0 : Char.ofNat 0 ∉ f)
    (h1 : f.length % 4096 ≠ 0) (l : List Char) (hl : l ∈ split '\n' f) (hb : parseLine win l = .bad) :
    parseConfig win (some f) = .off :=
  (C78_file_partial win f h0 h1).1.2 ⟨l, hl, hb⟩

/-- **C78** (difference).  The file is read beyond the end of its mapping exactly when its size is a
whole number of pages and it contains no zero byte. -/
theorem C78_overrun (win : Bool) (f : List Char) (hf : f ≠ []) :
    parseConfig win (some f) = .overrun ↔ f.length % 4096 = 0 ∧ Char.ofNat 0 ∉ f := by
  cases f with
  | nil => exact absurd rfl hf
  | cons c cs =>
    have h : parseConfig win (some (c :: cs)) = .overrun ↔ cstr (mapped (c :: cs)) = none := by
      unfold parseConfig
      dsimp only
      cases hc : cstr (mapped (c :: cs)) with
      | none => simp
      | some s =>
        dsimp only
        constructor
        · intro h
          exfalso
          revert h
          cases split '\n' s with
          | nil => intro h; exact absurd h (by simp)
          | cons l ls =>
            dsimp only
            cases lines win [] (l :: ls) with
            | none => intro h; exact absurd h (by simp)
            | some t => intro h; exact absurd h (by simp)
        · intro h; exact absurd h (by simp)
    rw [h, cstr_none_iff]
    unfold mapped
    rw [List.mem_append]
    have hlt := Nat.mod_lt (c :: cs).length (show 0 < 4096 by decide)
    constructor
    · intro hm
      refine ⟨?_, fun hx => hm (Or.inl hx)⟩
      by_cases h0 : (c :: cs).length % 4096 = 0
      · exact h0
      · exfalso
        apply hm
        right
        rw [List.mem_replicate]
        exact ⟨by omega, rfl⟩
    · rintro ⟨h0, hx⟩ hm
      rcases hm with hm | hm
      · exact hx hm
      · rw [List.mem_replicate, h0] at hm
        exact hm.1 rfl

example : (List.replicate 4096 '#').length % 4096 = 0 ∧
    Char.ofNat 0 ∉ List.replicate 4096 '#' := by
  refine ⟨by rw [List.length_replicate], ?_⟩
  intro h
  exact absurd (List.mem_replicate.1 h).2 (by decide)

/-- **C78** (difference).  The name is not freed of blanks, though the file's comment says that the
syntax does not depend on them: a blank beside the separator and the prototype is never found. -/
theorem C78_name_blank : ∃ t, parseConfig false (some "int| open|int\n".toList) = .on t ∧
    search t "open".toList = none := ⟨_, rfl, by decide +kernel⟩

/-- **C78** (difference).  Names that differ only in case share one prototype, on Linux too. -/
theorem C78_name_case : ∃ t, parseConfig false (some "int|open|char *\nint|Open|int\n".toList) = .on t ∧
    search t "Open".toList = some [parseType false "char *".toList 0] :=
  ⟨_, rfl, by decide +kernel⟩

/-! ## C78: what is printed -/

/-- **C78.**  Of a call with a prototype, the arguments printed are those below the limit that are not
plain outputs, in order, each with its own value. -/
theorem C78_items (win : Bool) (rd : Mem) (mx : Int) (args : Nat → Nat) (ts : List (List Char)) :
    printArgs win rd mx args (parseArgs win 0 ts) =
      ((ts.take mx.toNat).zipIdx).filterMap
        (fun p => printArg win rd (parseType win p.1 p.2) (args p.2)) := by
  have : ∀ k : Nat, printArgs win rd mx args (parseArgs win k ts) =
      ((ts.take (mx - k).toNat).zipIdx k).filterMap
        (fun p => printArg win rd (parseType win p.1 p.2) (args p.2)) := by
    induction ts with
    | nil => intro k; simp [parseArgs, printArgs]
    | cons t ts ih =>
      intro k
      rw [parseArgs, printArgs]
      have ho : (parseType win t k).ordinal = k := rfl
      rw [ho]
      by_cases h : (k : Int) ≥ mx
      · rw [if_pos h]
        have : (mx - k).toNat = 0 := by omega
        rw [this]; rfl
      · rw [if_neg h]
        have : (mx - k).toNat = (mx - (k + 1 : Nat)).toNat + 1 := by omega
        rw [this, List.take_succ_cons, List.zipIdx_cons, List.filterMap_cons, ih (k + 1)]
        cases printArg win rd (parseType win t k) (args k) <;> rfl
  have h := this 0
  simpa using h

example : printArgs false (fun _ _ => none) 2 (fun i => 10 + i)
    (parseArgs false 0 ["char *".toList, "int".toList, "int".toList]) =
    [{ ordinal := 0
       shown := .text false 10
       typeName := "char".toList
       star := true
       size := 0 },
     { ordinal := 1
       shown := .num false 11 none
       typeName := "int".toList
       star := false
       size := 4 }] := by decide +kernel

/-- **C78.**  Only a plain output is left out; every other argument is printed under its position, with a
star after its type exactly when it is passed through a pointer. -/
theorem C78_left_out (win : Bool) (rd : Mem) (a : Arg) (v : Nat) :
    (printArg win rd a v = none ↔ a.isOut = true ∧ a.isIn = false) ∧
      ∀ it, printArg win rd a v = some it →
        it.ordinal = a.ordinal ∧ it.typeName = a.typeName ∧ it.size = a.size ∧
          (it.star = true ↔ a.inlined = false) ∧ it.shown = shown win rd a v := by
  unfold printArg
  constructor
  · cases a.isOut <;> cases a.isIn <;> simp
  · intro it h
    by_cases hc : (a.isOut && !a.isIn) = true
    · rw [if_pos hc] at h; exact absurd h (by simp)
    · rw [if_neg hc] at h
      have := Option.some.inj h
      rw [← this]
      exact ⟨rfl, rfl, rfl, by simp, rfl⟩

/-- **C78.**  A plain value that is not a character is printed without reading memory: whatever memory
holds, the same is printed; and it is the value of the argument, except that a type without its own
case prints a zero as a null pointer. -/
theorem C78_value (win : Bool) (rd rd' : Mem) (a : Arg) (v : Nat) (hi : a.inlined = true)
    (h1 : a.type ≠ .cstring) (h2 : a.type ≠ .cwstring) :
    shown win rd a v = shown win rd' a v ∧
      ((∃ z, shown win rd a v = .num z v none) ∨ shown win rd a v = .raw v ∨
        (v = 0 ∧ shown win rd a v = .null)) := by
  have hs : ∀ r z, simple r a v z = .num z v none := by intro r z; unfold simple; rw [if_pos hi]
  have hd : dflt v = .raw v ∨ (v = 0 ∧ dflt v = .null) := by
    unfold dflt
    by_cases h : v = 0
    · right; rw [if_pos h]; exact ⟨h, rfl⟩
    · left; rw [if_neg h]
  have e : ∀ r, shown win r a v = match a.type with
      | .void => .num true v none
      | .bool | .signedInt | .unsignedInt | .handle => .num false v none
      | .lcid | .lparam | .sizeT | .hmodule => if win then .num false v none else dflt v
      | .cstring => string v false
      | .cwstring => string v true
      | .unknown | .hfile => dflt v := by
    intro r
    unfold shown
    cases a.type <;> simp only [hs]
  rw [e, e]
  refine ⟨rfl, ?_⟩
  cases ht : a.type with
  | cstring => exact absurd ht h1
  | cwstring => exact absurd ht h2
  | void => exact Or.inl ⟨true, rfl⟩
  | bool => exact Or.inl ⟨false, rfl⟩
  | signedInt => exact Or.inl ⟨false, rfl⟩
  | unsignedInt => exact Or.inl ⟨false, rfl⟩
  | handle => exact Or.inl ⟨false, rfl⟩
  | unknown => exact Or.inr hd
  | hfile => exact Or.inr hd
  | lcid => cases win with
    | true => exact Or.inl ⟨false, rfl⟩
    | false => exact Or.inr hd
  | lparam => cases win with
    | true => exact Or.inl ⟨false, rfl⟩
    | false => exact Or.inr hd
  | sizeT => cases win with
    | true => exact Or.inl ⟨false, rfl⟩
    | false => exact Or.inr hd
  | hmodule => cases win with
    | true => exact Or.inl ⟨false, rfl⟩
    | false => exact Or.inr hd

/-- **C78.**  An integer passed through a pointer as an input is printed as the pointer and the number
found there, of the size of the type; nothing is shown for it if it cannot be read. -/
theorem C78_pointee (win : Bool) (rd : Mem) (a : Arg) (v : Nat) (hi : a.inlined = false)
    (hin : a.isIn = true)
    (ht : a.type = .signedInt ∨ a.type = .unsignedInt ∨ a.type = .bool ∨ a.type = .handle) :
    shown win rd a v = .num true v (rd v a.size) := by
  have hs : ∀ z, simple rd a v z = .num true v (rd v a.size) := by
    intro z
    unfold simple
    rw [if_neg (by rw [hi]; simp), if_pos hin]
  unfold shown
  rcases ht with h | h | h | h <;> rw [h] <;> exact hs false

/-- **C78.**  A string argument is printed as the string at the pointer, and a null one as such. -/
theorem C78_string (win : Bool) (rd : Mem) (a : Arg) (v : Nat) :
    (a.type = .cstring → shown win rd a v = if v = 0 then .null else .text false v) ∧
      (a.type = .cwstring → shown win rd a v = if v = 0 then .null else .text true v) := by
  constructor
  · intro h; unfold shown; rw [h]; rfl
  · intro h; unfold shown; rw [h]; rfl

/-- **C78** (difference).  A character passed by value is taken for the address of a string. -/
theorem C78_char_value (win : Bool) (rd : Mem) (v i : Nat) (hv : v ≠ 0) :
    (parseType win "char".toList i).inlined = true ∧
      shown win rd (parseType win "char".toList i) v = .text false v := by
  have ht : (parseType win "char".toList i).type = .cstring := by cases win <;> rfl
  refine ⟨by cases win <;> rfl, ?_⟩
  rw [(C78_string win rd _ v).1 ht, if_neg hv]

/-- **C78** (difference).  On Linux a size of zero is printed as a null pointer, and a size behind a
pointer is not read. -/
theorem C78_size_zero (rd : Mem) (i : Nat) :
    shown false rd (parseType false "size_t".toList i) 0 = .null ∧
      ∀ v, v ≠ 0 → shown false rd (parseType false "size_t *".toList i) v = .raw v := by
  refine ⟨rfl, ?_⟩
  intro v hv
  show dflt v = .raw v
  unfold dflt
  rw [if_neg hv]

/-! ## C78: a run -/

/-- **C78.**  With a positive limit, the prototype of the file is used if there is one, then the one of
the system call library, and only then are arguments printed without types.  The file counts only if
`-use_config` is on. -/
theorem C78_source_partial (win : Bool) (rd : Mem) (o : Opts) (f : Option (List Char)) (st : St)
    (hs : start win o f = some st) (hmax : 0 < o.maxArgs) (known : Bool) (name : List Char)
    (args : Nat → Nat) :
    (∀ t a as, o.useConfig = true → parseConfig win f = .on t → search t name = some (a :: as) →
      call win rd o st known name args = .proto (printArgs win rd o.maxArgs args (a :: as))) ∧
    ((o.useConfig = false ∨ parseConfig win f = .off ∨
        ∃ t, parseConfig win f = .on t ∧ search t name = none) →
      call win rd o st known name args =
        if known = true then .syscall
        else if o.unknownArgs = 0 then .nothing else .blind o.unknownArgs) := by
  have hne : o.maxArgs ≠ 0 := by omega
  have hfb : fallback o known = if known = true then .syscall
        else if o.unknownArgs = 0 then .nothing else .blind o.unknownArgs := by
    unfold fallback
    cases known with
    | true => rfl
    | false =>
      simp only [Bool.false_eq_true, if_false]
      by_cases h : o.unknownArgs = 0
      · rw [if_pos h, if_neg (by omega)]
      · rw [if_neg h, if_pos (by omega)]
  unfold start at hs
  constructor
  · intro t a as hu hc hsr
    rw [if_pos ⟨hmax, hu⟩, hc] at hs
    have := Option.some.inj hs
    subst this
    unfold call
    rw [if_neg hne]
    simp only [if_true]
    rw [hsr]
  · intro h
    rw [← hfb]
    unfold call
    rw [if_neg hne]
    by_cases hu : o.useConfig = true
    · rw [if_pos ⟨hmax, hu⟩] at hs
      rcases h with h | h | ⟨t, h, hn⟩
      · rw [h] at hu; exact absurd hu (by simp)
      · rw [h] at hs
        have := Option.some.inj hs
        subst this
        simp
      · rw [h] at hs
        have := Option.some.inj hs
        subst this
        simp only [if_true]
        rw [hn]
    · have hu' : o.useConfig = false := by simpa using hu
      rw [if_neg (fun h => hu h.2)] at hs
      have := Option.some.inj hs
      subst this
      simp [hu']

/-- **C78.**  With a limit of zero no argument is printed. -/
theorem C78_none (win : Bool) (rd : Mem) (o : Opts) (st : St) (h : o.maxArgs = 0) (known : Bool)
    (name : List Char) (args : Nat → Nat) : call win rd o st known name args = .nothing := by
  unfold call; rw [if_pos h]

/-- **C78** (difference).  The limit does not hold for arguments printed without types. -/
theorem C78_limit_unknown (rd : Mem) : ∃ (o : Opts) (st : St), start false o none = some st ∧
    o.maxArgs = 1 ∧ call false rd o st false "f".toList (fun _ => 0) = .blind 2 :=
  ⟨{ maxArgs := 1
     unknownArgs := 2
     useConfig := true }, _, rfl, rfl, rfl⟩

/-- **C78.**  With a positive limit, or without `-use_config`, the table is never searched and never
deleted unless it is there. -/
theorem C78_table_partial (win : Bool) (rd : Mem) (o : Opts) (f : Option (List Char)) (st : St)
    (hs : start win o f = some st) (h : 0 < o.maxArgs ∨ o.useConfig = false) :
    (∀ known name args, call win rd o st known name args ≠ .badTable) ∧ exit st ≠ none := by
  have hst : st.useConfig = false ∨ ∃ t, st.table = .live t := by
    unfold start at hs
    by_cases hc : 0 < o.maxArgs ∧ o.useConfig = true
    · rw [if_pos hc] at hs
      cases hp : parseConfig win f with
      | off => rw [hp] at hs; have := Option.some.inj hs; subst this; left; rfl
      | on t => rw [hp] at hs; have := Option.some.inj hs; subst this; right; exact ⟨t, rfl⟩
      | overrun => rw [hp] at hs; exact absurd hs (by simp)
    · rw [if_neg hc] at hs
      have := Option.some.inj hs
      subst this
      left
      rcases h with h | h
      · cases hu : o.useConfig with
        | false => rfl
        | true => exact absurd ⟨h, hu⟩ hc
      · exact h
  constructor
  · intro known name args
    have hf : fallback o known ≠ .badTable := by
      unfold fallback
      cases known
      · by_cases h0 : 0 < o.unknownArgs
        · simp [h0]
        · simp [h0]
      · simp
    unfold call
    by_cases h0 : o.maxArgs = 0
    · rw [if_pos h0]; simp
    · rw [if_neg h0]
      rcases hst with hu | ⟨t, ht⟩
      · rw [hu]; simpa using hf
      · rw [ht]
        by_cases hu : st.useConfig = true
        · rw [if_pos hu]
          dsimp only
          cases hsr : search t name with
          | none => exact hf
          | some as =>
            cases as with
            | nil => exact hf
            | cons a as => simp
        · rw [if_neg hu]; exact hf
  · unfold exit
    rcases hst with hu | ⟨t, ht⟩
    · rw [hu]; simp
    · rw [ht]
      by_cases hu : st.useConfig = true
      · rw [if_pos hu]; simp
      · rw [if_neg hu]; simp

/-- **C78** (difference).  With `-num_max_args 0` and the default `-use_config`, exit deletes a table
that was never set up; with a negative limit every traced call searches it as well. -/
theorem C78_table_unset (win : Bool) (rd : Mem) (o : Opts) (f : Option (List Char))
    (hm : o.maxArgs ≤ 0) (hu : o.useConfig = true) :
    ∃ st, start win o f = some st ∧ exit st = none ∧
      (o.maxArgs < 0 → ∀ known name args, call win rd o st known name args = .badTable) := by
  refine ⟨{ useConfig := true
            table := .none }, ?_, rfl, ?_⟩
  · unfold start
    rw [if_neg (by omega), hu]
  · intro hn known name args
    unfold call
    rw [if_neg (by omega)]
    rfl

end Verif.Ltrace
