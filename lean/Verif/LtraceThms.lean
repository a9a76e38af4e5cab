import Verif.Ltrace
/-!
# Facts about the prototype file of the library tracer
-/
namespace Verif.Ltrace

/-! ## Cutting text -/

theorem split_nil_iff (d : Char) (s : List Char) : split d s = [] ↔ s = [] := by
  cases s with
  | nil => simp [split]
  | cons c cs =>
    unfold split
    by_cases h : c = d
    · rw [if_pos h]; simp
    · rw [if_neg h]
      cases split d cs <;> simp

theorem split_free (d : Char) (s : List Char) : ∀ t ∈ split d s, d ∉ t := by
  induction s with
  | nil => intro t h; exact absurd h (by simp [split])
  | cons c cs ih =>
    intro t h
    rw [split] at h
    by_cases hc : c = d
    · rw [if_pos hc] at h
      rcases List.mem_cons.1 h with h | h
      · rw [h]; simp
      · exact ih t h
    · rw [if_neg hc] at h
      revert h ih
      cases split d cs with
      | nil =>
        intro ih h
        rw [List.mem_singleton.1 h]
        simpa using fun h => hc h.symm
      | cons t0 ts =>
        intro ih h
        rcases List.mem_cons.1 h with h | h
        · rw [h]
          intro hm
          rcases List.mem_cons.1 hm with hm | hm
          · exact hc hm.symm
          · exact ih t0 (by simp) hm
        · exact ih t (by simp [h])

/-- A field followed by a delimiter. -/
theorem split_field (d : Char) (t r : List Char) (ht : d ∉ t) :
    split d (t ++ d :: r) = t :: split d r := by
  induction t with
  | nil => simp [split]
  | cons c cs ih =>
    have hc : c ≠ d := by intro e; exact ht (by simp [e])
    have hcs : d ∉ cs := by intro e; exact ht (by simp [e])
    rw [List.cons_append, split, if_neg hc, ih hcs]

/-- The last field. -/
theorem split_last (d : Char) (t : List Char) (ht : d ∉ t) (hn : t ≠ []) : split d t = [t] := by
  induction t with
  | nil => exact absurd rfl hn
  | cons c cs ih =>
    have hc : c ≠ d := by intro e; exact ht (by simp [e])
    have hcs : d ∉ cs := by intro e; exact ht (by simp [e])
    rw [split, if_neg hc]
    by_cases hx : cs = []
    · subst hx; rfl
    · rw [ih hcs hx]

/-- Every text is a field, or a field, a delimiter and the rest. -/
theorem cut (d : Char) (s : List Char) : d ∉ s ∨ ∃ a b, d ∉ a ∧ s = a ++ d :: b := by
  induction s with
  | nil => left; simp
  | cons c cs ih =>
    by_cases hc : c = d
    · right; exact ⟨[], cs, by simp, by simp [hc]⟩
    · rcases ih with h | ⟨a, b, ha, hb⟩
      · left
        intro hm
        rcases List.mem_cons.1 hm with hm | hm
        · exact hc hm.symm
        · exact h hm
      · right
        refine ⟨c :: a, b, ?_, by simp [hb]⟩
        intro hm
        rcases List.mem_cons.1 hm with hm | hm
        · exact hc hm.symm
        · exact ha hm

/-! ## Looking for and erasing a token -/

theorem prefix_iff (p s : List Char) : p.isPrefixOf s = true ↔ ∃ r, s = p ++ r := by
  rw [List.isPrefixOf_iff_prefix]
  constructor
  · rintro ⟨r, h⟩; exact ⟨r, h.symm⟩
  · rintro ⟨r, h⟩; exact ⟨r, h.symm⟩

theorem has_iff (p s : List Char) : has p s = true ↔ ∃ a b, s = a ++ (p ++ b) := by
  induction s with
  | nil =>
    rw [has, prefix_iff]
    constructor
    · rintro ⟨r, h⟩; exact ⟨[], r, h⟩
    · rintro ⟨a, b, h⟩
      have : a = [] ∧ p ++ b = [] := by
        have := h.symm
        exact List.append_eq_nil_iff.1 this
      exact ⟨b, this.2.symm⟩
  | cons c cs ih =>
    rw [has, Bool.or_eq_true, prefix_iff, ih]
    constructor
    · rintro (⟨r, h⟩ | ⟨a, b, h⟩)
      · exact ⟨[], r, h⟩
      · exact ⟨c :: a, b, by rw [h]; rfl⟩
    · rintro ⟨a, b, h⟩
      cases a with
      | nil => exact Or.inl ⟨b, h⟩
      | cons x xs =>
        right
        rw [List.cons_append, List.cons.injEq] at h
        exact ⟨xs, b, h.2⟩

theorem erase_absent (p s : List Char) (h : has p s = false) : erase p 0 s = s := by
  induction s with
  | nil => rfl
  | cons c cs ih =>
    rw [has, Bool.or_eq_false_iff] at h
    rw [erase, h.1]
    simp only [Bool.false_eq_true, if_false]
    rw [ih h.2]

theorem erase_skip (p : List Char) : ∀ (q r : List Char), erase p q.length (q ++ r) = erase p 0 r
  | [], r => rfl
  | _ :: q, r => by
    show erase p (q.length + 1) (_ :: (q ++ r)) = _
    rw [erase]
    exact erase_skip p q r

/-- Text without the first character of the token, the token, and the rest. -/
theorem erase_at (x : Char) (p a r : List Char) (ha : x ∉ a) :
    erase (x :: p) 0 (a ++ ((x :: p) ++ r)) = a ++ erase (x :: p) 0 r := by
  induction a with
  | nil =>
    show erase (x :: p) 0 (x :: (p ++ r)) = _
    rw [erase]
    have : (x :: p).isPrefixOf (x :: (p ++ r)) = true := by
      rw [prefix_iff]; exact ⟨r, rfl⟩
    rw [if_pos this]
    show erase (x :: p) p.length (p ++ r) = _
    rw [erase_skip]; rfl
  | cons c cs ih =>
    have hc : c ≠ x := by intro e; exact ha (by simp [e])
    have hcs : x ∉ cs := by intro e; exact ha (by simp [e])
    show erase (x :: p) 0 (c :: (cs ++ ((x :: p) ++ r))) = _
    rw [erase]
    have : ¬ (x :: p).isPrefixOf (c :: (cs ++ ((x :: p) ++ r))) = true := by
      rw [prefix_iff]
      rintro ⟨r', h⟩
      exact hc (List.cons.inj h).1
    rw [if_neg this, ih hcs]; rfl

theorem erase_star (s : List Char) : erase "*".toList 0 s = s.filter (· != '*') := by
  induction s with
  | nil => rfl
  | cons c cs ih =>
    by_cases h : c = '*'
    · subst h
      rw [erase]
      have : "*".toList.isPrefixOf ('*' :: cs) = true := by
        rw [prefix_iff]; exact ⟨cs, rfl⟩
      rw [if_pos this]
      show erase "*".toList 0 cs = _
      rw [ih]; rfl
    · rw [erase]
      have : ¬ "*".toList.isPrefixOf (c :: cs) = true := by
        rw [prefix_iff]
        rintro ⟨r', h'⟩
        have h'' : c :: cs = '*' :: r' := h'
        rw [List.cons.injEq] at h''
        exact h h''.1
      rw [if_neg this, ih, List.filter_cons]
      have : (c != '*') = true := by simpa using h
      rw [this]; rfl

theorem has_star (s : List Char) : has "*".toList s = true ↔ '*' ∈ s := by
  rw [has_iff]
  constructor
  · rintro ⟨a, b, h⟩
    rw [h]
    show '*' ∈ a ++ ('*' :: b)
    simp
  · intro h
    obtain ⟨a, b, h⟩ := List.append_of_mem h
    exact ⟨a, b, h⟩

/-! ## Double underscores -/

/-- Two underscores in a row. -/
def dbl : List Char → Bool
  | a :: b :: cs => (a == '_' && b == '_') || dbl (b :: cs)
  | _ => false

theorem dbl_of_infix (a r : List Char) : dbl (a ++ '_' :: '_' :: r) = true := by
  induction a with
  | nil => simp [dbl]
  | cons c cs ih =>
    cases cs with
    | nil => simp [dbl]
    | cons c' cs' =>
      show dbl (c :: c' :: (cs' ++ '_' :: '_' :: r)) = true
      rw [dbl]
      have : dbl (c' :: (cs' ++ '_' :: '_' :: r)) = true := ih
      rw [this]; simp

theorem no_token (p s : List Char) (h : dbl s = false) : has ('_' :: '_' :: p) s = false := by
  cases hh : has ('_' :: '_' :: p) s with
  | false => rfl
  | true =>
    obtain ⟨a, b, e⟩ := (has_iff _ _).1 hh
    rw [e] at h
    have := dbl_of_infix a (p ++ b)
    rw [show a ++ ('_' :: '_' :: p ++ b) = a ++ '_' :: '_' :: (p ++ b) from rfl] at h
    rw [this] at h
    exact absurd h (by simp)

/-- No underscore before or after: two in a row can only be within. -/
theorem dbl_pad_left (a s : List Char) (ha : '_' ∉ a) : dbl (a ++ s) = dbl s := by
  induction a with
  | nil => rfl
  | cons c cs ih =>
    have hc : c ≠ '_' := by intro e; exact ha (by simp [e])
    have hcs : '_' ∉ cs := by intro e; exact ha (by simp [e])
    have hb : (c == '_') = false := by simpa using hc
    have e : ∀ t : List Char, dbl (c :: t) = dbl t := by
      intro t
      cases t with
      | nil => rfl
      | cons x xs => rw [dbl, hb]; simp
    show dbl (c :: (cs ++ s)) = _
    rw [e, ih hcs]

theorem dbl_pad_right (s b : List Char) (hb : '_' ∉ b) : dbl (s ++ b) = dbl s := by
  induction s with
  | nil =>
    have := dbl_pad_left b [] hb
    rw [List.append_nil] at this
    exact this
  | cons c cs ih =>
    cases cs with
    | nil =>
      cases b with
      | nil => rfl
      | cons x xs =>
        have hx : (x == '_') = false := by
          have : x ≠ '_' := by intro e; exact hb (by simp [e])
          simpa using this
        have h2 := dbl_pad_left (x :: xs) [] hb
        rw [List.append_nil] at h2
        show dbl (c :: x :: xs) = false
        rw [dbl, hx, h2]
        simp [dbl]
    | cons c' cs' =>
      show dbl (c :: c' :: (cs' ++ b)) = dbl (c :: c' :: cs')
      rw [dbl, dbl]
      have : dbl (c' :: (cs' ++ b)) = dbl (c' :: cs') := ih
      rw [this]

/-! ## The table -/

theorem search_nil (n : List Char) : search [] n = none := rfl

theorem search_append (t : List Entry) (m : List Char) (a : List Arg) (n : List Char) :
    search (t ++ [(m, a)]) n =
      match search t n with
      | some x => some x
      | none => if same m n then some a else none := by
  induction t with
  | nil =>
    simp only [search, List.nil_append, List.find?_cons, List.find?_nil]
    cases same m n <;> rfl
  | cons e t ih =>
    rw [List.cons_append]
    by_cases h : same e.1 n = true
    · simp [search, h]
    · have h' : same e.1 n = false := by simpa using h
      have e1 : ∀ l : List Entry, search (e :: l) n = search l n := by
        intro l; simp [search, h']
      rw [e1, e1, ih]

theorem same_trans_iff {a b : List Char} (h : same a b = true) (n : List Char) :
    same a n = same b n := by
  unfold same at *
  rw [eq_of_beq h]

theorem search_same (t : List Entry) (a b : List Char) (h : same a b = true) :
    search t a = search t b := by
  have : ∀ e : Entry, same e.1 a = same e.1 b := by
    intro e
    unfold same at *
    rw [eq_of_beq h]
  unfold search
  rw [show (fun e : Entry => same e.1 a) = (fun e : Entry => same e.1 b) from funext this]

theorem search_insert (t : List Entry) (m : List Char) (a : List Arg) (n : List Char) :
    search (insert t m a) n =
      match search t n with
      | some x => some x
      | none => if same m n then some a else none := by
  unfold insert
  cases hm : search t m with
  | none =>
    dsimp only
    rw [search_append]
  | some x =>
    dsimp only
    cases hn : search t n with
    | some y => rfl
    | none =>
      dsimp only
      by_cases h : same m n = true
      · rw [search_same t m n h, hn] at hm
        exact absurd hm (by simp)
      · rw [if_neg h]

/-- Whether a line is refused does not depend on the table. -/
theorem lines_isSome (win : Bool) (ls : List (List Char)) : ∀ t,
    (lines win t ls).isSome = true ↔ ∀ l ∈ ls, parseLine win l ≠ .bad := by
  induction ls with
  | nil => intro t; simp [lines]
  | cons l ls ih =>
    intro t
    rw [lines]
    cases h : parseLine win l with
    | skip =>
      dsimp only
      rw [ih]
      simp [h]
    | bad => simp [h]
    | add n a =>
      dsimp only
      rw [ih]
      simp [h]

/-! ## Printing -/

theorem printArgs_mem (win : Bool) (rd : Mem) (mx : Int) (args : Nat → Nat) (it : Item) :
    ∀ (l : List Arg) (k : Nat), (∀ i a, l[i]? = some a → a.ordinal = k + i) →
      (it ∈ printArgs win rd mx args l ↔
        ∃ i a, l[i]? = some a ∧ ((k + i : Nat) : Int) < mx ∧
          printArg win rd a (args (k + i)) = some it) := by
  intro l
  induction l with
  | nil => intro k _; simp [printArgs]
  | cons a l ih =>
    intro k hk
    have h0 : a.ordinal = k := by simpa using hk 0 a (by simp)
    have hk' : ∀ i b, l[i]? = some b → b.ordinal = (k + 1) + i := by
      intro i b hb
      have := hk (i + 1) b (by simpa using hb)
      omega
    rw [printArgs, h0]
    by_cases hm : (k : Int) ≥ mx
    · rw [if_pos hm]
      constructor
      · intro h; exact absurd h (by simp)
      · rintro ⟨i, b, _, h2, _⟩
        omega
    · rw [if_neg hm, List.mem_append, ih (k + 1) hk']
      constructor
      · rintro (h | ⟨i, b, h1, h2, h3⟩)
        · refine ⟨0, a, by simp, by omega, ?_⟩
          simpa using h
        · refine ⟨i + 1, b, by simpa using h1, by omega, ?_⟩
          rw [show k + (i + 1) = k + 1 + i by omega]
          exact h3
      · rintro ⟨i, b, h1, h2, h3⟩
        cases i with
        | zero =>
          left
          have : a = b := by simpa using h1
          subst this
          simpa using h3
        | succ i =>
          right
          refine ⟨i, b, by simpa using h1, by omega, ?_⟩
          rw [show k + 1 + i = k + (i + 1) by omega]
          exact h3

theorem parseArgs_get (win : Bool) : ∀ (ts : List (List Char)) (k i : Nat),
    (parseArgs win k ts)[i]? = (ts[i]?).map (fun t => parseType win t (k + i)) := by
  intro ts
  induction ts with
  | nil => intro k i; simp [parseArgs]
  | cons t ts ih =>
    intro k i
    rw [parseArgs]
    cases i with
    | zero => simp
    | succ i =>
      rw [List.getElem?_cons_succ, ih, List.getElem?_cons_succ]
      rw [show k + 1 + i = k + (i + 1) by omega]

theorem cstr_none_iff (s : List Char) : cstr s = none ↔ Char.ofNat 0 ∉ s := by
  induction s with
  | nil => simp [cstr]
  | cons c cs ih =>
    rw [cstr]
    by_cases h : c = Char.ofNat 0
    · rw [if_pos h]; simp [h]
    · rw [if_neg h, Option.map_eq_none_iff, ih]
      constructor
      · intro hm hx
        rcases List.mem_cons.1 hx with hx | hx
        · exact h hx.symm
        · exact hm hx
      · intro hm hx
        exact hm (List.mem_cons_of_mem _ hx)

theorem cstr_free (s r : List Char) (h : Char.ofNat 0 ∉ s) :
    cstr (s ++ Char.ofNat 0 :: r) = some s := by
  induction s with
  | nil => simp [cstr]
  | cons c cs ih =>
    have hc : c ≠ Char.ofNat 0 := by intro e; exact h (by simp [e])
    have hcs : Char.ofNat 0 ∉ cs := by intro e; exact h (by simp [e])
    rw [List.cons_append, cstr, if_neg hc, ih hcs]; rfl

end Verif.Ltrace
