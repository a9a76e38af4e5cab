import Verif.OptionsMulti

/-!
# Options: numbers, and arguments that do not arrive
-/

namespace Verif.Options

/-! ## Numbers -/

theorem digits_app (b : Nat) (val : Char → Option Nat) : ∀ (s r : Str) (acc : Nat), (∀ c ∈ s, val c ≠ none) →
    digits b val acc (s ++ r) =
      (s.length + (digits b val (digits b val acc s).2 r).1, (digits b val (digits b val acc s).2 r).2) := by
  intro s r
  induction s with
  | nil => intro acc _; simp [digits]
  | cons c s ih =>
    intro acc h
    simp only [List.cons_append, digits]
    cases hv : val c with
    | none => exact absurd hv (h c (by simp))
    | some d =>
      dsimp only
      rw [ih _ fun x hx => h x (by simp [hx])]
      simp only [List.length_cons]
      congr 1
      omega

theorem digits_toDigits {b : Nat} (hb : 1 < b) {val : Char → Option Nat}
    (hv : ∀ d, d < b → val (Nat.digitChar d) = some d) (n : Nat) :
    (∀ c ∈ Nat.toDigits b n, val c ≠ none) ∧ (digits b val 0 (Nat.toDigits b n)).2 = n := by
  induction n using Nat.strongRecOn with
  | ind n ih =>
    by_cases h : n < b
    · rw [Nat.toDigits_of_lt_base h]
      simp [digits, hv n h]
    · rw [Nat.toDigits_of_base_le hb (by omega)]
      have hlt : n / b < n := Nat.div_lt_self (by omega) hb
      have hm : n % b < b := Nat.mod_lt _ (by omega)
      obtain ⟨h1, h2⟩ := ih (n / b) hlt
      constructor
      · intro c hc
        rcases List.mem_append.1 hc with hc | hc
        · exact h1 c hc
        · rw [List.mem_singleton.1 hc, hv _ hm]; simp
      · rw [digits_app b val _ _ _ h1, h2]
        simp only [digits, hv _ hm]
        exact Nat.div_add_mod' n b

theorem decVal_digit (d : Nat) (h : d < 10) : decVal (Nat.digitChar d) = some d := by
  have : ∀ d, d < 10 → decVal (Nat.digitChar d) = some d := by decide +kernel
  exact this d h

theorem hexVal_digit (d : Nat) (h : d < 16) : hexVal (Nat.digitChar d) = some d := by
  have : ∀ d, d < 16 → hexVal (Nat.digitChar d) = some d := by decide +kernel
  exact this d h

/-- The front of a printed number: digits, and then something that is no digit. -/
theorem digits_front {b : Nat} (hb : 1 < b) {val : Char → Option Nat}
    (hv : ∀ d, d < b → val (Nat.digitChar d) = some d) (n : Nat) {r : Str} (hr : ∀ c ∈ r.head?, val c = none) :
    (digits b val 0 (Nat.toDigits b n ++ r)).1 ≠ 0 ∧ (digits b val 0 (Nat.toDigits b n ++ r)).2 = n := by
  obtain ⟨h1, h2⟩ := digits_toDigits hb hv n
  rw [digits_app b val _ _ _ h1, h2]
  have hpos : 0 < (Nat.toDigits b n).length := Nat.length_toDigits_pos
  cases r with
  | nil => exact ⟨by simp only [digits]; omega, rfl⟩
  | cons c r =>
    have hc := hr c (by simp)
    simp only [digits, hc]
    exact ⟨by omega, trivial⟩

theorem decVal_cases {c : Char} (h : decVal c ≠ none) : isSpace c = false ∧ c ≠ '+' ∧ c ≠ '-' ∧ c ≠ 'x' ∧ c ≠ 'X' := by
  refine ⟨?_, ?_, ?_, ?_, ?_⟩
  · cases hs : isSpace c with
    | false => rfl
    | true =>
      exfalso; apply h
      simp only [isSpace, decide_eq_true_eq, Bool.or_eq_true] at hs
      have hd : ∀ x ∈ [' ', '\t', '\n', '\r', Char.ofNat 11, Char.ofNat 12], decVal x = none := by decide +kernel
      have he : c = Char.ofNat c.toNat := (Char.ofNat_toNat c).symm
      rcases hs with ((((h | h) | h) | h) | h) | h
      · exact hd _ (by simp [h])
      · exact hd _ (by simp [h])
      · exact hd _ (by simp [h])
      · exact hd _ (by simp [h])
      · rw [h] at he; rw [he]; exact hd _ (by simp)
      · rw [h] at he; rw [he]; exact hd _ (by simp)
  all_goals (rintro rfl; exact h (by decide +kernel))

theorem hexVal_cases {c : Char} (h : hexVal c ≠ none) : isSpace c = false ∧ c ≠ '+' ∧ c ≠ '-' ∧ c ≠ 'x' ∧ c ≠ 'X' := by
  refine ⟨?_, ?_, ?_, ?_, ?_⟩
  · cases hs : isSpace c with
    | false => rfl
    | true =>
      exfalso; apply h
      simp only [isSpace, decide_eq_true_eq, Bool.or_eq_true] at hs
      have hd : ∀ x ∈ [' ', '\t', '\n', '\r', Char.ofNat 11, Char.ofNat 12], hexVal x = none := by decide +kernel
      have he : c = Char.ofNat c.toNat := (Char.ofNat_toNat c).symm
      rcases hs with ((((h | h) | h) | h) | h) | h
      · exact hd _ (by simp [h])
      · exact hd _ (by simp [h])
      · exact hd _ (by simp [h])
      · exact hd _ (by simp [h])
      · rw [h] at he; rw [he]; exact hd _ (by simp)
      · rw [h] at he; rw [he]; exact hd _ (by simp)
  all_goals (rintro rfl; exact h (by decide +kernel))

/-- `w` begins with a decimal number, and what follows is no digit and, after a single 0, no `x`. -/
theorem readNum_dec {lim n : Nat} (hn : n < lim) {r : Str} (hr : ∀ c ∈ r.head?, decVal c = none)
    (hx : n = 0 → r.head? ≠ some 'x') : readNum lim (Nat.toDigits 10 n ++ r) = .ok n := by
  obtain ⟨h1, h2⟩ := digits_front (by decide) decVal_digit n hr
  obtain ⟨hd, -⟩ := digits_toDigits (by decide) decVal_digit n
  have hpos : 0 < (Nat.toDigits 10 n).length := Nat.length_toDigits_pos
  have hno : ∀ s, Nat.toDigits 10 n ++ r ≠ '0' :: 'x' :: s := by
    intro s e
    cases hl : Nat.toDigits 10 n with
    | nil => rw [hl] at hpos; simp at hpos
    | cons a as =>
      rw [hl] at e hd h2
      cases as with
      | nil =>
        simp only [List.cons_append, List.nil_append, List.cons.injEq] at e
        obtain ⟨rfl, e⟩ := e
        obtain ⟨-, h3⟩ := digits_toDigits (by decide) decVal_digit n
        rw [hl] at h3
        have : (digits 10 decVal 0 ['0']).2 = 0 := by decide +kernel
        exact hx (by omega) (by rw [e]; rfl)
      | cons b bs =>
        simp only [List.cons_append, List.cons.injEq] at e
        have := hd b (by simp)
        rw [e.2.1] at this
        exact this (by decide +kernel)
  have hdec : ∀ a as, Nat.toDigits 10 n ++ r = a :: as → isSpace a = false ∧ a ≠ '+' := by
    intro a as e
    cases hl : Nat.toDigits 10 n with
    | nil => rw [hl] at hpos; simp at hpos
    | cons b bs =>
      rw [hl] at e hd
      simp only [List.cons_append, List.cons.injEq] at e
      have := decVal_cases (hd b (by simp))
      rw [← e.1]
      exact ⟨this.1, this.2.1⟩
  unfold readNum
  dsimp only
  generalize Nat.toDigits 10 n ++ r = w at *
  cases w with
  | nil => simp [digits] at h1
  | cons a as =>
    have h3 := hdec a as rfl
    have e : (if (isSpace a = true ∨ a = '+') then Num.unspec
        else if (digits 10 decVal 0 (a :: as)).1 = 0 then .bad
        else if (digits 10 decVal 0 (a :: as)).2 < lim then .ok (digits 10 decVal 0 (a :: as)).2 else .unspec) =
        Num.ok n := by
      rw [if_neg (by rw [h3.1]; simp [h3.2]), if_neg h1, h2, if_pos hn]
    split
    · rename_i s heq
      exact absurd heq (hno s)
    · exact e

/-- `w` is `0x` and a hexadecimal number, and what follows is no digit. -/
theorem readNum_hex {lim n : Nat} (hn : n < lim) {r : Str} (hr : ∀ c ∈ r.head?, hexVal c = none)
    (hx : n = 0 → r.head? ≠ some 'x' ∧ r.head? ≠ some 'X') :
    readNum lim ('0' :: 'x' :: (Nat.toDigits 16 n ++ r)) = .ok n := by
  obtain ⟨h1, h2⟩ := digits_front (by decide) hexVal_digit n hr
  obtain ⟨hd, -⟩ := digits_toDigits (by decide) hexVal_digit n
  have hpos : 0 < (Nat.toDigits 16 n).length := Nat.length_toDigits_pos
  have hno : ∀ s y, (y = 'x' ∨ y = 'X') → Nat.toDigits 16 n ++ r ≠ '0' :: y :: s := by
    intro s y hy e
    cases hl : Nat.toDigits 16 n with
    | nil => rw [hl] at hpos; simp at hpos
    | cons a as =>
      rw [hl] at e hd h2
      cases as with
      | nil =>
        simp only [List.cons_append, List.nil_append, List.cons.injEq] at e
        obtain ⟨rfl, e⟩ := e
        obtain ⟨-, h3⟩ := digits_toDigits (by decide) hexVal_digit n
        rw [hl] at h3
        have : (digits 16 hexVal 0 ['0']).2 = 0 := by decide +kernel
        have := hx (by omega)
        rw [e] at this
        rcases hy with rfl | rfl
        · exact this.1 rfl
        · exact this.2 rfl
      | cons b bs =>
        simp only [List.cons_append, List.cons.injEq] at e
        have := hexVal_cases (hd b (by simp))
        rw [e.2.1] at this
        rcases hy with rfl | rfl
        · exact this.2.2.2.1 rfl
        · exact this.2.2.2.2 rfl
  have hdec : ∀ a as, Nat.toDigits 16 n ++ r = a :: as → isSpace a = false ∧ a ≠ '+' ∧ a ≠ '-' := by
    intro a as e
    cases hl : Nat.toDigits 16 n with
    | nil => rw [hl] at hpos; simp at hpos
    | cons b bs =>
      rw [hl] at e hd
      simp only [List.cons_append, List.cons.injEq] at e
      have := hexVal_cases (hd b (by simp))
      rw [← e.1]
      exact ⟨this.1, this.2.1, this.2.2.1⟩
  unfold readNum
  dsimp only
  generalize Nat.toDigits 16 n ++ r = w at *
  cases w with
  | nil => simp [digits] at h1
  | cons a as =>
    have h3 := hdec a as rfl
    have hp : ∀ y, (y = 'x' ∨ y = 'X') → (a :: as).take 2 ≠ ['0', y] := by
      intro y hy e
      cases as with
      | nil => simp at e
      | cons b bs =>
        simp only [List.take_succ_cons, List.take_zero, List.cons.injEq, and_true] at e
        exact hno bs y hy (by rw [e.1, e.2])
    have hc : ¬ (isSpace a = true ∨ a = '+' ∨ a = '-' ∨ (a :: as).take 2 = ['0', 'x'] ∨
        (a :: as).take 2 = ['0', 'X']) := by
      rintro (h | h | h | h | h)
      · rw [h3.1] at h; cases h
      · exact h3.2.1 h
      · exact h3.2.2 h
      · exact hp 'x' (.inl rfl) h
      · exact hp 'X' (.inr rfl) h
    split
    · rename_i r' heq
      simp only [List.cons.injEq, true_and] at heq
      subst heq
      dsimp only
      rw [if_neg hc, if_neg h1, h2, if_pos hn]
    · rename_i hne
      exact absurd rfl (hne _)

/-- The first digit of a number is no dash. -/
theorem toDigits_head (n : Nat) : ∃ a as, Nat.toDigits 10 n = a :: as ∧ a ≠ '-' := by
  obtain ⟨hd, -⟩ := digits_toDigits (by decide) decVal_digit n
  have hpos : 0 < (Nat.toDigits 10 n).length := Nat.length_toDigits_pos
  cases hl : Nat.toDigits 10 n with
  | nil => rw [hl] at hpos; simp at hpos
  | cons a as => exact ⟨a, as, rfl, (decVal_cases (hd a (by rw [hl]; simp))).2.2.1⟩

/-- The number, if the option allows it. -/
def within (lo hi n : Int) : Except Err Int := if lo ≤ n ∧ n ≤ hi then .ok n else .error .range

theorem inRange_ok (lo hi n : Int) : inRange lo hi (.ok n) = within lo hi n := by
  unfold inRange within
  dsimp only
  by_cases h : lo ≤ n ∧ n ≤ hi
  · rw [if_pos h, if_neg (by omega)]
  · rw [if_neg h, if_pos (by omega)]

theorem readUint_ne {lim lo hi : Nat} {w : Str} (h1 : w ≠ []) (h2 : w.head? ≠ some '-') :
    readUint lim lo hi w = inRange lo hi (readNum lim w) := by
  unfold readUint
  split
  · exact absurd rfl h1
  · simp at h2
  · rfl

theorem readInt_ne {lo hi : Int} {w : Str} (h1 : w ≠ []) (h2 : w.head? ≠ some '-') :
    readInt lo hi w = inRange lo hi (readNum (2 ^ 31) w) := by
  unfold readInt
  split
  · exact absurd rfl h1
  · simp at h2
  · rfl

/-- C53: a number written in decimal or, after `0x`, in hexadecimal, is read as that number, and
rejected when the option does not allow it; this for the three types of number. -/
theorem C53_number (n : Nat) :
    (∀ lo hi, n < 2 ^ 32 → numOf (.uint lo hi) (Nat.toDigits 10 n) = within lo hi n) ∧
    (∀ lo hi, n < 2 ^ 32 → numOf (.uint lo hi) ('0' :: 'x' :: Nat.toDigits 16 n) = within lo hi n) ∧
    (∀ lo hi, n < 2 ^ 64 → numOf (.uint64 lo hi) (Nat.toDigits 10 n) = within lo hi n) ∧
    (∀ lo hi, n < 2 ^ 64 → numOf (.uint64 lo hi) ('0' :: 'x' :: Nat.toDigits 16 n) = within lo hi n) ∧
    (∀ lo hi, n < 2 ^ 31 → numOf (.int lo hi) (Nat.toDigits 10 n) = within lo hi n) ∧
    (∀ lo hi, n < 2 ^ 31 → numOf (.int lo hi) ('0' :: 'x' :: Nat.toDigits 16 n) = within lo hi n) ∧
    (∀ lo hi, n ≤ 2 ^ 31 → numOf (.int lo hi) ('-' :: Nat.toDigits 10 n) = within lo hi (-n)) := by
  obtain ⟨a, as, ha, hd⟩ := toDigits_head n
  have n1 : Nat.toDigits 10 n ≠ [] := by rw [ha]; simp
  have n2 : (Nat.toDigits 10 n).head? ≠ some '-' := by rw [ha]; simpa using hd
  have d10 : ∀ {lim}, n < lim → readNum lim (Nat.toDigits 10 n) = .ok n := by
    intro lim h
    have := readNum_dec h (r := []) (by simp) (by simp)
    rwa [List.append_nil] at this
  have d16 : ∀ {lim}, n < lim → readNum lim ('0' :: 'x' :: Nat.toDigits 16 n) = .ok n := by
    intro lim h
    have := readNum_hex h (r := []) (by simp) (by simp)
    rwa [List.append_nil] at this
  refine ⟨?_, ?_, ?_, ?_, ?_, ?_, ?_⟩ <;> intro lo hi h <;> simp only [numOf]
  · rw [readUint_ne n1 n2, d10 h, inRange_ok]
  · rw [readUint_ne (by simp) (by simp), d16 h, inRange_ok]
  · rw [readUint_ne n1 n2, d10 h, inRange_ok]
  · rw [readUint_ne (by simp) (by simp), d16 h, inRange_ok]
  · rw [readInt_ne n1 n2, d10 h, inRange_ok]
  · rw [readInt_ne (by simp) (by simp), d16 h, inRange_ok]
  · simp only [readInt]
    obtain ⟨h1, h2⟩ := digits_front (by decide) decVal_digit n (r := []) (by simp)
    rw [List.append_nil] at h1 h2
    rw [if_neg h1, h2, if_pos h, inRange_ok]

/-- C53: what follows the digits is ignored: a number with a typing error in it is taken for the
number before the error, not rejected. -/
theorem C53_number_garbage {n : Nat} (hn : n < 2 ^ 32) {r : Str} (hr : ∀ c ∈ r.head?, decVal c = none)
    (hx : r.head? ≠ some 'x') (lo hi : Nat) :
    numOf (.uint lo hi) (Nat.toDigits 10 n ++ r) = within lo hi n := by
  obtain ⟨a, as, ha, hd⟩ := toDigits_head n
  simp only [numOf]
  rw [readUint_ne (by rw [ha]; simp) (by rw [ha]; simpa using hd), readNum_dec hn hr fun _ => hx, inRange_ok]

/-- The first digit of `0x..` is a digit: a word without a digit in front is no number. -/
theorem readNum_bad {lim : Nat} {w : Str} (h : ∀ c ∈ w.head?, decVal c = none) (n : Int) : readNum lim w ≠ .ok n := by
  unfold readNum
  dsimp only
  cases w with
  | nil => simp
  | cons c s =>
    have hc := h c (by simp)
    have h0 : c ≠ '0' := by rintro rfl; exact absurd hc (by decide +kernel)
    split
    · rename_i r heq
      simp only [List.cons.injEq] at heq
      exact absurd heq.1 h0
    · dsimp only
      simp only [digits, hc]
      split <;> simp

/-- C53: for an option whose value is a number, a word that does not start with a digit is rejected
(for a signed one: after the sign), and a negative number is, if the option has no sign. -/
theorem C53_no_number {w : Str} :
    ((∀ c ∈ w.head?, decVal c = none) → (∀ lo hi, (numOf (.uint lo hi) w).toOption = none) ∧
      (∀ lo hi, (numOf (.uint64 lo hi) w).toOption = none) ∧
      (w.head? ≠ some '-' → ∀ lo hi, (numOf (.int lo hi) w).toOption = none)) ∧
    ((∀ c ∈ w.head?, decVal c = none) → ∀ lo hi, (numOf (.int lo hi) ('-' :: w)).toOption = none) := by
  have hr : ∀ {lo hi : Int} {x : Num}, (∀ n, x ≠ .ok n) → (inRange lo hi x).toOption = none := by
    intro lo hi x hx
    cases x with
    | ok n => exact absurd rfl (hx n)
    | bad => rfl
    | unspec => rfl
  refine ⟨fun h => ⟨?_, ?_, ?_⟩, fun h => ?_⟩
  · intro lo hi
    simp only [numOf, readUint]
    split
    · rfl
    · rfl
    · exact hr (readNum_bad h)
  · intro lo hi
    simp only [numOf, readUint]
    split
    · rfl
    · rfl
    · exact hr (readNum_bad h)
  · intro hm lo hi
    simp only [numOf, readInt]
    split
    · rfl
    · simp at hm
    · exact hr (readNum_bad h)
  · intro lo hi
    simp only [numOf, readInt]
    apply hr
    intro n
    have : (digits 10 decVal 0 w).1 = 0 := by
      cases w with
      | nil => rfl
      | cons c s => simp only [digits, h c (by simp)]
    rw [if_pos this]
    simp

/-- `-callstack_max_frames 1O` (with a letter) is 1. -/
example : (numOf (.uint 0 4096) "1O".toList).toOption = some 1 := by decide +kernel

example : (numOf (.uint 0 4096) "0x14".toList).toOption = some 20 ∧ (numOf (.uint 0 4096) "9999".toList).toOption = none := by
  decide +kernel

/-! ## Arguments that do not arrive -/

/-- All options at rest. -/
def fresh0 : St := { val := fun _ => .num 0, spec := fun _ => false }

/-- C53: an argument with a back quote in it is taken apart, so that a part of a path becomes an
option of its own. -/
theorem C53_backtick : (optionsInit 100 (table false) (clientOps ["-logdir".toList, "a` `-light".toList]) fresh0).toOption.map
      (fun t => (t.val "logdir", t.val "light")) = some (.str ['a'], .bool true) ∧
    (asgs (table false) ["-logdir".toList, "a` `-light".toList]).toOption =
      some [("logdir", .str "a` `-light".toList)] := by
  constructor <;> decide +kernel

/-- C53: the old spelling of the default block list is overridden by the one the frontend adds,
which looks for the new spelling only. -/
theorem C53_old_spelling :
    (optionsInit 100 (table false) (addDefault (clientOps ["-lib_blocklist_default".toList, "mine".toList]) "sys".toList)
      fresh0).toOption.map (fun t => t.val "lib_blocklist_default") = some (.str "mine".toList) ∧
    (optionsInit 100 (table false) (addDefault (clientOps ["-lib_blacklist_default".toList, "mine".toList]) "sys".toList)
      fresh0).toOption.map (fun t => t.val "lib_blocklist_default") = some (.str "sys".toList) := by
  constructor <;> decide +kernel

/-! ## The loop ends -/

theorem readValue_rest {max : Nat} (hm : 2 ≤ max) {cur : Val} {ty : Ty} {s r : Str} {v : Val}
    (h : readValue max cur ty s = .ok (v, r)) : r.length ≤ s.length := by
  unfold readValue at h
  cases hg : getWord max s with
  | none => rw [hg] at h; cases h
  | some p =>
    obtain ⟨w, q⟩ := p
    have := getWord_progress hm hg
    rw [hg] at h
    dsimp only at h
    repeat' split at h
    all_goals (cases h; try omega)

/-- C53: the loop over the options ends: a larger bound on the number of turns changes nothing. -/
theorem C53_ends {max : Nat} (hm : 2 ≤ max) (tbl : List Entry) : ∀ (f g : Nat) (s : Str) (t : St),
    s.length < f → s.length < g → parse max tbl f s t = parse max tbl g s t := by
  intro f
  induction f with
  | zero => intro g s t h; omega
  | succ f ih =>
    intro g s t hf hg
    obtain ⟨g, rfl⟩ : ∃ k, g = k + 1 := ⟨g - 1, by omega⟩
    simp only [parse]
    cases hw : getWord max s with
    | none => rfl
    | some p =>
      obtain ⟨w, r⟩ := p
      have := getWord_progress hm hw
      dsimp only
      cases hl : lookup tbl w with
      | none => rfl
      | some q =>
        obtain ⟨e, a⟩ := q
        cases a with
        | set b => exact ih g r _ (by omega) (by omega)
        | value =>
          dsimp only
          cases hr : readValue max (t.val e.name) e.ty r with
          | error x => rfl
          | ok y =>
            obtain ⟨v, r'⟩ := y
            have := readValue_rest hm hr
            exact ih g r' _ (by omega) (by omega)

/-- With a buffer of one character the loop would not end. -/
example : getWord 1 "a".toList = some ([], "a".toList) := by decide +kernel

/-! ## Cases -/

/-- The strings of a repeatable option. -/
def strings (t : St) (n : String) : Option Walk :=
  match t.val n with
  | .multi b => some (walk b b.length 0)
  | _ => none

/-- Two files for `-suppress` and one number, as they arrive. -/
example : ((optionsInit 200 (table false) (clientOps ["-suppress".toList, "a b.txt".toList, "-redzone_size".toList,
    "0x20".toList, "-suppress".toList, "c".toList, "-no_check_leaks".toList]) 
    (fresh0.set "suppress" (.multi (List.replicate 200 nul)))).toOption.map fun t =>
    (strings t "suppress", t.val "redzone_size",
      t.val "check_leaks", t.spec "redzone_size", t.spec "light")) =
    some (some (.ok ["a b.txt".toList, ['c']]), .num 32, .bool false, true, false) := by decide +kernel

/-- A word that is no option. -/
example : (optionsInit 200 (table false) (clientOps ["-lihgt".toList]) fresh0).toOption.isNone := by decide +kernel

end Verif.Options
