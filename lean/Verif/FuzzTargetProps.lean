import Verif.FuzzTargetThms
/-
C75: what a descriptor of a fuzz target means, and when the target is fuzzed.
-/
namespace Verif.FuzzTarget

/-- The target that numbers `a`, `b`, `c`, the count `v` and the convention `code` (with `n` registers) give. -/
def described (m : List Char) (f : List Char ⊕ Nat) (a b c : List Char) (v code n : Nat) : Target where
  module := m
  func := f
  argCount := decVal a % 2 ^ 32
  bufferArg := decVal b % 2 ^ 32
  sizeArg := decVal c % 2 ^ 32
  repeatCount := v
  code := code
  regs := min (decVal a % 2 ^ 32) n
  stack := decVal a % 2 ^ 32 - min (decVal a % 2 ^ 32) n

theorem after_map {a b c r : List Char} {v : Nat} {k : List (List Char)} {cfg : Cfg} {code : Nat} (ha : Number a)
    (hb : Number b) (hc : Number c) (hr : Count r v) (hk : Conv cfg k code) :
    After ((tail (a :: b :: c :: r :: k)).map prep) := by
  have hfs : ∀ g ∈ a :: b :: c :: r :: k, Field g := by
    intro g hg
    rcases List.mem_cons.mp hg with h | hg
    · rw [h]; exact number_field ha
    rcases List.mem_cons.mp hg with h | hg
    · rw [h]; exact number_field hb
    rcases List.mem_cons.mp hg with h | hg
    · rw [h]; exact number_field hc
    rcases List.mem_cons.mp hg with h | hg
    · rw [h]; exact count_field hr
    rcases hk with ⟨h, _⟩ | ⟨s, h, h2, _⟩
    · rw [h] at hg; cases hg
    · rw [h] at hg
      rw [List.mem_singleton.mp hg]
      exact number_field h2
  rw [tail_prep hfs]
  exact after_tail _

theorem resolve_plain (cfg : Cfg) {m : List Char} (h : ModName m) : resolve cfg m = .ok m := by
  unfold resolve
  rw [if_neg h.2.2]

/-- C75: `<module>!<symbol>|<args>|<buffer>|<size>|<repeat>[|<convention>]` is the symbol of that module,
written `<module>!<symbol>` without the extension of the module and with the blanks of the symbol, with
these numbers. -/
theorem C75_symbol (cfg : Cfg) {m f a b c r : List Char} {v code n : Nat} {k : List (List Char)} (hm : ModName m)
    (hm1 : ∀ x ∈ m, x ≠ '\x01') (hf : SymName f) (hq : f.head? ≠ some '?') (ha : Number a) (hb : Number b)
    (hc : Number c) (hr : Count r v) (hk : Conv cfg k code) (hn : regCount cfg.arch code = some n) :
    parse cfg (m ++ '!' :: (f ++ tail (a :: b :: c :: r :: k))) =
      .ok (described m (.inl (stem cfg m ++ '!' :: f)) a b c v code n) := by
  rw [parse_front cfg hm.1 hm.2.1 (Or.inl rfl) (sym_solid hf) (after_map ha hb hc hr hk), resolve_plain cfg hm]
  simp only [Out.bind]
  rw [if_neg (by decide), mkSymbol_plain cfg hm1 hf hq, args_ok cfg m _ ha hb hc hr hk hn]
  rfl

/-- C75: a symbol that begins with a question mark is a mangled one: the module is not in it, and every
minus stands for an at. -/
theorem C75_mangled (cfg : Cfg) {m f a b c r : List Char} {v code n : Nat} {k : List (List Char)} (hm : ModName m)
    (hf : SymName f) (hq : f.head? = some '?') (ha : Number a) (hb : Number b)
    (hc : Number c) (hr : Count r v) (hk : Conv cfg k code) (hn : regCount cfg.arch code = some n) :
    parse cfg (m ++ '!' :: (f ++ tail (a :: b :: c :: r :: k))) =
      .ok (described m (.inl (f.map (fun x => if x = '-' then '@' else x))) a b c v code n) := by
  rw [parse_front cfg hm.1 hm.2.1 (Or.inl rfl) (sym_solid hf) (after_map ha hb hc hr hk), resolve_plain cfg hm]
  simp only [Out.bind]
  rw [if_neg (by decide), mkSymbol_mangled cfg hf hq, args_ok cfg m _ ha hb hc hr hk hn]
  rfl

/-- C75: `<main>` is the main module. -/
theorem C75_main (cfg : Cfg) {m f a b c r : List Char} {v code n : Nat} {k : List (List Char)}
    (hmain : cfg.main = some m) (hm1 : ∀ x ∈ m, x ≠ '\x01') (hf : SymName f) (hq : f.head? ≠ some '?') (ha : Number a)
    (hb : Number b) (hc : Number c) (hr : Count r v) (hk : Conv cfg k code) (hn : regCount cfg.arch code = some n) :
    parse cfg (['<', 'm', 'a', 'i', 'n', '>'] ++ '!' :: (f ++ tail (a :: b :: c :: r :: k))) =
      .ok (described m (.inl (stem cfg m ++ '!' :: f)) a b c v code n) := by
  rw [parse_front cfg ⟨by decide, by decide⟩ (by decide) (Or.inl rfl) (sym_solid hf) (after_map ha hb hc hr hk)]
  have : resolve cfg ['<', 'm', 'a', 'i', 'n', '>'] = .ok m := by
    unfold resolve
    rw [if_pos rfl, hmain]
  rw [this]
  simp only [Out.bind]
  rw [if_neg (by decide), mkSymbol_plain cfg hm1 hf hq, args_ok cfg m _ ha hb hc hr hk hn]
  rfl

/-- Hexadecimal digits. -/
def HexNumber (s : List Char) : Prop := s ≠ [] ∧ ∀ c ∈ s, isHex c = true

theorem hex_field {s : List Char} (h : HexNumber s) : Field ('0' :: 'x' :: s) := by
  refine ⟨by simp, ?_⟩
  intro c hc
  rcases List.mem_cons.mp hc with hc | hc
  · rw [hc]; decide
  rcases List.mem_cons.mp hc with hc | hc
  · rw [hc]; decide
  have hh := h.2 c hc
  constructor
  · apply Decidable.byContradiction
    intro hx
    rw [Bool.not_eq_false, space_iff] at hx
    rcases hx with hx | hx | hx | hx <;> rw [hx] at hh <;> exact absurd hh (by decide)
  · intro hx
    rw [hx] at hh
    exact absurd hh (by decide)

/-- C75: `<module>+0x<offset>` is that offset in that module. -/
theorem C75_offset (cfg : Cfg) {m h a b c r : List Char} {v code n : Nat} {k : List (List Char)} (hm : ModName m)
    (hh : HexNumber h) (ha : Number a) (hb : Number b)
    (hc : Number c) (hr : Count r v) (hk : Conv cfg k code) (hn : regCount cfg.arch code = some n) :
    parse cfg (m ++ '+' :: (('0' :: 'x' :: h) ++ tail (a :: b :: c :: r :: k))) =
      .ok (described m (.inr (hexVal h % 2 ^ 64)) a b c v code n) := by
  have hx := prep_field (hex_field hh)
  have hs : Solid (('0' :: 'x' :: h).map prep) := by rw [hx]; exact field_solid (hex_field hh)
  rw [parse_front cfg hm.1 hm.2.1 (Or.inr rfl) hs (after_map ha hb hc hr hk), resolve_plain cfg hm]
  simp only [Out.bind]
  rw [if_pos trivial, hx]
  have : scanX ('0' :: 'x' :: h) = some (hexVal h % 2 ^ 64) := by
    have e : List.take 2 ('0' :: 'x' :: h) = ['0', 'x'] := rfl
    unfold scanX
    rw [if_pos e]
    dsimp only [List.drop]
    rw [takeWhile_all hh.2, if_neg hh.1]
  unfold parseOffset
  rw [this]
  dsimp only
  rw [args_ok cfg m _ ha hb hc hr hk hn]
  rfl

/-! ## The numbers, the stem and the table, in other words -/

theorem dig_ten : ∀ d, d < 10 → (Nat.digitChar d).toNat - '0'.toNat = d := by decide

theorem dig_sixteen : ∀ d, d < 16 → hexDig (Nat.digitChar d) = d ∧ isHex (Nat.digitChar d) = true := by decide

/-- C75: a number written in decimal is read as that number. -/
theorem C75_decimal (n : Nat) : Number (Nat.toDigits 10 n) ∧ decVal (Nat.toDigits 10 n) = n := by
  refine ⟨⟨Nat.toDigits_ne_nil, fun c hc => Nat.isDigit_of_mem_toDigits (by decide) (by decide) hc⟩, ?_⟩
  induction n using Nat.strongRecOn with
  | _ n ih =>
    by_cases h : n < 10
    · rw [Nat.toDigits_of_lt_base h]
      show 0 * 10 + ((Nat.digitChar n).toNat - '0'.toNat) = n
      rw [dig_ten n h]
      omega
    · rw [Nat.toDigits_of_base_le (by decide) (by omega)]
      unfold decVal
      rw [List.foldl_append]
      have := ih (n / 10) (by omega)
      unfold decVal at this
      rw [this]
      show n / 10 * 10 + ((Nat.digitChar (n % 10)).toNat - '0'.toNat) = n
      rw [dig_ten _ (by omega)]
      omega

/-- C75: an offset written in hexadecimal is read as that number. -/
theorem C75_hexadecimal (n : Nat) : HexNumber (Nat.toDigits 16 n) ∧ hexVal (Nat.toDigits 16 n) = n := by
  induction n using Nat.strongRecOn with
  | _ n ih =>
    by_cases h : n < 16
    · obtain ⟨h1, h2⟩ := dig_sixteen n h
      rw [Nat.toDigits_of_lt_base h]
      refine ⟨⟨by simp, ?_⟩, ?_⟩
      · intro c hc
        rw [List.mem_singleton.mp hc]
        exact h2
      · show 0 * 16 + hexDig (Nat.digitChar n) = n
        rw [h1]
        omega
    · obtain ⟨h1, h2⟩ := dig_sixteen (n % 16) (by omega)
      obtain ⟨⟨_, i1⟩, i2⟩ := ih (n / 16) (by omega)
      rw [Nat.toDigits_of_base_le (by decide) (by omega)]
      refine ⟨⟨by simp, ?_⟩, ?_⟩
      · intro c hc
        rcases List.mem_append.mp hc with hc | hc
        · exact i1 c hc
        · rw [List.mem_singleton.mp hc]
          exact h2
      · unfold hexVal at *
        rw [List.foldl_append, i2]
        show n / 16 * 16 + hexDig (Nat.digitChar (n % 16)) = n
        rw [h1]
        omega

theorem splitDot_at (x e : List Char) (he : ∀ c ∈ e, c ≠ '.') : splitDot (x ++ '.' :: e) = some (x, '.' :: e) := by
  have hrev : (x ++ '.' :: e).reverse = e.reverse ++ '.' :: x.reverse := by simp
  have hfind : (e.reverse ++ '.' :: x.reverse).findIdx? (· == '.') = some e.length := by
    have : ∀ (l : List Char) (r : List Char), (∀ c ∈ l, c ≠ '.') →
        (l ++ '.' :: r).findIdx? (· == '.') = some l.length := by
      intro l r hl
      induction l with
      | nil => rfl
      | cons a l ih =>
        have ha : (a == '.') = false := by simp [hl a List.mem_cons_self]
        rw [List.cons_append, List.findIdx?_cons, ha, ih (fun c hc => hl c (List.mem_cons_of_mem _ hc))]
        rfl
    rw [this _ _ (fun c hc => he c (List.mem_reverse.mp hc)), List.length_reverse]
  unfold splitDot
  dsimp only
  rw [hrev, hfind]
  dsimp only
  have h1 : (e.reverse ++ '.' :: x.reverse).drop (e.length + 1) = x.reverse := by
    rw [show e.length + 1 = e.reverse.length + 1 by rw [List.length_reverse], List.drop_append]
    simp
  have h2 : (e.reverse ++ '.' :: x.reverse).take e.length = e.reverse := by
    rw [show e.length = e.reverse.length by rw [List.length_reverse], List.take_left]
  rw [h1, h2, List.reverse_reverse, List.reverse_reverse]

/-- What ends the names of modules. -/
def Ending (cfg : Cfg) (e : List Char) : Prop :=
  if cfg.windows then e.map Char.toLower = ['e', 'x', 'e'] ∨ e.map Char.toLower = ['d', 'l', 'l']
  else e.map Char.toLower = ['s', 'o']

/-- C75: the module of a symbol is the module without .so (on Windows .exe or .dll), in whatever case; any other
ending stays, and so does a name without one. -/
theorem C75_stem (cfg : Cfg) (x e : List Char) (he : ∀ c ∈ e, c ≠ '.') :
    (Ending cfg e → stem cfg (x ++ '.' :: e) = x) ∧ (¬ Ending cfg e → stem cfg (x ++ '.' :: e) = x ++ '.' :: e) ∧
      stem cfg e = e := by
  have hx : isExt cfg ('.' :: e) = true ↔ Ending cfg e := by
    unfold isExt Ending
    dsimp only
    cases cfg.windows with
    | true => simp [show Char.toLower '.' = '.' by decide]
    | false => simp [show Char.toLower '.' = '.' by decide]
  have hno : splitDot e = none := by
    have : e.reverse.findIdx? (· == '.') = none := by
      rw [List.findIdx?_eq_none_iff]
      intro c hc
      simp [he c (List.mem_reverse.mp hc)]
    unfold splitDot
    dsimp only
    rw [this]
  refine ⟨?_, ?_, ?_⟩
  · intro h
    unfold stem
    rw [splitDot_at x e he]
    dsimp only
    rw [if_pos (hx.mpr h)]
  · intro h
    unfold stem
    rw [splitDot_at x e he]
    dsimp only
    rw [if_neg (fun hh => h (hx.mp hh))]
  · unfold stem
    rw [hno]

/-- The registers that each convention passes arguments in, by code (optionsx.h:680-686): those of the AMD64
ABI, of Microsoft's for 64 bits, and of ARM, none, ecx and edx, ecx. -/
def passed : Arch → List (Nat × List String)
  | .x64 => [(1, ["rdi", "rsi", "rdx", "rcx", "r8", "r9"]), (2, ["rcx", "rdx", "r8", "r9"]), (4, []), (5, ["rcx", "rdx"]),
      (6, ["rcx"])]
  | .x86 => [(4, []), (5, ["ecx", "edx"]), (6, ["ecx"])]
  | .arm => [(3, ["r0", "r1", "r2", "r3"])]

/-- C75: the known conventions are these, with that many registers, and there are no others. -/
theorem C75_table (a : Arch) (code n : Nat) :
    regCount a code = some n ↔ ∃ rs, (code, rs) ∈ passed a ∧ rs.length = n := by
  by_cases h : code < 7
  · have : code = 0 ∨ code = 1 ∨ code = 2 ∨ code = 3 ∨ code = 4 ∨ code = 5 ∨ code = 6 := by omega
    rcases this with h | h | h | h | h | h | h <;> subst h <;> cases a <;> simp [regCount, passed]
  · have h1 : regCount a code = none := by
      unfold regCount
      split <;> first | rfl | omega
    rw [h1]
    constructor
    · intro hh; cases hh
    · rintro ⟨rs, hm, _⟩
      exfalso
      cases a <;> simp [passed] at hm <;> omega

/-! ## What is not accepted -/

/-- C75: without a separator there is no target. -/
theorem C75_no_separator (cfg : Cfg) {d : List Char} (h : ∀ c ∈ d, c ≠ '!' ∧ c ≠ '+') : parse cfg d = .abort := by
  have : (d.map prep).findIdx? (fun c => c == '!' || c == '+') = none := by
    rw [List.findIdx?_eq_none_iff]
    intro c hc
    obtain ⟨x, hx, hxc⟩ := List.mem_map.mp hc
    obtain ⟨h1, h2⟩ := h x hx
    rw [← hxc]
    unfold prep
    by_cases hb : x = ' '
    · rw [if_pos hb]; decide
    · rw [if_neg hb]
      by_cases hp : x = '|'
      · rw [if_pos hp]; decide
      · rw [if_neg hp]; simp [h1, h2]
  unfold parse
  dsimp only
  rw [this]

/-- The numbers at the front of the arguments are read one by one. -/
theorem parseArgs_stop (cfg : Cfg) (m : List Char) (f : List Char ⊕ Nat) {ns : List (List Char)} (hl : ns.length < 4)
    (hns : ∀ s ∈ ns, Number s) {rest : List Char} (hr : After rest) (hbad : nextInt ⟨false, rest⟩ = .abort) :
    parseArgs cfg m f ⟨false, ns.flatMap (fun g => ' ' :: g) ++ rest⟩ = .abort := by
  have step : ∀ {s : List Char} {t : List (List Char)}, Number s →
      nextInt ⟨false, (s :: t).flatMap (fun g => ' ' :: g) ++ rest⟩ =
        .ok (decVal s % 2 ^ 32, ⟨false, t.flatMap (fun g => ' ' :: g) ++ rest⟩) := by
    intro s t hs
    have he : (s :: t).flatMap (fun g => ' ' :: g) ++ rest = ' ' :: (s ++ (t.flatMap (fun g => ' ' :: g) ++ rest)) := by
      simp [List.flatMap_cons]
    rw [he]
    apply nextInt_number hs
    cases t with
    | nil => exact hr
    | cons x t => exact Or.inr ⟨_, rfl⟩
  unfold parseArgs
  match ns, hl, hns with
  | [], _, _ =>
    simp only [List.flatMap_nil, List.nil_append]
    rw [hbad]; rfl
  | [a], _, h =>
    rw [step (h a (by simp))]
    simp only [Out.bind, List.flatMap_nil, List.nil_append]
    rw [hbad]
  | [a, b], _, h =>
    rw [step (h a (by simp))]
    simp only [Out.bind]
    rw [step (h b (by simp))]
    simp only [List.flatMap_nil, List.nil_append]
    rw [hbad]
  | [a, b, c], _, h =>
    rw [step (h a (by simp))]
    simp only [Out.bind]
    rw [step (h b (by simp))]
    simp only
    rw [step (h c (by simp))]
    simp only [List.flatMap_nil, List.nil_append]
    rw [hbad]
  | _ :: _ :: _ :: _ :: _, hl, _ => simp at hl; omega

/-- C75: with fewer than four numbers after the function there is no target. -/
theorem C75_missing (cfg : Cfg) {m f : List Char} {ns : List (List Char)} (hm : ModName m) (hf : SymName f)
    (hl : ns.length < 4) (hns : ∀ s ∈ ns, Number s) : parse cfg (m ++ '!' :: (f ++ tail ns)) = .abort := by
  have hfs : ∀ g ∈ ns, Field g := fun g hg => number_field (hns g hg)
  have haf : After ((tail ns).map prep) := by rw [tail_prep hfs]; exact after_tail _
  rw [parse_front cfg hm.1 hm.2.1 (Or.inl rfl) (sym_solid hf) haf, resolve_plain cfg hm]
  simp only [Out.bind]
  rw [if_neg (by decide), tail_prep hfs]
  have := parseArgs_stop cfg m (.inl (mkSymbol cfg m (f.map prep))) hl hns (Or.inl rfl) nextInt_end
  rw [List.append_nil] at this
  exact this

/-- C75: a field that is not a number, where one of the four is due, makes no target: neither a digit nor a
sign is its first character. -/
theorem C75_not_a_number (cfg : Cfg) {m f : List Char} {ns : List (List Char)} {x : Char} {xs : List Char}
    {more : List (List Char)} (hm : ModName m) (hf : SymName f) (hl : ns.length < 4) (hns : ∀ s ∈ ns, Number s)
    (hx : Field (x :: xs)) (hd : x.isDigit = false) (hs : x ≠ '-' ∧ x ≠ '+') (hmore : ∀ s ∈ more, Field s) :
    parse cfg (m ++ '!' :: (f ++ tail (ns ++ (x :: xs) :: more))) = .abort := by
  have hfs : ∀ g ∈ ns ++ (x :: xs) :: more, Field g := by
    intro g hg
    rcases List.mem_append.mp hg with h | h
    · exact number_field (hns g h)
    · rcases List.mem_cons.mp h with h | h
      · rw [h]; exact hx
      · exact hmore g h
  have haf : After ((tail (ns ++ (x :: xs) :: more)).map prep) := by rw [tail_prep hfs]; exact after_tail _
  have hscan : scanD (x :: xs) = none := by
    have e1 : ¬ ((x :: xs).head? = some '-') := by rw [List.head?_cons]; intro h; injection h with h; exact hs.1 h
    have e2 : ¬ ((x :: xs).head? = some '+') := by rw [List.head?_cons]; intro h; injection h with h; exact hs.2 h
    have e3 : (if (x :: xs).head? = some '-' ∨ (x :: xs).head? = some '+' then (x :: xs).tail else x :: xs) = x :: xs :=
      if_neg (fun h => h.elim e1 e2)
    unfold scanD
    dsimp only
    rw [e3, List.takeWhile_cons, hd]
    simp
  rw [parse_front cfg hm.1 hm.2.1 (Or.inl rfl) (sym_solid hf) haf, resolve_plain cfg hm]
  simp only [Out.bind]
  rw [if_neg (by decide), tail_prep hfs, List.flatMap_append]
  apply parseArgs_stop cfg m _ hl hns (after_tail _)
  rw [List.flatMap_cons, List.cons_append]
  exact nextInt_bad (field_solid hx) hscan (after_tail _)

/-- C75: nothing but a known calling convention is accepted, and the arguments are those in its registers
and those on the stack. -/
theorem C75_convention (cfg : Cfg) {d : List Char} {t : Target} (h : parse cfg d = .ok t) :
    ∃ n, regCount cfg.arch t.code = some n ∧ t.regs = min t.argCount n ∧ t.regs + t.stack = t.argCount := by
  have key : ∀ m f tk, parseArgs cfg m f tk = .ok t →
      ∃ n, regCount cfg.arch t.code = some n ∧ t.regs = min t.argCount n ∧ t.regs + t.stack = t.argCount := by
    intro m f tk h
    unfold parseArgs at h
    cases h1 : nextInt tk with
    | no => rw [h1] at h; cases h
    | abort => rw [h1] at h; cases h
    | ok a =>
    rw [h1] at h
    simp only [Out.bind] at h
    cases h2 : nextInt a.2 with
    | no => rw [h2] at h; cases h
    | abort => rw [h2] at h; cases h
    | ok b =>
    rw [h2] at h
    simp only at h
    cases h3 : nextInt b.2 with
    | no => rw [h3] at h; cases h
    | abort => rw [h3] at h; cases h
    | ok c =>
    rw [h3] at h
    simp only at h
    cases h4 : nextInt c.2 with
    | no => rw [h4] at h; cases h
    | abort => rw [h4] at h; cases h
    | ok r =>
    rw [h4] at h
    simp only at h
    split at h
    · rename_i code _
      dsimp only at h
      split at h
      · cases h
      · rename_i n hn
        injection h with h
        subst h
        refine ⟨n, hn, rfl, ?_⟩
        dsimp only
        omega
    · cases h
    · cases h
  unfold parse at h
  dsimp only at h
  split at h
  · cases h
  · rename_i n hn
    cases h1 : copyTo ⟨true, (d.map prep).set n ' '⟩ n with
    | no => rw [h1] at h; cases h
    | abort => rw [h1] at h; cases h
    | ok x =>
    rw [h1] at h
    simp only [Out.bind] at h
    cases h2 : resolve cfg x.1 with
    | no => rw [h2] at h; cases h
    | abort => rw [h2] at h; cases h
    | ok m =>
    rw [h2] at h
    simp only at h
    cases h3 : copyNext x.2 with
    | no => rw [h3] at h; cases h
    | abort => rw [h3] at h; cases h
    | ok f =>
    rw [h3] at h
    simp only at h
    split at h
    · unfold parseOffset at h
      split at h
      · cases h
      · exact key _ _ _ h
    · exact key _ _ _ h

/-- How many of the characters are white space. -/
def blanks (s : List Char) : Nat := s.countP isSpace

theorem blanks_dropWhile (p : Char → Bool) (s : List Char) : blanks (s.dropWhile p) ≤ blanks s :=
  (List.dropWhile_sublist p).countP_le

/-- What a token leaves: nothing, or white space and more. -/
def Behind (s : List Char) : Prop := s = [] ∨ ∃ c r, s = c :: r ∧ isSpace c = true

theorem behind_dropWhile (s : List Char) : Behind (s.dropWhile (fun c => !isSpace c)) := by
  induction s with
  | nil => exact Or.inl rfl
  | cons a s ih =>
    rw [List.dropWhile_cons]
    cases h : isSpace a with
    | false => simpa using ih
    | true => exact Or.inr ⟨a, s, by simp, h⟩

theorem copyTo_behind {t : Tok} {n : Nat} {x : List Char × Tok} (h : copyTo t n = .ok x) :
    x.2.start = false ∧ Behind x.2.src ∧ blanks x.2.src ≤ blanks t.src := by
  unfold copyTo getToken at h
  dsimp only at h
  split at h
  · cases h
  · rename_i tok rest hg
    split at hg
    · cases hg
    · injection hg with hg
      injection hg with h1 h2
      injection h with h
      subst h
      refine ⟨rfl, ?_, ?_⟩
      · rw [← h2]; exact behind_dropWhile _
      · rw [← h2]
        exact Nat.le_trans (blanks_dropWhile _ _) (blanks_dropWhile _ _)

theorem copyNext_behind {t : Tok} {x : List Char × Tok} (hs : t.start = false) (hb : Behind t.src)
    (h : copyNext t = .ok x) : x.2.start = false ∧ Behind x.2.src ∧ blanks x.2.src + 1 ≤ blanks t.src := by
  have htail : t.src ≠ [] → blanks t.src.tail + 1 = blanks t.src := by
    intro hne
    rcases hb with hb | ⟨c, r, hb, hc⟩
    · exact absurd hb hne
    · rw [hb]
      unfold blanks
      rw [List.tail_cons, List.countP_cons_of_pos hc]
  unfold copyNext findNext at h
  dsimp only at h
  rw [hs, if_neg (by decide)] at h
  have hne : t.src ≠ [] := by
    intro hh
    rw [hh] at h
    exact absurd h (by intro hx; cases hx)
  have key : ∀ n, copyTo ⟨false, t.src.tail⟩ n = .ok x →
      x.2.start = false ∧ Behind x.2.src ∧ blanks x.2.src + 1 ≤ blanks t.src := by
    intro n hc
    obtain ⟨h1, h2, h3⟩ := copyTo_behind hc
    refine ⟨h1, h2, ?_⟩
    have := htail hne
    dsimp only at h3
    omega
  split at h
  · exact key _ h
  · split at h
    · cases h
    · exact key _ h

theorem nextInt_behind {t : Tok} {x : Nat × Tok} (hs : t.start = false) (hb : Behind t.src)
    (h : nextInt t = .ok x) : x.2.start = false ∧ Behind x.2.src ∧ blanks x.2.src + 1 ≤ blanks t.src := by
  unfold nextInt at h
  cases hc : copyNext t with
  | no => rw [hc] at h; cases h
  | abort => rw [hc] at h; cases h
  | ok y =>
    rw [hc] at h
    dsimp only [Out.bind] at h
    split at h
    · injection h with h
      subst h
      exact copyNext_behind hs hb hc
    · cases h

theorem parseArgs_behind {cfg : Cfg} {m : List Char} {f : List Char ⊕ Nat} {tk : Tok} {t : Target} (hs : tk.start = false)
    (hb : Behind tk.src) (h : parseArgs cfg m f tk = .ok t) : 4 ≤ blanks tk.src := by
  unfold parseArgs at h
  cases h1 : nextInt tk with
  | no => rw [h1] at h; cases h
  | abort => rw [h1] at h; cases h
  | ok a =>
  obtain ⟨a1, a2, a3⟩ := nextInt_behind hs hb h1
  rw [h1] at h
  simp only [Out.bind] at h
  cases h2 : nextInt a.2 with
  | no => rw [h2] at h; cases h
  | abort => rw [h2] at h; cases h
  | ok b =>
  obtain ⟨b1, b2, b3⟩ := nextInt_behind a1 a2 h2
  rw [h2] at h
  simp only at h
  cases h3 : nextInt b.2 with
  | no => rw [h3] at h; cases h
  | abort => rw [h3] at h; cases h
  | ok c =>
  obtain ⟨c1, c2, c3⟩ := nextInt_behind b1 b2 h3
  rw [h3] at h
  simp only at h
  cases h4 : nextInt c.2 with
  | no => rw [h4] at h; cases h
  | abort => rw [h4] at h; cases h
  | ok r =>
  obtain ⟨_, _, r3⟩ := nextInt_behind c1 c2 h4
  omega

theorem blanks_set {s : List Char} {n : Nat} : blanks (s.set n ' ') ≤ blanks s + 1 := by
  unfold blanks
  induction s generalizing n with
  | nil => simp
  | cons a s ih =>
    cases n with
    | zero =>
      rw [List.set_cons_zero, List.countP_cons, List.countP_cons]
      split <;> split <;> omega
    | succ n =>
      rw [List.set_cons_succ, List.countP_cons, List.countP_cons]
      have := @ih n
      omega

theorem blanks_prep (d : List Char) :
    blanks (d.map prep) = d.countP (fun c => c == '|' || c == '\t' || c == '\n' || c == '\r') := by
  unfold blanks
  rw [List.countP_map]
  apply List.countP_congr
  intro c _
  show isSpace (prep c) = true ↔ _
  unfold prep
  by_cases h1 : c = ' '
  · rw [if_pos h1, h1]; decide
  · rw [if_neg h1]
    by_cases h2 : c = '|'
    · rw [if_pos h2, h2]; decide
    · rw [if_neg h2, space_iff]
      simp [h1, h2, or_assoc]

/-- C75: whatever the descriptor, one that is accepted has a separator and the four bars of its numbers (tabs
and ends of lines do for bars). -/
theorem C75_accepted (cfg : Cfg) {d : List Char} {t : Target} (h : parse cfg d = .ok t) :
    (∃ c ∈ d, c = '!' ∨ c = '+') ∧ 4 ≤ d.countP (fun c => c == '|' || c == '\t' || c == '\n' || c == '\r') := by
  constructor
  · apply Classical.byContradiction
    intro hn
    have : parse cfg d = .abort := C75_no_separator cfg (by
      intro c hc
      constructor <;> intro hh <;> apply hn
      · exact ⟨c, hc, Or.inl hh⟩
      · exact ⟨c, hc, Or.inr hh⟩)
    rw [this] at h
    cases h
  · rw [← blanks_prep]
    unfold parse at h
    dsimp only at h
    split at h
    · cases h
    · rename_i n hn
      cases h1 : copyTo ⟨true, (d.map prep).set n ' '⟩ n with
      | no => rw [h1] at h; cases h
      | abort => rw [h1] at h; cases h
      | ok x =>
      obtain ⟨x1, x2, x3⟩ := copyTo_behind h1
      rw [h1] at h
      simp only [Out.bind] at h
      cases h2 : resolve cfg x.1 with
      | no => rw [h2] at h; cases h
      | abort => rw [h2] at h; cases h
      | ok m =>
      rw [h2] at h
      simp only at h
      cases h3 : copyNext x.2 with
      | no => rw [h3] at h; cases h
      | abort => rw [h3] at h; cases h
      | ok f =>
      obtain ⟨f1, f2, f3⟩ := copyNext_behind x1 x2 h3
      have hset : blanks ((d.map prep).set n ' ') ≤ blanks (d.map prep) + 1 := blanks_set
      have h4 : 4 ≤ blanks f.2.src := by
        rw [h3] at h
        simp only at h
        split at h
        · unfold parseOffset at h
          split at h
          · cases h
          · exact parseArgs_behind f1 f2 h
        · exact parseArgs_behind f1 f2 h
      dsimp only at x3
      omega

/-! ## Modules -/

/-- All the events. -/
def events (l : Life) (es : List Ev) : Life := es.foldl event l

theorem events_cons (l : Life) (e : Ev) (es : List Ev) : events l (e :: es) = events (event l e) es := rfl

theorem event_freed (e : Ev) : event freed e = freed := by
  cases e with
  | load m => unfold event; dsimp only; rw [if_neg (by intro h; cases h.2)]
  | unload m => unfold event; dsimp only; rw [if_neg (by intro h; cases h.1)]

theorem events_freed (es : List Ev) : events freed es = freed := by
  induction es with
  | nil => rfl
  | cons e es ih => rw [events_cons, event_freed, ih]

theorem events_on {l : Life} (h1 : l.enabled = true) (h2 : l.start ≠ 0) {es : List Ev}
    (h : ∀ x, Ev.unload x ∈ es → x.start ≠ l.start) : events l es = l := by
  induction es with
  | nil => rfl
  | cons e es ih =>
    have he : event l e = l := by
      cases e with
      | load x => unfold event; dsimp only; rw [if_neg (fun hh => h2 hh.1)]
      | unload x =>
        unfold event
        dsimp only
        rw [if_neg (fun hh => h x List.mem_cons_self hh.2.symm)]
    rw [events_cons, he]
    exact ih (fun x hx => h x (List.mem_cons_of_mem _ hx))

/-- C75: a target whose module is loaded when the fuzzer starts is fuzzed from then on, until that module is
unloaded. -/
theorem C75_loaded_partial (cfg : Cfg) {d : List Char} {t : Target} {loaded : List Mod} {m : Mod} (hf : isFile d = false)
    (hp : parse cfg d = .ok t) (hl : loaded.find? (fun x => x.name == t.module) = some m) (hr : m.reg = true)
    (h0 : m.start ≠ 0) {es : List Ev} (h : ∀ x, Ev.unload x ∈ es → x.start ≠ m.start) :
    ∃ l, begin cfg d loaded = .ok l ∧ (events l es).enabled = true ∧ (events l es).start = m.start := by
  refine ⟨⟨some t.module, true, m.start⟩, ?_, ?_⟩
  · unfold begin
    rw [if_neg (by rw [hf]; decide), hp]
    dsimp only
    rw [hl]
    dsimp only
    rw [if_pos hr]
  · rw [events_on rfl h0 h]
    exact ⟨rfl, rfl⟩

/-- C75: a target of the options, whose module comes later, is fuzzed when that module is loaded. -/
theorem C75_options_later {name : List Char} {es es' : List Ev} {m : Mod} (hn : m.name = name) (hr : m.reg = true)
    (h0 : m.start ≠ 0) (h : ∀ x, Ev.load x ∈ es → x.name ≠ name) (h' : ∀ x, Ev.unload x ∈ es' → x.start ≠ m.start) :
    (events (beginOptions name) (es ++ Ev.load m :: es')).enabled = true ∧
      (events (beginOptions name) (es ++ Ev.load m :: es')).start = m.start := by
  have hes : events (beginOptions name) es = beginOptions name := by
    induction es with
    | nil => rfl
    | cons e es ih =>
      have he : event (beginOptions name) e = beginOptions name := by
        cases e with
        | load x =>
          unfold event
          dsimp only
          rw [if_neg]
          intro hh
          have := hh.2
          unfold beginOptions at this
          injection this with this
          exact h x List.mem_cons_self this.symm
        | unload x => unfold event; dsimp only; rw [if_neg (by intro hh; cases hh.1)]
      rw [events_cons, he]
      exact ih (fun x hx => h x (List.mem_cons_of_mem _ hx))
  have hev : event (beginOptions name) (.load m) = ⟨some name, true, m.start⟩ := by
    unfold event beginOptions
    dsimp only
    rw [if_pos ⟨rfl, by rw [hn]⟩, hr, if_pos rfl]
  have : events (beginOptions name) (es ++ Ev.load m :: es') = events ⟨some name, true, m.start⟩ es' := by
    unfold events at *
    rw [List.foldl_append, hes, List.foldl_cons, hev]
  rw [this, events_on rfl h0 h']
  exact ⟨rfl, rfl⟩

end Verif.FuzzTarget
