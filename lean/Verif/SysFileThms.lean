import Verif.SysFile

/-!
# C65: what is read from the file of system call numbers
-/

namespace Verif.SysFile

/-! ## The documented format (/repo/drsyscall/drsyscall.h:405-446), stated on its own -/

/-- End of a line, with or without a carriage return. -/
def eol : Bool → Str
  | true => ['\r', '\n']
  | false => ['\n']

/-- An entry: name, number, kind of line end. -/
structure Entry where
  name : Str
  num : Nat
  cr : Bool

/-- A list for one kernel. -/
structure Listing where
  num : Nat
  cr : Bool
  items : List Entry
  endCr : Bool

/-- Text of an entry. -/
def Entry.text (e : Entry) : Str := e.name ++ '=' :: '0' :: 'x' :: (hex e.num ++ eol e.cr)

/-- Text of the entries. -/
def itemsText : List Entry → Str
  | [] => []
  | e :: es => e.text ++ itemsText es

/-- Text of a list without its last line end. -/
def Listing.opened (l : Listing) : Str :=
  start ++ (hex l.num ++ (eol l.cr ++ (itemsText l.items ++ footer)))

/-- Text of a list. -/
def Listing.text (l : Listing) : Str := l.opened ++ eol l.endCr

/-- Text of several lists. -/
def listsText : List Listing → Str
  | [] => []
  | l :: ls => l.text ++ listsText ls

/-- The file: header, version, name of the system call that tells kernels apart, lists. -/
def fileText (c1 c2 c3 : Bool) (name : Str) (body : Str) : Str :=
  header ++ (eol c1 ++ ('1' :: (eol c2 ++ (name ++ (eol c3 ++ body)))))

/-- Names that the format can carry. -/
structure GoodName (n : Str) : Prop where
  first : ∃ c s, n = c :: s ∧ 'A' ≤ c ∧ c ≤ 'Z'
  chars : ∀ c ∈ n, c ≠ '=' ∧ c ≠ '\n'
  short : n.length < 260
  other : n ≠ "START".toList

/-- Entries that the format can carry. -/
def GoodEntry (e : Entry) : Prop := GoodName e.name ∧ e.num < 4294967296

/-- Lists that the format can carry. -/
def GoodList (l : Listing) : Prop := l.num < 4294967296 ∧ ∀ e ∈ l.items, GoodEntry e

/-- What a list says. -/
def Listing.says (l : Listing) : List (Str × Nat) := l.items.map fun e => (e.name, e.num)

/-! ## Text functions -/

theorem strchr_skip {c : Char} : ∀ (w : Str) (rest : Str), (∀ x ∈ w, x ≠ c) →
    strchr c (w ++ rest) = strchr c rest
  | [], _, _ => rfl
  | x :: w, rest, h => by
    rw [List.cons_append, strchr, if_neg (h x (by simp))]
    exact strchr_skip w rest (fun y hy => h y (by simp [hy]))

theorem dchr_skip {c d : Char} : ∀ (w : Str) (rest : Str), (∀ x ∈ w, x ≠ c ∧ x ≠ d) →
    dchr c d (w ++ rest) = dchr c d rest
  | [], _, _ => rfl
  | x :: w, rest, h => by
    have hx := h x (by simp)
    rw [List.cons_append, dchr, if_neg (by simp [hx.1, hx.2])]
    exact dchr_skip w rest (fun y hy => h y (by simp [hy]))

theorem isPre_append : ∀ (p rest : Str), isPre p (p ++ rest) = true
  | [], _ => by rw [isPre]
  | c :: p, rest => by
    rw [List.cons_append, isPre, isPre_append p rest]; simp

theorem isPre_iff : ∀ {p s : Str}, isPre p s = true ↔ ∃ t, s = p ++ t
  | [], s => by simp [isPre]
  | c :: p, [] => by simp [isPre]
  | c :: p, x :: s => by
    rw [isPre, Bool.and_eq_true, decide_eq_true_iff, isPre_iff]
    constructor
    · rintro ⟨rfl, t, rfl⟩; exact ⟨t, rfl⟩
    · rintro ⟨t, ht⟩
      rw [List.cons_append] at ht
      injection ht with h1 h2
      exact ⟨h1.symm, t, h2⟩

theorem strstr_skip (q : Str) : ∀ (w rest : Str), (∀ x ∈ w, x ≠ '\n') →
    strstr ('\n' :: q) (w ++ rest) = strstr ('\n' :: q) rest
  | [], _, _ => rfl
  | x :: w, rest, h => by
    have hx : ¬ '\n' = x := fun he => h x (by simp) he.symm
    rw [List.cons_append, strstr, if_neg (by simp [isPre, hx])]
    exact strstr_skip q w rest (fun y hy => h y (by simp [hy]))

/-- A line that does not begin like `q` is passed over. -/
theorem strstr_line (q w rest : Str) (hw : ∀ x ∈ w, x ≠ '\n')
    (hq : isPre q (w ++ '\n' :: rest) = false) :
    strstr ('\n' :: q) ('\n' :: (w ++ '\n' :: rest)) = strstr ('\n' :: q) ('\n' :: rest) := by
  rw [strstr, if_neg (by rw [isPre, hq]; simp)]
  exact strstr_skip q w _ hw

theorem take_to (w rest : Str) : (w ++ rest).take ((w ++ rest).length - rest.length) = w := by
  have : (w ++ rest).length - rest.length = w.length := by simp
  rw [this, List.take_left]

/-! ## Numbers -/

theorem hexVal_digit : ∀ n, n < 16 → hexVal (hexDigit n) = some n := by decide +kernel

theorem digits_append (val : Char → Option Nat) (b : Nat) : ∀ (s rest : Str) (acc : Nat),
    (∀ c ∈ s, (val c).isSome) →
    digits val b acc (s ++ rest) = digits val b (digits val b acc s) rest
  | [], _, _, _ => by simp [digits]
  | c :: s, rest, acc, h => by
    obtain ⟨v, hv⟩ := Option.isSome_iff_exists.mp (h c (by simp))
    rw [List.cons_append, digits, hv]
    conv => rhs; rw [digits, hv]
    exact digits_append val b s rest _ (fun y hy => h y (by simp [hy]))

theorem hex_digits (n : Nat) : ∀ c ∈ hex n, (hexVal c).isSome := by
  induction n using Nat.strongRecOn with
  | _ n ih =>
    intro c hc
    rw [hex] at hc
    split at hc
    · rename_i h
      rw [List.mem_singleton] at hc
      rw [hc, hexVal_digit n h]; rfl
    · rename_i h
      rw [List.mem_append, List.mem_singleton] at hc
      rcases hc with hc | hc
      · exact ih (n / 16) (by omega) c hc
      · rw [hc, hexVal_digit _ (by omega)]; rfl

theorem hex_value (n : Nat) : digits hexVal 16 0 (hex n) = n := by
  induction n using Nat.strongRecOn with
  | _ n ih =>
    rw [hex]
    split
    · rename_i h
      simp [digits, hexVal_digit n h]
    · rename_i h
      rw [digits_append _ _ _ _ _ (hex_digits _), ih (n / 16) (by omega)]
      simp only [digits, hexVal_digit _ (show n % 16 < 16 by omega)]
      omega

theorem hex_ne (n : Nat) : ∃ c s, hex n = c :: s := by
  rw [hex]
  split
  · exact ⟨_, _, rfl⟩
  · cases hex (n / 16) with
    | nil => exact ⟨_, _, rfl⟩
    | cons c s => exact ⟨c, _, rfl⟩

theorem digits_stop (v : Nat) (cr : Bool) (rest : Str) :
    digits hexVal 16 v (eol cr ++ rest) = v := by
  cases cr
  · show digits hexVal 16 v ('\n' :: rest) = v
    rw [digits, show hexVal '\n' = none by decide +kernel]
  · show digits hexVal 16 v ('\r' :: '\n' :: rest) = v
    rw [digits, show hexVal '\r' = none by decide +kernel]

theorem scanHex_hex {n : Nat} (hn : n < 4294967296) (cr : Bool) (rest : Str) :
    scanHex (hex n ++ (eol cr ++ rest)) = some n := by
  have hv : digits hexVal 16 0 (hex n ++ (eol cr ++ rest)) = n := by
    rw [digits_append _ _ _ _ _ (hex_digits n), hex_value, digits_stop]
  obtain ⟨c, s, hs⟩ := hex_ne n
  have hc : (hexVal c).isSome := hex_digits n c (by rw [hs]; simp)
  obtain ⟨v, hcv⟩ := Option.isSome_iff_exists.mp hc
  rw [hs, List.cons_append] at hv ⊢
  rw [scanHex, hcv]
  dsimp only
  rw [hv, Nat.mod_eq_of_lt hn]

theorem scanAfter_hex (p : Str) {n : Nat} (hn : n < 4294967296) (cr : Bool) (rest : Str) :
    scanAfter p (p ++ (hex n ++ (eol cr ++ rest))) = some n := by
  rw [scanAfter, if_pos (isPre_append _ _), List.drop_left, scanHex_hex hn]

theorem hex_no_nl (n : Nat) : ∀ c ∈ hex n, c ≠ '\n' := by
  intro c hc he
  have := hex_digits n c hc
  rw [he] at this
  exact absurd this (by decide +kernel)

/-- The part of a line end before the newline. -/
def cr : Bool → Str
  | true => ['\r']
  | false => []

theorem eol_eq (b : Bool) : eol b = cr b ++ ['\n'] := by cases b <;> rfl

theorem cr_no_nl (b : Bool) : ∀ c ∈ cr b, c ≠ '\n' := by
  cases b <;> simp [cr]

theorem strchr_eol (w : Str) (b : Bool) (rest : Str) (hw : ∀ x ∈ w, x ≠ '\n') :
    strchr '\n' (w ++ (eol b ++ rest)) = some ('\n' :: rest) := by
  rw [strchr_skip w _ hw, eol_eq, List.append_assoc, strchr_skip _ _ (cr_no_nl b)]
  rfl

/-! ## The entries -/

theorem isPre_name {n : Str} (h : GoodName n) (rest : Str) : isPre footer (n ++ rest) = false := by
  obtain ⟨c, s, rfl, h1, h2⟩ := h.first
  have : c ≠ '=' := (h.chars c (by simp)).1
  have : ¬ '=' = c := fun he => this he.symm
  show isPre ('=' :: _) (c :: (s ++ rest)) = false
  rw [isPre]; simp [this]

theorem capital_name {n : Str} (h : GoodName n) : capital n = true := by
  obtain ⟨c, s, rfl, h1, h2⟩ := h.first
  rw [capital]; exact decide_eq_true ⟨h1, h2⟩

theorem entries_step {e : Entry} (h : GoodEntry e) (rest : Str) (acc : List (Str × Nat)) :
    entries (e.text ++ rest) acc = entries rest (acc ++ [(e.name, e.num)]) := by
  have ht : e.text ++ rest =
      e.name ++ ('=' :: ("0x".toList ++ (hex e.num ++ (eol e.cr ++ rest)))) := by
    simp [Entry.text, List.append_assoc]
  rw [ht, entries, if_neg (by rw [isPre_name h.1]; simp)]
  have hs : strchr '=' (e.name ++ ('=' :: ("0x".toList ++ (hex e.num ++ (eol e.cr ++ rest))))) =
      some ('=' :: ("0x".toList ++ (hex e.num ++ (eol e.cr ++ rest)))) := by
    rw [strchr_skip _ _ (fun x hx => (h.1.chars x hx).1)]; rfl
  split
  · rename_i h0; rw [hs] at h0; cases h0
  · rename_i search h0
    rw [hs] at h0
    cases h0
    simp only [take_to, List.tail_cons]
    rw [if_neg (by have := h.1.short; simp only [maxPath]; omega),
      if_neg (by rw [capital_name h.1]; simp), scanAfter_hex _ h.2]
    dsimp only
    have hl : strchr '\n' ("0x".toList ++ (hex e.num ++ (eol e.cr ++ rest))) =
        some ('\n' :: rest) := by
      rw [strchr_skip _ _ (by decide), strchr_eol _ _ _ (hex_no_nl _)]
    split
    · rename_i h1; rw [hl] at h1; cases h1
    · rename_i l h1
      rw [hl] at h1
      cases h1
      rfl

theorem entries_all (rest : Str) : ∀ (es : List Entry) (acc : List (Str × Nat)),
    (∀ e ∈ es, GoodEntry e) →
    entries (itemsText es ++ (footer ++ rest)) acc =
      .ok (acc ++ es.map fun e => (e.name, e.num))
  | [], acc, _ => by
    rw [itemsText, List.nil_append, entries, if_pos (isPre_append _ _)]; simp
  | e :: es, acc, h => by
    rw [itemsText, List.append_assoc, entries_step (h e (by simp)),
      entries_all rest es _ (fun x hx => h x (by simp [hx]))]
    simp

/-! ## The search for the list -/

theorem findList_none {num : Nat} {a : Str} (h : strstr ('\n' :: start) a = none) :
    findList num a = none := by
  rw [findList]
  split
  · rfl
  · rename_i s h0; rw [h] at h0; cases h0

/-- One round of the search after a match. -/
def next (num : Nat) (s : Str) : Option Str :=
  match scanAfter start s.tail with
  | none => none
  | some v =>
    match strchr '\n' s.tail with
    | none => none
    | some l => if v = num then some l.tail else findList num l

theorem findList_some {num : Nat} {a s : Str} (h : strstr ('\n' :: start) a = some s) :
    findList num a = next num s := by
  rw [findList, next]
  split
  · rename_i h0; rw [h] at h0; cases h0
  · rename_i s' h0
    rw [h] at h0
    cases h0
    cases scanAfter start s.tail with
    | none => rfl
    | some v =>
      dsimp only
      split <;> rename_i h1 <;> rw [h1]

theorem findList_congr {num : Nat} {a b : Str}
    (h : strstr ('\n' :: start) a = strstr ('\n' :: start) b) :
    findList num a = findList num b := by
  cases hb : strstr ('\n' :: start) b with
  | none => rw [findList_none hb, findList_none (h.trans hb)]
  | some s => rw [findList_some hb, findList_some (h.trans hb)]

theorem prefix_name {n : Str} (hn : ∀ c ∈ n, c ≠ '=') : ∀ (p : Str) (t u : Str),
    (∀ c ∈ p, c ≠ '=') → n ++ '=' :: t = p ++ '=' :: u → n = p := by
  induction n with
  | nil =>
    intro p t u hp h
    cases p with
    | nil => rfl
    | cons c p =>
      injection h with h1 h2
      exact absurd h1.symm (hp c (by simp))
  | cons x n ih =>
    intro p t u hp h
    cases p with
    | nil =>
      injection h with h1 h2
      exact absurd h1 (hn x (by simp))
    | cons c p =>
      injection h with h1 h2
      rw [h1, ih (fun c hc => hn c (by simp [hc])) p t u (fun c hc => hp c (by simp [hc])) h2]

theorem not_start {e : Entry} (h : GoodEntry e) (rest : Str) :
    isPre start (e.name ++ ('=' :: rest)) = false := by
  rw [Bool.eq_false_iff]
  intro hp
  obtain ⟨t, ht⟩ := isPre_iff.mp hp
  exact h.1.other (prefix_name (fun c hc => (h.1.chars c hc).1) "START".toList rest
    ('0' :: 'x' :: t) (by decide) (by rw [ht]; rfl))

theorem skip_items (rest : Str) : ∀ (es : List Entry), (∀ e ∈ es, GoodEntry e) →
    strstr ('\n' :: start) ('\n' :: (itemsText es ++ rest)) =
      strstr ('\n' :: start) ('\n' :: rest)
  | [], _ => rfl
  | e :: es, h => by
    have he := h e (by simp)
    have ht : itemsText (e :: es) ++ rest =
        (e.name ++ ('=' :: '0' :: 'x' :: (hex e.num ++ cr e.cr))) ++
          '\n' :: (itemsText es ++ rest) := by
      simp [itemsText, Entry.text, eol_eq, List.append_assoc]
    rw [ht, strstr_line _ _ _ ?_ ?_, skip_items rest es (fun x hx => h x (by simp [hx]))]
    · intro x hx
      simp only [List.mem_append, List.mem_cons] at hx
      rcases hx with hx | rfl | rfl | rfl | hx | hx
      · exact (he.1.chars x hx).2
      · decide
      · decide
      · decide
      · exact hex_no_nl _ x hx
      · exact cr_no_nl _ x hx
    · rw [List.append_assoc]; exact not_start he _

theorem skip_footer (b : Bool) (rest : Str) :
    strstr ('\n' :: start) ('\n' :: (footer ++ (eol b ++ rest))) =
      strstr ('\n' :: start) ('\n' :: rest) := by
  have ht : footer ++ (eol b ++ rest) = (footer ++ cr b) ++ '\n' :: rest := by
    simp [eol_eq, List.append_assoc]
  rw [ht, strstr_line _ _ _ ?_ ?_]
  · intro x hx
    rw [List.mem_append] at hx
    rcases hx with hx | hx
    · revert x; decide
    · exact cr_no_nl _ x hx
  · rfl

theorem findList_open {l : Listing} (h : GoodList l) (num : Nat) (rest : Str) :
    findList num ('\n' :: (l.opened ++ rest)) =
      if l.num = num then some (itemsText l.items ++ (footer ++ rest))
      else findList num ('\n' :: (itemsText l.items ++ (footer ++ rest))) := by
  have ht : l.opened ++ rest = start ++ (hex l.num ++ (eol l.cr ++
      (itemsText l.items ++ (footer ++ rest)))) := by
    simp [Listing.opened, List.append_assoc]
  rw [ht]
  generalize itemsText l.items ++ (footer ++ rest) = T
  have hs : strstr ('\n' :: start) ('\n' :: (start ++ (hex l.num ++ (eol l.cr ++ T)))) =
      some ('\n' :: (start ++ (hex l.num ++ (eol l.cr ++ T)))) := by
    rw [strstr]; exact if_pos (isPre_append ('\n' :: start) _)
  have hl : strchr '\n' (start ++ (hex l.num ++ (eol l.cr ++ T))) = some ('\n' :: T) := by
    rw [strchr_skip start _ (by decide), strchr_eol _ _ _ (hex_no_nl _)]
  rw [findList_some hs, next, List.tail_cons, scanAfter_hex _ h.1, hl]
  dsimp only
  rw [List.tail_cons]

theorem findList_past {l : Listing} (h : GoodList l) {num : Nat} (hn : l.num ≠ num) (rest : Str) :
    findList num ('\n' :: (l.text ++ rest)) = findList num ('\n' :: rest) := by
  rw [Listing.text, List.append_assoc, findList_open h, if_neg hn]
  apply findList_congr
  rw [skip_items _ _ h.2, skip_footer]

theorem findList_skip (num : Nat) (rest : Str) : ∀ (ls : List Listing),
    (∀ l ∈ ls, GoodList l ∧ l.num ≠ num) →
    findList num ('\n' :: (listsText ls ++ rest)) = findList num ('\n' :: rest)
  | [], _ => rfl
  | l :: ls, h => by
    rw [listsText, List.append_assoc, findList_past (h l (by simp)).1 (h l (by simp)).2,
      findList_skip num rest ls (fun x hx => h x (by simp [hx]))]

theorem findList_nil (num : Nat) : findList num ['\n'] = none :=
  findList_none (by decide +kernel)

/-- Reading gets to the lists. -/
theorem read_body (wrapper : Str → Option Nat) (c1 c2 c3 : Bool) (name body : Str) (num : Nat)
    (hname : ∀ c ∈ name, c ≠ '\r' ∧ c ≠ '\n') (hlen : name.length < 260)
    (hw : wrapper name = some num) :
    read wrapper (fileText c1 c2 c3 name body) =
      match findList num ('\n' :: body) with
      | none => .bad []
      | some l => entries l [] := by
  have hd : ∀ t : Str, (let line := (header ++ (eol c1 ++ ('1' :: t))).drop (header.length + 1)
      if isPre ['\n'] line then line.tail else line) = '1' :: t := by
    intro t
    have : ∀ u : Str, (header ++ u).drop (header.length + 1) = u.drop 1 := by
      intro u; rw [← List.drop_drop, List.drop_left]
    rw [this]
    cases c1 <;> simp [eol, isPre]
  have hv : ∀ t : Str, scanDec ('1' :: (eol c2 ++ t)) = some 1 := by
    intro t
    rw [scanDec, show decVal '1' = some 1 by decide +kernel]
    dsimp only
    rw [digits, show decVal '1' = some 1 by decide +kernel]
    dsimp only
    cases c2
    · show some (digits decVal 10 _ ('\n' :: t) % _) = _
      rw [digits, show decVal '\n' = none by decide +kernel]; rfl
    · show some (digits decVal 10 _ ('\r' :: '\n' :: t) % _) = _
      rw [digits, show decVal '\r' = none by decide +kernel]; rfl
  have hx : ∀ t : Str, strchr '\n' ('1' :: (eol c2 ++ t)) = some ('\n' :: t) :=
    fun t => strchr_eol ['1'] c2 t (by decide)
  have hy : dchr '\r' '\n' (name ++ (eol c3 ++ body)) = some (eol c3 ++ body) := by
    rw [dchr_skip _ _ hname]
    cases c3 <;> simp [eol, dchr]
  have hf : findList num (name ++ (eol c3 ++ body)) = findList num ('\n' :: body) := by
    apply findList_congr
    rw [eol_eq, strstr_skip _ _ _ (fun x hx => (hname x hx).2), List.append_assoc,
      strstr_skip _ _ _ (cr_no_nl c3)]
    rfl
  rw [read, fileText, if_neg (by rw [isPre_append]; simp)]
  have hd' := hd (eol c2 ++ (name ++ (eol c3 ++ body)))
  dsimp only at hd' ⊢
  rw [hd', hv]
  dsimp only
  rw [if_neg (by decide), hx]
  simp only [List.tail_cons]
  rw [hy]
  dsimp only
  simp only [take_to]
  rw [if_neg (by simp only [maxPath]; omega), hw]
  dsimp only
  rw [hf]
  cases findList num ('\n' :: body) <;> rfl

/-- **C65** (reading).  From a file in the documented format, with either kind of line end on each
line, exactly the entries of the first list for this kernel are recorded, whatever follows its
`=END` (also nothing, if the last newline is missing). -/
theorem C65_read (wrapper : Str → Option Nat) (c1 c2 c3 : Bool) (name : Str) (num : Nat)
    (pre : List Listing) (l : Listing) (rest : Str)
    (hname : ∀ c ∈ name, c ≠ '\r' ∧ c ≠ '\n') (hlen : name.length < 260)
    (hw : wrapper name = some num)
    (hpre : ∀ p ∈ pre, GoodList p ∧ p.num ≠ num) (hl : GoodList l) (hn : l.num = num) :
    read wrapper (fileText c1 c2 c3 name (listsText pre ++ (l.opened ++ rest))) = .ok l.says := by
  rw [read_body wrapper c1 c2 c3 name _ num hname hlen hw, findList_skip num _ pre hpre,
    findList_open hl, if_pos hn]
  dsimp only
  rw [entries_all _ _ _ hl.2, List.nil_append, Listing.says]

/-- **C65** (no list for this kernel).  The file is refused and nothing is recorded. -/
theorem C65_absent (wrapper : Str → Option Nat) (c1 c2 c3 : Bool) (name : Str) (num : Nat)
    (ls : List Listing)
    (hname : ∀ c ∈ name, c ≠ '\r' ∧ c ≠ '\n') (hlen : name.length < 260)
    (hw : wrapper name = some num) (hls : ∀ p ∈ ls, GoodList p ∧ p.num ≠ num) :
    read wrapper (fileText c1 c2 c3 name (listsText ls)) = .bad [] := by
  have := findList_skip num [] ls hls
  rw [List.append_nil] at this
  rw [read_body wrapper c1 c2 c3 name _ num hname hlen hw, this, findList_nil]

/-! ## Files that are not in the format -/

/-- Empty or ended by a newline. -/
def Closed (s : Str) : Prop := s = [] ∨ ∃ u, s = u ++ ['\n']

theorem Closed.suffix {p s : Str} (h : Closed (p ++ s)) : Closed s := by
  cases s with
  | nil => exact Or.inl rfl
  | cons c t =>
    right
    rcases h with h | ⟨u, hu⟩
    · simp at h
    · have h1 : (p ++ c :: t).getLast? = some '\n' := by rw [hu]; simp
      rw [List.getLast?_append] at h1
      have h2 : (c :: t).getLast? = some '\n' := by
        cases h3 : (c :: t).getLast? with
        | none => simp at h3
        | some x => rw [h3] at h1; simpa using h1
      obtain ⟨u', hu'⟩ := List.getLast?_eq_some_iff.mp h2
      exact ⟨u', hu'⟩

theorem strchr_suffix {c : Char} : ∀ {s t : Str}, strchr c s = some t → ∃ p, s = p ++ t
  | [], _, h => by cases h
  | x :: xs, t, h => by
    rw [strchr] at h
    split at h
    · cases h; exact ⟨[], rfl⟩
    · obtain ⟨p, hp⟩ := strchr_suffix h
      exact ⟨x :: p, by rw [hp]; rfl⟩

theorem strstr_suffix {q : Str} : ∀ {s t : Str}, strstr q s = some t → ∃ p, s = p ++ t
  | [], _, h => by cases h
  | x :: xs, t, h => by
    rw [strstr] at h
    split at h
    · cases h; exact ⟨[], rfl⟩
    · obtain ⟨p, hp⟩ := strstr_suffix h
      exact ⟨x :: p, by rw [hp]; rfl⟩

theorem Closed.tail {s : Str} (h : Closed s) : Closed s.tail := by
  cases s with
  | nil => exact h
  | cons c t => exact Closed.suffix (p := [c]) h

theorem Closed.chr {c : Char} {s t : Str} (h : Closed s) (hs : strchr c s = some t) :
    Closed t := by
  obtain ⟨p, rfl⟩ := strchr_suffix hs
  exact h.suffix

theorem strchr_last (c : Char) : ∀ u : Str, strchr c (u ++ [c]) ≠ none
  | [] => by simp [strchr]
  | x :: u => by
    rw [List.cons_append, strchr]
    split
    · simp
    · exact strchr_last c u

theorem Closed.found {s : Str} (h : Closed s) (hs : strchr '\n' s = none) : s = [] := by
  rcases h with h | ⟨u, rfl⟩
  · exact h
  · exact absurd hs (strchr_last _ u)

theorem entries_safe (n : Nat) : ∀ (line : Str) (acc : List (Str × Nat)), line.length ≤ n →
    Closed line → ∀ r, entries line acc ≠ .crash r := by
  induction n with
  | zero =>
    intro line acc hn _ r
    have : line = [] := List.length_eq_zero_iff.mp (by omega)
    rw [this, entries, if_neg (by decide)]
    simp [strchr]
  | succ n ih =>
    intro line acc hn hc r
    rw [entries]
    split
    · simp
    · split
      · simp
      · rename_i search hs
        dsimp only
        split
        · simp
        · split
          · simp
          · cases hv : scanAfter "0x".toList search.tail with
            | none => simp
            | some v =>
              dsimp only
              have hcs : Closed search.tail := (hc.chr hs).tail
              split
              · rename_i hl
                rw [hcs.found hl] at hv
                exact absurd hv (by simp [scanAfter, isPre])
              · rename_i l hl
                refine ih _ _ ?_ (hcs.chr hl).tail r
                have h1 := strchr_len hs
                have h2 := strchr_len hl
                have h3 := strchr_ne hl
                cases l with
                | nil => exact absurd rfl h3
                | cons x xs =>
                  simp only [List.tail_cons, List.length_cons, List.length_tail] at *
                  omega

theorem findList_closed (n : Nat) : ∀ (num : Nat) (line t : Str), line.length ≤ n → Closed line →
    findList num line = some t → Closed t := by
  induction n with
  | zero =>
    intro num line t hn _ h
    have : line = [] := List.length_eq_zero_iff.mp (by omega)
    rw [this, findList_none rfl] at h
    cases h
  | succ n ih =>
    intro num line t hn hc h
    cases hs : strstr ('\n' :: start) line with
    | none => rw [findList_none hs] at h; cases h
    | some s =>
      rw [findList_some hs, next] at h
      obtain ⟨p, hp⟩ := strstr_suffix hs
      have hcs : Closed s.tail := (Closed.suffix (hp ▸ hc)).tail
      cases hv : scanAfter start s.tail with
      | none => rw [hv] at h; cases h
      | some v =>
        rw [hv] at h
        dsimp only at h
        cases hl : strchr '\n' s.tail with
        | none => rw [hl] at h; cases h
        | some l =>
          rw [hl] at h
          dsimp only at h
          have hcl := hcs.chr hl
          split at h
          · cases h; exact hcl.tail
          · refine ih num l t ?_ hcl h
            have h1 := strstr_len hs
            have h2 := strchr_len hl
            have h3 := strstr_ne hs
            cases s with
            | nil => exact absurd rfl h3
            | cons x xs =>
              simp only [List.tail_cons, List.length_cons] at *
              omega

/-- **C65** (any file).  Whatever a file ended by a newline contains, reading it does not crash.
A file may be cut off at the end of any line. -/
theorem C65_safe (wrapper : Str → Option Nat) (text : Str) :
    ∀ r, read wrapper (text ++ ['\n']) ≠ .crash r := by
  intro r
  have hc : Closed (text ++ ['\n']) := Or.inr ⟨text, rfl⟩
  generalize text ++ ['\n'] = file at hc
  rw [read]
  split
  · simp
  · dsimp only
    have hd : Closed (file.drop (header.length + 1)) :=
      Closed.suffix (p := file.take (header.length + 1)) (by rw [List.take_append_drop]; exact hc)
    generalize file.drop (header.length + 1) = line at hd
    have hd2 : Closed (if isPre ['\n'] line then line.tail else line) := by
      split
      · exact hd.tail
      · exact hd
    generalize (if isPre ['\n'] line then line.tail else line) = line2 at hd2
    cases scanDec line2 with
    | none => simp
    | some ver =>
      dsimp only
      split
      · simp
      · cases hl : strchr '\n' line2 with
        | none => simp
        | some l =>
          dsimp only
          have h3 := (hd2.chr hl).tail
          cases dchr '\r' '\n' l.tail with
          | none => simp
          | some search =>
            dsimp only
            split
            · simp
            · cases wrapper (l.tail.take (l.tail.length - search.length)) with
              | none => simp
              | some num =>
                dsimp only
                cases hf : findList num l.tail with
                | none => simp
                | some t =>
                  dsimp only
                  exact entries_safe _ _ _ (Nat.le_refl _)
                    (findList_closed _ _ _ _ (Nat.le_refl _) h3 hf) r

/-! ## Writing -/

/-- An entry of a written file. -/
def plain (e : Str × Nat) : Entry := ⟨e.1, e.2, false⟩

theorem itemsText_plain : ∀ (es : List (Str × Nat)),
    es.flatMap entryText = itemsText (es.map plain)
  | [] => rfl
  | e :: es => by
    rw [List.flatMap_cons, List.map_cons, itemsText, itemsText_plain es]
    simp [entryText, Entry.text, plain, eol]

theorem insert_perm (e : Str × Nat) : ∀ (l : List (Str × Nat)), (insert e l).Perm (e :: l)
  | [] => List.Perm.refl _
  | x :: xs => by
    rw [insert]
    split
    · exact List.Perm.refl _
    · exact ((insert_perm e xs).cons x).trans (List.Perm.swap _ _ _)

theorem sort_perm : ∀ (l : List (Str × Nat)), (sort l).Perm l
  | [] => List.Perm.refl _
  | x :: xs => (insert_perm x _).trans ((sort_perm xs).cons x)

/-- What the gap filling writes: new names of the table, numbers not taken before, each once. -/
theorem gaps_spec (m : List (Str × Nat)) : ∀ (us : List (Str × Bool)) (B next : Nat)
      (taken : List Nat), (∀ n v, find n m = some v → v < B) → next ≤ B →
      (∀ e ∈ gaps m us next taken, (e.1, true) ∈ us ∧ find e.1 m = none ∧ e.2 ∉ taken ∧
        e.2 < B + us.length) ∧
      ((gaps m us next taken).map Prod.snd).Nodup
  | [], _, _, _, _, _ => by simp [gaps]
  | (n, known) :: us, B, next, taken, hB, hn => by
    have up : ∀ n v, find n m = some v → v < B + 1 := fun n v h => Nat.lt_succ_of_lt (hB n v h)
    rw [gaps]
    cases hf : find n m with
    | some v =>
      dsimp only
      obtain ⟨h1, h2⟩ := gaps_spec m us B (v + 1) taken hB (hB n v hf)
      refine ⟨fun e he => ?_, h2⟩
      obtain ⟨a, b, c, d⟩ := h1 e he
      exact ⟨by simp [a], b, c, by simp only [List.length_cons]; omega⟩
    | none =>
      dsimp only
      split
      · rename_i hk
        split
        · obtain ⟨h1, h2⟩ := gaps_spec m us (B + 1) (next + 1) taken up (by omega)
          refine ⟨fun e he => ?_, h2⟩
          obtain ⟨a, b, c, d⟩ := h1 e he
          exact ⟨by simp [a], b, c, by simp only [List.length_cons]; omega⟩
        · rename_i ht
          obtain ⟨h1, h2⟩ := gaps_spec m us (B + 1) (next + 1) (next :: taken) up (by omega)
          refine ⟨fun e he => ?_, ?_⟩
          · rw [List.mem_cons] at he
            rcases he with rfl | he
            · exact ⟨by simp [hk], hf, by simpa using ht,
                by simp only [List.length_cons]; omega⟩
            · obtain ⟨a, b, c, d⟩ := h1 e he
              exact ⟨by simp [a], b, fun hc => c (by simp [hc]),
                by simp only [List.length_cons]; omega⟩
          · rw [List.map_cons, List.nodup_cons]
            refine ⟨fun hc => ?_, h2⟩
            obtain ⟨e, he, hen⟩ := List.mem_map.mp hc
            exact (h1 e he).2.2.1 (by rw [hen]; simp)
      · obtain ⟨h1, h2⟩ := gaps_spec m us B next taken hB hn
        refine ⟨fun e he => ?_, h2⟩
        obtain ⟨a, b, c, d⟩ := h1 e he
        exact ⟨by simp [a], b, c, by simp only [List.length_cons]; omega⟩

theorem find_mem {n : Str} {v : Nat} : ∀ {m : List (Str × Nat)}, find n m = some v → (n, v) ∈ m
  | [], h => by cases h
  | x :: xs, h => by
    rw [find] at h
    split at h
    · rename_i hx
      cases h
      rw [← hx]; simp
    · exact List.mem_cons_of_mem _ (find_mem h)

theorem key_good : (∀ c ∈ key, c ≠ '\r' ∧ c ≠ '\n') ∧ key.length < 260 := by decide +kernel

/-- **C65** (round trip).  Reading what was written, on the kernel it was written for, records all
the system calls that were found, and besides them only user calls of the table that were not
found, with different numbers that no system call found has. -/
theorem C65_roundtrip (us : List (Str × Bool)) (m : List (Str × Nat))
    (wrapper : Str → Option Nat) (text : Str)
    (hm : ∀ e ∈ m, GoodName e.1 ∧ e.2 < 2147483648) (hu : ∀ u ∈ us, GoodName u.1)
    (hl : us.length ≤ 2147483648)
    (ht : write us m = some text) (hw : wrapper key = find key m) :
    ∃ s g, read wrapper text = .ok (s ++ g) ∧ s.Perm m ∧
      (∀ e ∈ g, (e.1, true) ∈ us ∧ find e.1 m = none ∧ ∀ x ∈ m, x.2 ≠ e.2) ∧
      (g.map Prod.snd).Nodup := by
  rw [write] at ht
  cases hk : find key m with
  | none => rw [hk] at ht; cases ht
  | some n =>
    rw [hk] at ht
    have ht := (Option.some.inj ht).symm
    have hn := (hm _ (find_mem hk)).2
    obtain ⟨hg1, hg2⟩ := gaps_spec m us 2147483648 0 (m.map Prod.snd)
      (fun n v h => (hm _ (find_mem h)).2) (by omega)
    generalize gaps m us 0 (m.map Prod.snd) = g at ht hg1 hg2
    have hp := sort_perm m
    generalize sort m = s at ht hp
    refine ⟨s, g, ?_, hp, fun e he => ?_, hg2⟩
    · have hL : GoodList ⟨n, false, (s ++ g).map plain, false⟩ := by
        refine ⟨by dsimp only; omega, fun e he => ?_⟩
        obtain ⟨x, hx, rfl⟩ := List.mem_map.mp he
        rcases List.mem_append.mp hx with hx | hx
        · have := hm x (hp.mem_iff.mp hx)
          exact ⟨this.1, by have := this.2; simp only [plain]; omega⟩
        · obtain ⟨a, _, _, d⟩ := hg1 x hx
          exact ⟨hu _ a, by simp only [plain]; omega⟩
      have := C65_read wrapper false false false key n [] _ ['\n'] key_good.1 key_good.2
        (hw.trans hk) (by simp) hL rfl
      rw [ht]
      refine Eq.trans (congrArg _ ?_) (this.trans ?_)
      · rw [Listing.opened, ← itemsText_plain, List.flatMap_append]
        simp [fileText, eol, listsText, List.append_assoc]
      · simp [Listing.says, plain, Function.comp_def]
    · obtain ⟨a, b, c, _⟩ := hg1 e he
      exact ⟨a, b, fun x hx hxe => c (hxe ▸ List.mem_map_of_mem hx)⟩

/-- **C65** (gaps that stay).  The gap filling skips a number that any system call has.  The
numbers of the kernel's own system calls start at 0 like those of user calls: if they cover all
numbers that user calls can get, no gap is ever filled. -/
theorem C65_gaps_never (m : List (Str × Nat)) (K : Nat) (taken : List Nat)
    (hK : ∀ i, i < K → i ∈ taken) : ∀ (us : List (Str × Bool)) (next : Nat),
    (∀ u ∈ us, ∀ v, find u.1 m = some v → v + us.length < K) → next + us.length ≤ K →
    gaps m us next taken = []
  | [], _, _, _ => rfl
  | (n, known) :: us, next, hu, hn => by
    simp only [List.length_cons] at hn
    have hu' : ∀ u ∈ us, ∀ v, find u.1 m = some v → v + us.length < K := by
      intro u hm v hv
      have := hu u (by simp [hm]) v hv
      simp only [List.length_cons] at this
      omega
    rw [gaps]
    cases hf : find n m with
    | some v =>
      dsimp only
      have := hu (n, known) (by simp) v hf
      simp only [List.length_cons] at this
      exact C65_gaps_never m K taken hK us (v + 1) hu' (by omega)
    | none =>
      dsimp only
      split
      · rw [if_pos (by simpa using hK next (by omega))]
        exact C65_gaps_never m K taken hK us (next + 1) hu' (by omega)
      · exact C65_gaps_never m K taken hK us next hu' (by omega)

/-! ## Looking numbers up -/

/-- The table after recording entries in order. -/
def recordAll (t : List (Str × Nat)) (r : List (Str × Nat)) : List (Str × Nat) := r.foldl record t

theorem find_append (n : Str) : ∀ (a b : List (Str × Nat)),
    find n (a ++ b) = (find n a).or (find n b)
  | [], b => by simp [find]
  | x :: a, b => by
    rw [List.cons_append, find, find]
    split
    · rfl
    · exact find_append n a b

theorem lookup_add (t : List (Str × Nat)) (n k : Str) (v : Nat) :
    lookup (add t n v) k = (lookup t k).or (if lower n = lower k then some v else none) := by
  rw [add, lookup, lookup]
  cases h : find (lower n) t with
  | some w =>
    dsimp only
    by_cases hk : lower n = lower k
    · rw [← hk, h]; rfl
    · rw [if_neg hk]; simp
  | none =>
    dsimp only
    rw [find_append]; rfl

/-- Names under which an entry is put into the table. -/
def aliases (n : Str) : List Str :=
  if isUserCall n then [] else n :: (strip n).toList

theorem lookup_record (t : List (Str × Nat)) (e : Str × Nat) (k : Str) :
    lookup (record t e) k =
      (lookup t k).or (if lower k ∈ (aliases e.1).map lower then some e.2 else none) := by
  rw [record, aliases]
  split
  · simp
  · cases hs : strip e.1 with
    | none =>
      dsimp only
      rw [lookup_add]
      simp [@eq_comm _ (lower k)]
    | some s =>
      dsimp only
      rw [lookup_add, lookup_add, Option.or_assoc]
      congr 1
      by_cases h1 : lower e.1 = lower k <;> by_cases h2 : lower s = lower k <;>
        simp [h1, h2, @eq_comm _ (lower k)]

theorem lookup_kept : ∀ (r t : List (Str × Nat)) (k : Str) (v : Nat), lookup t k = some v →
    lookup (recordAll t r) k = some v
  | [], _, _, _, h => h
  | e :: r, t, k, v, h => lookup_kept r _ k v (by rw [lookup_record, h]; rfl)

theorem lookup_none : ∀ (r t : List (Str × Nat)) (k : Str), lookup t k = none →
    (∀ e ∈ r, lower k ∉ (aliases e.1).map lower) → lookup (recordAll t r) k = none
  | [], _, _, h, _ => h
  | e :: r, t, k, h, hr => lookup_none r _ k
      (by rw [lookup_record, h, if_neg (hr e (by simp))]; rfl) (fun x hx => hr x (by simp [hx]))

theorem lookup_find (r : List (Str × Nat)) (k : Str) :
    lookup (recordAll [] r) k =
      (r.find? fun e => decide (lower k ∈ (aliases e.1).map lower)).map Prod.snd := by
  cases h : r.find? fun e => decide (lower k ∈ (aliases e.1).map lower) with
  | none =>
    rw [List.find?_eq_none] at h
    exact lookup_none r [] k rfl (fun e he hc => h e he (decide_eq_true hc))
  | some e =>
    obtain ⟨he, a, b, rfl, ha⟩ := List.find?_eq_some_iff_append.mp h
    rw [recordAll, List.foldl_append, List.foldl_cons]
    refine lookup_kept b _ k e.2 ?_
    rw [lookup_record]
    have hn : lookup (recordAll [] a) k = none :=
      lookup_none a [] k rfl (fun x hx hc => by
        have := ha x hx
        simp [hc] at this)
    rw [show a.foldl record [] = recordAll [] a from rfl, hn, if_pos (of_decide_eq_true he)]
    rfl

/-- Equal up to case, character by character. -/
def SameName (a b : Str) : Prop := ∀ i : Nat, a[i]?.map Char.toLower = b[i]?.map Char.toLower

/-- Does an entry for `n` answer to the name `k`?  User calls (`NtUserCall...` with a dot) never do,
others under their name and, if it begins with `NtUser` or `NtGdi`, also without that. -/
def Answers (k n : Str) : Prop :=
  ¬ (∃ s, n = "NtUserCall".toList ++ s ∧ '.' ∈ s) ∧
    (SameName k n ∨
      ∃ s, (n = "NtUser".toList ++ s ∨ n = "NtGdi".toList ++ s) ∧ SameName k s)

theorem lower_eq {a b : Str} : lower a = lower b ↔ SameName a b := by
  rw [lower, lower, SameName, List.ext_getElem?_iff]
  simp only [List.getElem?_map]

theorem isUserCall_iff (n : Str) :
    isUserCall n = true ↔ ∃ s, n = "NtUserCall".toList ++ s ∧ '.' ∈ s := by
  rw [isUserCall, Bool.and_eq_true, isPre_iff, List.contains_iff_mem]
  constructor
  · rintro ⟨⟨s, rfl⟩, h⟩
    refine ⟨s, rfl, ?_⟩
    rcases List.mem_append.mp h with h | h
    · exact absurd h (by decide)
    · exact h
  · rintro ⟨s, rfl, h⟩
    exact ⟨⟨s, rfl⟩, List.mem_append_right _ h⟩

theorem strip_iff (n s : Str) :
    strip n = some s ↔ n = "NtUser".toList ++ s ∨ n = "NtGdi".toList ++ s := by
  rw [strip]
  constructor
  · intro h
    split at h
    · rename_i hp
      obtain ⟨t, rfl⟩ := isPre_iff.mp hp
      left
      have : ("NtUser".toList ++ t).drop 6 = t := rfl
      rw [this] at h
      rw [Option.some.inj h]
    · split at h
      · rename_i hp
        obtain ⟨t, rfl⟩ := isPre_iff.mp hp
        right
        have : ("NtGdi".toList ++ t).drop 5 = t := rfl
        rw [this] at h
        rw [Option.some.inj h]
      · cases h
  · rintro (rfl | rfl)
    · rw [if_pos (isPre_append _ _)]; rfl
    · rw [if_neg (by simp [isPre]), if_pos (isPre_append _ _)]; rfl

theorem answers_iff (k n : Str) : lower k ∈ (aliases n).map lower ↔ Answers k n := by
  rw [aliases, Answers, ← isUserCall_iff]
  by_cases hu : isUserCall n = true
  · simp [hu]
  · rw [if_neg hu]
    simp only [hu, Bool.false_eq_true, not_false_eq_true, true_and, List.map_cons, List.mem_cons, lower_eq,
      List.mem_map]
    constructor
    · rintro (h | ⟨s, hs, h⟩)
      · exact Or.inl h
      · exact Or.inr ⟨s, (strip_iff n s).mp (by simpa using hs), fun i => (h i).symm⟩
    · rintro (h | ⟨s, hs, h⟩)
      · exact Or.inl h
      · exact Or.inr ⟨s, by simpa using (strip_iff n s).mpr hs, fun i => (h i).symm⟩

/-- **C65** (lookup).  After recording, a name gets the number of the first entry that answers to
it, in any case and with or without its prefix; if there is none, it gets no number. -/
theorem C65_lookup (r : List (Str × Nat)) (k : Str) :
    (∀ v, lookup (recordAll [] r) k = some v ↔
      ∃ a n b, r = a ++ (n, v) :: b ∧ Answers k n ∧ ∀ e ∈ a, ¬ Answers k e.1) ∧
    (lookup (recordAll [] r) k = none ↔ ∀ e ∈ r, ¬ Answers k e.1) := by
  rw [lookup_find]
  constructor
  · intro v
    rw [Option.map_eq_some_iff]
    constructor
    · rintro ⟨e, he, rfl⟩
      obtain ⟨h, a, b, rfl, ha⟩ := List.find?_eq_some_iff_append.mp he
      refine ⟨a, e.1, b, rfl, (answers_iff k e.1).mp (of_decide_eq_true h), fun x hx hc => ?_⟩
      have := ha x hx
      simp [(answers_iff k x.1).mpr hc] at this
    · rintro ⟨a, n, b, rfl, h, ha⟩
      refine ⟨(n, v), ?_, rfl⟩
      rw [List.find?_eq_some_iff_append]
      refine ⟨decide_eq_true ((answers_iff k n).mpr h), a, b, rfl, fun x hx => ?_⟩
      rw [Bool.not_eq_true']
      exact decide_eq_false (fun hc => ha x hx ((answers_iff k x.1).mp hc))
  · rw [Option.map_eq_none_iff, List.find?_eq_none]
    constructor
    · intro h e he hc
      exact h e he (decide_eq_true ((answers_iff k e.1).mpr hc))
    · intro h e he hc
      exact h e he ((answers_iff k e.1).mp (of_decide_eq_true hc))

/-! ## Cases -/

/-- **C65** (negative): a file cut off behind a number, without a newline, makes the reader pass a
null pointer to `strncmp` (/repo/drsyscall/drsyscall_fileparse.c:151: the test for a missing last
newline has the wrong sense). -/
theorem C65_crash : read (fun _ => some 5)
    "DrSyscall Number File\n1\nNtA\nSTART=0x5\nNtA=0x5".toList =
      .crash [("NtA".toList, 5)] := by decide +kernel

/-- **C65** (negative): a file written for a symbol that does not begin with a capital letter is
refused by the reader, although everything before that symbol was recorded. -/
theorem C65_own_refused : ∃ text,
    write [] [("ldrX".toList, 9), (key, 5)] = some text ∧
    read (fun _ => some 5) text = .bad [(key, 5)] :=
  ⟨_, rfl, by decide +kernel⟩

/-- **C65** (negative): the second user call has number 1 and is known, but a system call of the
kernel with number 1 keeps it out of the file. -/
theorem C65_gap_lost :
    gaps [(key, 0), ("NtB".toList, 1), ("NtUserCallNoParam.A".toList, 0)]
      [("NtUserCallNoParam.A".toList, true), ("NtUserCallNoParam.B".toList, true)] 0 [0, 1, 0] = [] ∧
    gaps [(key, 0), ("NtUserCallNoParam.A".toList, 0)]
      [("NtUserCallNoParam.A".toList, true), ("NtUserCallNoParam.B".toList, true)] 0 [0, 0] =
      [("NtUserCallNoParam.B".toList, 1)] := by decide +kernel

/-- **C65** (negative): in sorted order an entry `NtUserX` comes before `X` if `X` begins with a
letter behind `N`, and takes its name. -/
theorem C65_collision :
    lookup (recordAll [] (sort [("Reset".toList, 7), ("NtUserReset".toList, 8)])) "Reset".toList =
      some 8 ∧
    lookup (recordAll [] (sort [("GetIt".toList, 7), ("NtUserGetIt".toList, 8)])) "GetIt".toList =
      some 7 := by decide +kernel

/-- Two lists, carriage returns on some lines, no newline at the end: the second list is read. -/
example : read (fun n => if n = "NtA".toList then some 6 else none)
    ("DrSyscall Number File\r\n1\r\nNtA\r\nSTART=0x5\r\nNtA=0x5\r\n=END\r\n" ++
      "START=0x6\nNtA=0x6\r\nNtUserB=0x10ff\n=END").toList =
      .ok [("NtA".toList, 6), ("NtUserB".toList, 0x10ff)] := by decide +kernel

/-- The same from the theorem. -/
example : read (fun n => if n = "NtA".toList then some 6 else none)
    (fileText true true true "NtA".toList
      (listsText [⟨5, true, [⟨"NtA".toList, 5, true⟩], true⟩] ++
        (Listing.opened ⟨6, false, [⟨"NtA".toList, 6, true⟩, ⟨"NtUserB".toList, 0x10ff, false⟩],
          false⟩ ++ []))) = .ok [("NtA".toList, 6), ("NtUserB".toList, 0x10ff)] := by
  have ga : GoodName "NtA".toList := ⟨⟨'N', ['t', 'A'], by decide, by decide, by decide⟩,
    by decide, by decide, by decide⟩
  have gb : GoodName "NtUserB".toList :=
    ⟨⟨'N', ['t', 'U', 's', 'e', 'r', 'B'], by decide, by decide, by decide⟩,
      by decide, by decide, by decide⟩
  refine C65_read _ _ _ _ _ 6 _ _ _ (by decide) (by decide) (by decide) ?_ ?_ rfl
  · intro p hp
    rw [List.mem_singleton] at hp
    subst hp
    exact ⟨⟨by decide, fun e he => by rw [List.mem_singleton] at he; subst he; exact ⟨ga, by decide⟩⟩,
      by decide⟩
  · refine ⟨by decide, fun e he => ?_⟩
    rcases List.mem_cons.mp he with rfl | he
    · exact ⟨ga, by decide⟩
    · rw [List.mem_singleton] at he; subst he; exact ⟨gb, by decide⟩

/-- A table with a gap, written and read. -/
example : ∃ text,
    write [("NtUserCallNoParam.A".toList, true), ("NtUserCallNoParam.B".toList, true)]
      [("NtUserCallNoParam.A".toList, 0), ("NtB".toList, 0x2f), (key, 5)] = some text ∧
    read (fun _ => some 5) text = .ok [("NtB".toList, 0x2f), (key, 5),
      ("NtUserCallNoParam.A".toList, 0), ("NtUserCallNoParam.B".toList, 1)] :=
  ⟨_, rfl, by decide +kernel⟩

/-- Names with prefixes are found without them and in any case. -/
example : lookup (recordAll [] [("NtGdiBitBlt".toList, 3), ("NtUserCallX.Y".toList, 4)])
      "bitblt".toList = some 3 ∧
    lookup (recordAll [] [("NtGdiBitBlt".toList, 3), ("NtUserCallX.Y".toList, 4)])
      "NtUserCallX.Y".toList = none := by decide +kernel

end Verif.SysFile
