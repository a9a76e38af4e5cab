import Verif.SymCacheProps

/-
The text format of the symbol cache file: what the reader makes of a file
produced by the writer.
-/

namespace Verif.SymCache

/-! ## Numbers -/

theorem dval_dchar {b d : Nat} (hd : d < b) (hb : b ≤ 16) : dval b (dchar d) = some d := by
  unfold dval dchar
  by_cases h : d < 10
  · have h1 : 48 ≤ 48 + d ∧ 48 + d ≤ 57 := by omega
    rw [if_pos h]
    simp only [if_pos h1, Nat.add_sub_cancel_left, if_pos hd]
  · have h1 : ¬ (48 ≤ 87 + d ∧ 87 + d ≤ 57) := by omega
    have h2 : 97 ≤ 87 + d ∧ 87 + d ≤ 102 := by omega
    rw [if_neg h]
    simp only [if_neg h1, if_pos h2, Nat.add_sub_cancel_left, if_pos hd]

theorem dchar_range {d : Nat} (hd : d < 16) :
    48 ≤ dchar d ∧ dchar d ≤ 102 ∧ (dchar d ≤ 57 ∨ 97 ≤ dchar d) := by
  unfold dchar
  split <;> omega

/-- The digits written for a number. -/
def digs (b : Nat) : Nat → Nat → List Nat
  | 0, n => [n % b]
  | k + 1, n => if n < b then [n] else digs b k (n / b) ++ [n % b]

theorem fmtN_eq (b : Nat) : ∀ k n, fmtN b k n = (digs b k n).map dchar
  | 0, n => rfl
  | k + 1, n => by
    unfold fmtN digs
    split
    · rfl
    · rw [fmtN_eq b k, List.map_append]; rfl

theorem digs_lt {b : Nat} (hb : 0 < b) : ∀ k n, ∀ d ∈ digs b k n, d < b
  | 0, n => by
    intro d hd
    simp [digs] at hd
    rw [hd]; exact Nat.mod_lt _ hb
  | k + 1, n => by
    intro d hd
    unfold digs at hd
    split at hd
    · simp at hd; omega
    · rcases List.mem_append.1 hd with h | h
      · exact digs_lt hb k _ d h
      · simp at h; rw [h]; exact Nat.mod_lt _ hb

theorem digs_ne (b k n : Nat) : digs b k n ≠ [] := by
  cases k with
  | zero => simp [digs]
  | succ k => unfold digs; split <;> simp

theorem digs_len (b : Nat) : ∀ k n, (digs b k n).length ≤ k + 1
  | 0, n => by simp [digs]
  | k + 1, n => by
    unfold digs
    split
    · simp
    · rw [List.length_append]
      have := digs_len b k (n / b)
      simp only [List.length_cons, List.length_nil]
      omega

/-- The value of a list of digits. -/
def val (b : Nat) (ds : List Nat) : Nat := ds.foldl (fun a d => a * b + d) 0

theorem digs_val {b : Nat} (hb : 0 < b) : ∀ k n, n < b ^ (k + 1) → val b (digs b k n) = n
  | 0, n, h => by
    have : n < b := by simpa using h
    simp [digs, val, Nat.mod_eq_of_lt this]
  | k + 1, n, h => by
    unfold digs
    split
    · simp [val]
    · unfold val
      rw [List.foldl_append]
      have h1 : n / b < b ^ (k + 1) := by
        rw [Nat.div_lt_iff_lt_mul hb, ← Nat.pow_succ]
        exact h
      have := digs_val hb k _ h1
      unfold val at this
      rw [this]
      simp only [List.foldl_cons, List.foldl_nil]
      rw [Nat.mul_comm]
      exact Nat.div_add_mod n b

theorem scanDigits_spec {b : Nat} (hb : b ≤ 16) {ds : List Nat} (hd : ∀ d ∈ ds, d < b)
    {c : Nat} (hc : dval b c = none) (r : Str) :
    ∀ acc, scanDigits b acc (ds.map dchar ++ c :: r) =
      .ok (ds.foldl (fun a d => a * b + d) acc, c :: r) := by
  induction ds with
  | nil =>
    intro acc
    simp [scanDigits, hc]
  | cons d ds ih =>
    intro acc
    have h1 := dval_dchar (hd d (List.mem_cons_self ..)) hb
    simp only [List.map_cons, List.cons_append, scanDigits, h1, List.foldl_cons]
    exact ih (fun d h => hd d (List.mem_cons_of_mem _ h)) _

theorem skip0x_eq {b : Nat} {s : Str} (h : ∀ xs, s ≠ 48 :: 120 :: xs) : skip0x b s = s := by
  unfold skip0x
  split
  · rename_i xs
    exact absurd rfl (h xs)
  · rfl

/-- Reading a number: some spaces, its digits, and a character that is no digit. -/
theorem scanNum_spec {b : Nat} (hb : b ≤ 16) (w : Nat) {ds : List Nat} (hd : ∀ d ∈ ds, d < b)
    (hne : ds ≠ []) {c : Nat} (hc : dval b c = none) (hx : c ≠ 120) (r : Str) (n : Nat) :
    scanNum b w (List.replicate n 32 ++ (ds.map dchar ++ c :: r)) =
      .ok (some (val b ds % 2 ^ w, c :: r)) := by
  obtain ⟨d, ds', he⟩ : ∃ d ds', ds = d :: ds' := by
    cases ds with
    | nil => exact absurd rfl hne
    | cons d ds' => exact ⟨d, ds', rfl⟩
  have hd0 : d < b := hd d (by rw [he]; exact List.mem_cons_self ..)
  have hr := dchar_range (show d < 16 by omega)
  have hs : skipWs (List.replicate n 32 ++ (ds.map dchar ++ c :: r)) =
      .ok (ds.map dchar ++ c :: r) := by
    clear hc hx
    induction n with
    | zero =>
      rw [he]
      simp only [List.replicate_zero, List.nil_append, List.map_cons, List.cons_append, skipWs]
      rw [if_neg (show ¬ (dchar d = 32 ∨ (9 ≤ dchar d ∧ dchar d ≤ 13)) by omega)]
    | succ n ih =>
      rw [List.replicate_succ]
      simp only [List.cons_append, skipWs, true_or, if_true]
      exact ih
  have h0 : skip0x b (ds.map dchar ++ c :: r) = ds.map dchar ++ c :: r := by
    apply skip0x_eq
    intro xs h
    rw [he] at h
    cases ds' with
    | nil =>
      simp at h
      exact hx h.2.1
    | cons d' ds'' =>
      simp at h
      have h16 : d' < 16 := by
        have := hd d' (by rw [he]; simp)
        omega
      have := dchar_range h16
      omega
  have hg := scanDigits_spec hb hd hc r 0
  unfold scanNum
  simp only [hs, bind, Except.bind, h0]
  rw [he] at hg ⊢
  simp only [List.map_cons, List.cons_append] at hg ⊢
  simp only [dval_dchar hd0 hb, hg]
  rfl

theorem fmt_eq (b n : Nat) : fmt b n = (digs b 20 n).map dchar := fmtN_eq b 20 n

theorem fmt_len (b n : Nat) : (fmt b n).length ≤ 21 := by
  rw [fmt_eq, List.length_map]
  exact digs_len b 20 n

theorem val_zeros (b n : Nat) (ds : List Nat) : val b (List.replicate n 0 ++ ds) = val b ds := by
  unfold val
  rw [List.foldl_append]
  congr 1
  induction n with
  | zero => rfl
  | succ n ih => rw [List.replicate_succ, List.foldl_cons]; simpa using ih

theorem pow10 : (2 : Nat) ^ 64 < 10 ^ (20 + 1) := by decide +kernel
theorem pow16 : (2 : Nat) ^ 64 < 16 ^ (20 + 1) := by decide +kernel

/-- Reading back a decimal number. -/
theorem scan10 {n w : Nat} (hn : n < 2 ^ w) (hw : w ≤ 64) {c : Nat} (hc : dval 10 c = none)
    (hx : c ≠ 120) (r : Str) (k : Nat) :
    scanNum 10 w (List.replicate k 32 ++ (fmt 10 n ++ c :: r)) = .ok (some (n, c :: r)) := by
  have h64 : n < 2 ^ 64 := Nat.lt_of_lt_of_le hn (Nat.pow_le_pow_right (by omega) hw)
  rw [fmt_eq, scanNum_spec (by omega) w (digs_lt (by omega) 20 n) (digs_ne _ _ _) hc hx,
    digs_val (by omega) 20 n (Nat.lt_trans h64 pow10), Nat.mod_eq_of_lt hn]

/-- Reading back a hexadecimal number, with or without leading zeros. -/
theorem scan16 {n w : Nat} (hn : n < 2 ^ w) (hw : w ≤ 64) {c : Nat} (hc : dval 16 c = none)
    (hx : c ≠ 120) (r : Str) (k : Nat) :
    scanNum 16 w (padTo 48 k (fmt 16 n) ++ c :: r) = .ok (some (n, c :: r)) := by
  have h64 : n < 2 ^ 64 := Nat.lt_of_lt_of_le hn (Nat.pow_le_pow_right (by omega) hw)
  have he : padTo 48 k (fmt 16 n) =
      (List.replicate (k - (fmt 16 n).length) 0 ++ digs 16 20 n).map dchar := by
    unfold padTo
    rw [List.map_append, List.map_replicate, ← fmt_eq]
    rfl
  have hd : ∀ d ∈ List.replicate (k - (fmt 16 n).length) 0 ++ digs 16 20 n, d < 16 := by
    intro d hd
    rcases List.mem_append.1 hd with h | h
    · rw [List.eq_of_mem_replicate h]; omega
    · exact digs_lt (by omega) 20 n d h
  have hg := scanNum_spec (b := 16) (by omega) w hd
    (by have := digs_ne 16 20 n; simp [this]) hc hx r 0
  rw [List.replicate_zero, List.nil_append] at hg
  rw [he, hg, val_zeros, digs_val (by omega) 20 n (Nat.lt_trans h64 pow16), Nat.mod_eq_of_lt hn]

/-- The characters of numbers. -/
theorem mem_fmt {b n c : Nat} (hb : 0 < b ∧ b ≤ 16) (h : c ∈ fmt b n) :
    48 ≤ c ∧ c ≤ 102 := by
  rw [fmt_eq, List.mem_map] at h
  obtain ⟨d, h1, h2⟩ := h
  have := digs_lt hb.1 20 n d h1
  have := dchar_range (show d < 16 by omega)
  omega

theorem mem_padTo {b n c k p : Nat} (hb : 0 < b ∧ b ≤ 16) (h : c ∈ padTo p k (fmt b n)) :
    c = p ∨ (48 ≤ c ∧ c ≤ 102) := by
  unfold padTo at h
  rcases List.mem_append.1 h with h | h
  · exact .inl (List.eq_of_mem_replicate h)
  · exact .inr (mem_fmt hb h)

theorem strchr_spec {c : Nat} {pre : Str} (h : ∀ x ∈ pre, x ≠ c ∧ x ≠ 0) (r : Str) :
    strchr c (pre ++ c :: r) = .ok (some (c :: r)) := by
  induction pre with
  | nil => simp [strchr]
  | cons x pre ih =>
    have h1 := h x (List.mem_cons_self ..)
    simp only [List.cons_append, strchr, h1.1, h1.2, if_false]
    exact ih (fun x hx => h x (List.mem_cons_of_mem _ hx))

/-! ## The symbols -/

/-- Symbol names the format can hold. -/
structure GoodName (s : Str) : Prop where
  ne : s ≠ []
  len : s.length < 256
  chars : ∀ x ∈ s, x ≠ 44 ∧ x ≠ 10 ∧ x ≠ 0

theorem scanOffs_spec (o : Nat) (r : Str) :
    scanOffs (([44, 48, 120] ++ fmt 16 (o % 2 ^ 32) ++ [10]) ++ r) = .ok (some (o % 2 ^ 32)) := by
  have h1 := scan16 (n := o % 2 ^ 32) (w := 32) (Nat.mod_lt _ (by decide)) (by omega)
    (c := 10) (by decide) (by omega) r 0
  have h2 : padTo 48 0 (fmt 16 (o % 2 ^ 32)) = fmt 16 (o % 2 ^ 32) := by
    unfold padTo; simp
  rw [h2] at h1
  unfold scanOffs
  simp only [List.cons_append, List.nil_append, List.append_assoc, scanLit, bind, Except.bind,
    if_true, h1]
  rfl

/-- One line of the file: the reader makes one addition. -/
theorem readLines_line {pad n : Nat} {pre symbol sym : Str} {o : Nat} {tail : Str} {t : Table}
    (hs : (if pre = [] then symbol else pre) = sym) (hsym : sym ≠ [])
    (hlen : pre.length < 256) (hpre : ∀ x ∈ pre, x ≠ 44 ∧ x ≠ 10 ∧ x ≠ 0)
    (hpad : pad ≤ tail.length) :
    readLines pad (n + 1) (pre ++ (([44, 48, 120] ++ fmt 16 (o % 2 ^ 32) ++ [10]) ++ tail))
        symbol t =
      match symbolAdd t sym (o % 2 ^ 32) with
      | .ok r => readLines pad n tail sym r.1
      | .error e => .error e := by
  have hc : strchr 44 (pre ++ (([44, 48, 120] ++ fmt 16 (o % 2 ^ 32) ++ [10]) ++ tail)) =
      .ok (some (([44, 48, 120] ++ fmt 16 (o % 2 ^ 32) ++ [10]) ++ tail)) :=
    strchr_spec (fun x hx => ⟨(hpre x hx).1, (hpre x hx).2.2⟩) _
  have hn : strchr 10 (pre ++ (([44, 48, 120] ++ fmt 16 (o % 2 ^ 32) ++ [10]) ++ tail)) =
      .ok (some (10 :: tail)) := by
    have he : pre ++ (([44, 48, 120] ++ fmt 16 (o % 2 ^ 32) ++ [10]) ++ tail) =
        (pre ++ ([44, 48, 120] ++ fmt 16 (o % 2 ^ 32))) ++ 10 :: tail := by simp
    rw [he]
    apply strchr_spec
    intro x hx
    rcases List.mem_append.1 hx with h | h
    · exact ⟨(hpre x h).2.1, (hpre x h).2.2⟩
    · rcases List.mem_append.1 h with h | h
      · simp at h; omega
      · have := mem_fmt (b := 16) (by omega) h
        omega
  have hl : ¬ (pre ++ (([44, 48, 120] ++ fmt 16 (o % 2 ^ 32) ++ [10]) ++ tail)).length ≤ pad := by
    simp only [List.length_append, List.length_cons]; omega
  have hsl : (pre ++ (([44, 48, 120] ++ fmt 16 (o % 2 ^ 32) ++ [10]) ++ tail)).length -
      (([44, 48, 120] ++ fmt 16 (o % 2 ^ 32) ++ [10]) ++ tail).length = pre.length := by
    rw [List.length_append]; omega
  rw [readLines, if_neg hl]
  simp only [hc, hn, bind, Except.bind, hsl]
  have hsy : (if 0 < pre.length ∧ pre.length < maxSymlen then
      (pre ++ (([44, 48, 120] ++ fmt 16 (o % 2 ^ 32) ++ [10]) ++ tail)).take pre.length
      else symbol) = sym := by
    rw [List.take_left']
    · rw [← hs]
      cases pre with
      | nil => simp
      | cons x pre =>
        rw [if_pos ⟨by simp, hlen⟩, if_neg (by simp)]
    · rfl
  rw [hsy, if_pos ⟨hlen, hsym⟩, scanOffs_spec]
  simp only []
  cases symbolAdd t sym (o % 2 ^ 32) <;> rfl

/-- The lines of offsets after the name. -/
def offLines (l : List Nat) : Str :=
  (l.map fun o => [44, 48, 120] ++ fmt 16 (o % 2 ^ 32) ++ [10]).flatten

/-- The text of the entries. -/
def entryText (es : Table) : Str := (es.map fun e => e.1 ++ offLines e.2.list).flatten

/-- The additions the reader makes for a list of entries. -/
def entryOps (es : Table) : List (Str × Nat) :=
  (es.map fun e => e.2.list.map fun o => (e.1, o % 2 ^ 32)).flatten

theorem adds_append (t : Table) (a b : List (Str × Nat)) :
    adds t (a ++ b) = (adds t a).bind fun t => adds t b := by
  unfold adds
  rw [List.foldlM_append]
  rfl

theorem adds_cons (t : Table) (e : Str × Nat) (b : List (Str × Nat)) :
    adds t (e :: b) = match symbolAdd t e.1 e.2 with
      | .ok r => adds r.1 b
      | .error e => .error e := by
  unfold adds
  rw [List.foldlM_cons]
  cases symbolAdd t e.1 e.2 <;> rfl

/-- Lines without a name belong to the last name. -/
theorem readLines_offs {pad : Nat} {sym : Str} (hsym : sym ≠ []) {tail : Str}
    (hpad : pad ≤ tail.length) : ∀ (l : List Nat) (n : Nat) (t : Table), l.length ≤ n →
    readLines pad n (offLines l ++ tail) sym t =
      match adds t (l.map fun o => (sym, o % 2 ^ 32)) with
      | .ok t' => readLines pad (n - l.length) tail sym t'
      | .error e => .error e
  | [], n, t, _ => by
    simp only [offLines, List.map_nil, List.flatten_nil, List.nil_append, List.length_nil,
      Nat.sub_zero]
    rfl
  | o :: l, n, t, hn => by
    obtain ⟨m, rfl⟩ : ∃ m, n = m + 1 := ⟨n - 1, by simp at hn; omega⟩
    have h1 := readLines_line (pad := pad) (n := m) (pre := []) (symbol := sym) (sym := sym)
      (o := o) (tail := offLines l ++ tail) (t := t) (by simp) hsym (by simp) (by simp)
      (by rw [List.length_append]; omega)
    have he : offLines (o :: l) ++ tail =
        [] ++ (([44, 48, 120] ++ fmt 16 (o % 2 ^ 32) ++ [10]) ++ (offLines l ++ tail)) := by
      simp [offLines]
    rw [he, h1, List.map_cons, adds_cons]
    cases hsa : symbolAdd t sym (o % 2 ^ 32) with
    | error e => rfl
    | ok r =>
      simp only []
      rw [readLines_offs hsym hpad l m r.1 (by simp at hn; omega)]
      simp only [List.length_cons, Nat.add_sub_add_right]

/-- All entries: reading the text is making the additions. -/
theorem readLines_entries {pad : Nat} : ∀ (es : Table) (n : Nat) (symbol : Str) (t : Table),
    (∀ e ∈ es, GoodName e.1 ∧ e.2.list ≠ []) → (entryText es).length ≤ n →
    readLines pad (n + 1) (entryText es ++ List.replicate pad 0) symbol t = adds t (entryOps es)
  | [], n, symbol, t, _, _ => by
    unfold readLines
    simp only [entryText, List.map_nil, List.flatten_nil, List.nil_append, List.length_replicate,
      Nat.le_refl, if_true]
    rfl
  | e :: es, n, symbol, t, hg, hn => by
    obtain ⟨sym, ol⟩ := e
    obtain ⟨⟨g1, g2, g3⟩, g4⟩ := hg _ (List.mem_cons_self ..)
    obtain ⟨o, l, hl⟩ : ∃ o l, ol.list = o :: l := by
      cases h : ol.list with
      | nil => exact absurd h g4
      | cons o l => exact ⟨o, l, rfl⟩
    have he : entryText ((sym, ol) :: es) ++ List.replicate pad 0 =
        sym ++ (([44, 48, 120] ++ fmt 16 (o % 2 ^ 32) ++ [10]) ++
          (offLines l ++ (entryText es ++ List.replicate pad 0))) := by
      simp [entryText, offLines, hl]
    have hlen : (entryText ((sym, ol) :: es)).length ≥
        1 + l.length + (entryText es).length := by
      have hoff : ∀ l : List Nat, l.length ≤ (offLines l).length := by
        intro l
        induction l with
        | nil => simp
        | cons o l ih =>
          have : offLines (o :: l) =
              [44, 48, 120] ++ fmt 16 (o % 2 ^ 32) ++ [10] ++ offLines l := by simp [offLines]
          rw [this]
          simp only [List.length_append, List.length_cons]
          omega
      have h1 : entryText ((sym, ol) :: es) = sym ++ offLines (o :: l) ++ entryText es := by
        simp [entryText, hl]
      have h2 := hoff (o :: l)
      rw [h1]
      simp only [List.length_append, List.length_cons] at h2 ⊢
      omega
    have hop : entryOps ((sym, ol) :: es) =
        (sym, o % 2 ^ 32) :: ((l.map fun o => (sym, o % 2 ^ 32)) ++ entryOps es) := by
      simp [entryOps, hl]
    have hpad : pad ≤ (entryText es ++ List.replicate pad 0).length := by
      rw [List.length_append, List.length_replicate]; omega
    rw [he, readLines_line (if_neg g1) g1 g2 g3 (by rw [List.length_append]; omega), hop, adds_cons]
    cases hsa : symbolAdd t sym (o % 2 ^ 32) with
    | error e => rfl
    | ok r =>
      simp only []
      rw [readLines_offs g1 hpad l n r.1 (by omega), adds_append]
      cases adds r.1 (l.map fun o => (sym, o % 2 ^ 32)) with
      | error e => rfl
      | ok t' =>
        simp only [Except.bind]
        obtain ⟨m, hm⟩ : ∃ m, n - l.length = m + 1 := ⟨n - l.length - 1, by omega⟩
        rw [hm]
        exact readLines_entries es m sym t' (fun e h => hg e (List.mem_cons_of_mem _ h)) (by omega)

/-! ## What the writer puts into the file -/

theorem bufWrite_flatten : ∀ (ps : List Str) (st : Str × Str), (∀ p ∈ ps, p.length < bufSize) →
    (ps.foldl bufWrite st).1 ++ (ps.foldl bufWrite st).2 = st.1 ++ st.2 ++ ps.flatten
  | [], st, _ => by simp
  | p :: ps, st, h => by
    rw [List.foldl_cons, bufWrite_flatten ps _ (fun q hq => h q (List.mem_cons_of_mem _ hq))]
    have hp := h p (List.mem_cons_self ..)
    unfold bufWrite
    split
    · simp
    · simp

/-- The MD5 bytes in the file. -/
def md5Text (m : List Nat) : Str := (m.map fun x => [44] ++ padTo 48 2 (fmt 16 x)).flatten

/-- The file behind the field with its size. -/
def restText (id : Ident) (debug : Bool) (es : Table) : Str :=
  [44] ++ fmt 10 id.fileSize ++ [44] ++ fmt 10 id.timestamp ++ md5Text id.md5 ++ [10] ++
    fmt 10 (if debug then 1 else 0) ++ [10] ++ entryText es

/-- Everything fits into the buffer. -/
theorem pieces_small {id : Ident} {debug : Bool} {es : Table}
    (hes : ∀ e ∈ es, e.1.length < bufSize) : ∀ p ∈ pieces id debug es, p.length < bufSize := by
  intro p hp
  unfold pieces at hp
  have hf := fmt_len
  have hpl : ∀ c k s, (padTo c k s).length = max k s.length := by
    intro c k s
    unfold padTo
    rw [List.length_append, List.length_replicate]
    omega
  unfold bufSize
  rcases List.mem_append.1 hp with hp | hp
  · rcases List.mem_append.1 hp with hp | hp
    · rcases List.mem_append.1 hp with hp | hp
      · simp only [List.mem_cons, List.not_mem_nil, or_false] at hp
        rcases hp with h | h | h
        · rw [h]
          have := hf 10 version
          simp only [List.length_append, List.length_cons, List.length_nil, header]
          omega
        · rw [h, List.length_append, hpl]
          have := hf 10 0
          simp only [List.length_cons, List.length_nil]
          omega
        · rw [h]
          have := hf 10 id.fileSize
          have := hf 10 id.timestamp
          simp only [List.length_append, List.length_cons, List.length_nil]
          omega
      · rw [List.mem_map] at hp
        obtain ⟨x, _, h⟩ := hp
        rw [← h, List.length_append, hpl]
        have := hf 16 x
        simp only [List.length_cons, List.length_nil]
        omega
    · simp only [List.mem_cons, List.not_mem_nil, or_false] at hp
      rcases hp with h | h
      · rw [h]; simp
      · rw [h]
        have := hf 10 (if debug = true then 1 else 0)
        simp only [List.length_append, List.length_cons, List.length_nil]
        omega
  · rw [List.mem_flatten] at hp
    obtain ⟨q, hq, hp⟩ := hp
    rw [List.mem_map] at hq
    obtain ⟨e, he, rfl⟩ := hq
    unfold entryPieces at hp
    rcases List.mem_cons.1 hp with h | h
    · rw [h]; exact hes e he
    · rw [List.mem_map] at h
      obtain ⟨o, _, h⟩ := h
      have := hf 16 (o % 2 ^ 32)
      rw [← h]
      simp only [List.length_append, List.length_cons, List.length_nil]
      omega

theorem fmt_size_len {n : Nat} (h : n < 2 ^ 32) : (fmt 10 n).length ≤ 10 := by
  have hl : ∀ k n, n < 10 ^ (k + 1) → (digs 10 20 n).length ≤ k + 1 := by
    have : ∀ f k n, n < 10 ^ (k + 1) → k ≤ f → (digs 10 f n).length ≤ k + 1 := by
      intro f
      induction f with
      | zero => intro k n _ _; simp [digs]
      | succ f ih =>
        intro k n hn hk
        unfold digs
        split
        · simp
        · rename_i h10
          cases k with
          | zero => exact absurd hn (by simpa using h10)
          | succ k =>
            have h1 : n / 10 < 10 ^ (k + 1) := by
              rw [Nat.div_lt_iff_lt_mul (by omega), ← Nat.pow_succ]
              exact hn
            have := ih k (n / 10) h1 (by omega)
            rw [List.length_append]
            simp only [List.length_cons, List.length_nil]
            omega
    intro k n hn
    by_cases hk : k ≤ 20
    · exact this 20 k n hn hk
    · have := digs_len 10 20 n
      omega
  rw [fmt_eq, List.length_map]
  exact hl 9 n (Nat.lt_trans h (by decide +kernel))

theorem padTo_len {c k : Nat} {s : Str} (h : s.length ≤ k) : (padTo c k s).length = k := by
  unfold padTo
  rw [List.length_append, List.length_replicate]
  omega

/-- The file as a text. -/
theorem writeFile_eq {id : Ident} {debug : Bool} {es : Table}
    (hes : ∀ e ∈ es, e.1.length < bufSize) :
    writeFile id debug es = header ++ [32] ++ fmt 10 version ++ [10] ++
      padTo 32 10 (fmt 10 ((writeFile id debug es).length % 2 ^ 32)) ++ restText id debug es := by
  have hfl := bufWrite_flatten (pieces id debug es) ([], []) (pieces_small hes)
  have hp : (pieces id debug es).flatten = (header ++ [32] ++ fmt 10 version ++ [10]) ++
      (padTo 32 10 (fmt 10 0) ++ restText id debug es) := by
    unfold pieces restText md5Text entryText
    have : ((es.map entryPieces).flatten).flatten =
        (es.map fun e => e.1 ++ offLines e.2.list).flatten := by
      induction es with
      | nil => rfl
      | cons e es ih =>
        have ih' := ih (fun e h => hes e (List.mem_cons_of_mem _ h))
          (bufWrite_flatten _ _ (pieces_small (fun e h => hes e (List.mem_cons_of_mem _ h))))
        rw [List.map_cons, List.flatten_cons, List.flatten_append, ih', List.map_cons,
          List.flatten_cons]
        congr 1
    simp [this]
  have hl1 : (header ++ [32] ++ fmt 10 version ++ [10]).length = sizeLoc := by decide
  have hl2 : (padTo 32 10 (fmt 10 0)).length = 10 := by decide
  generalize hf : ((pieces id debug es).foldl bufWrite ([], [])).1 ++
    ((pieces id debug es).foldl bufWrite ([], [])).2 = f at hfl
  have hfe : f = (header ++ [32] ++ fmt 10 version ++ [10]) ++
      (padTo 32 10 (fmt 10 0) ++ restText id debug es) := by
    rw [hfl, ← hp]; rfl
  have hw : writeFile id debug es = f.take sizeLoc ++
      padTo 32 10 (fmt 10 (f.length % 2 ^ 32)) ++ f.drop (sizeLoc + 10) := by
    unfold writeFile
    simp only [hf]
  have ht : f.take sizeLoc = header ++ [32] ++ fmt 10 version ++ [10] := by
    rw [hfe]; exact List.take_left' hl1
  have hd : f.drop (sizeLoc + 10) = restText id debug es := by
    rw [hfe, ← List.append_assoc]
    exact List.drop_left' (by rw [List.length_append, hl1, hl2])
  have hlen : (writeFile id debug es).length = f.length := by
    rw [hw, ht, hd, hfe]
    simp only [List.length_append]
    rw [padTo_len (fmt_size_len (Nat.mod_lt _ (by decide))), hl2]
    omega
  rw [hlen]
  rw [hw, ht, hd]

end Verif.SymCache
