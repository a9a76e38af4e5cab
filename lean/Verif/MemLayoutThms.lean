import Verif.MemLayout
import Verif.SysFileThms

/-!
# C66: what the dump of the memory layout says
-/

namespace Verif.MemLayout

/-! ## What should be in the file -/

/-- The pieces of an object: as many words as fit, then 4, 2 and 1 bytes as needed. -/
def pieces (p base size : Nat) : List (Nat × Nat) :=
  (List.range (size / p)).map (fun i => (base + i * p, p)) ++
    (let b := base + size / p * p
     let r := size % p
     (if 4 ≤ r then [(b, 4)] else []) ++
       (if 2 ≤ r % 4 then [(b + r / 4 * 4, 2)] else []) ++
         (if r % 2 = 1 then [(base + size - 1, 1)] else []))

/-- A string member. -/
def field (k : String) (s : Str) : Str × J := (k.toList, .str s)

/-- Members that tell what a pointer points to. -/
def pointsTo (d : Data) (v : Nat) : List (Str × J) :=
  let out (kind : String) (n : Node) : List (Str × J) :=
    [field "points-to-type" kind.toList, field "points-to-base" (pfx d.p n.base),
      field "points-to-offset" ('0' :: 'x' :: hex (v - n.base))]
  match inNode d.heap v, inNode d.stacks v with
  | some n, _ => out "heap" n
  | none, some n => out "stack" n
  | none, none => []

/-- A piece: its address, the value of its bytes and, for words, what it points to. -/
def pieceJ (d : Data) (w : Nat × Nat) : J :=
  .obj ([field "address" (pfx d.p w.1), field "value" (pfx w.2 (load d.mem w.1 w.2))] ++
    (if w.2 = d.p then pointsTo d (load d.mem w.1 w.2) else []))

/-- An object of the heap or a stack. -/
def nodeJ (d : Data) (heap : Bool) (n : Node) : J :=
  .obj ((if heap then [] else [field "thread_id" (pfx d.p n.id)]) ++
    [field "address" (pfx d.p n.base), field "size" (dec n.size),
      ("contents".toList, .arr ((pieces d.p n.base n.size).map (pieceJ d)))])

/-- A frame. -/
def frameJ (d : Data) (f : Frame) : J :=
  .obj [field "program_counter" (pfx d.p f.pc), field "frame_pointer" (pfx d.p f.fp),
    field "function" f.func]

/-- A thread. -/
def threadJ (d : Data) (t : Thread) : J :=
  .obj [field "thread_id" (pfx d.p t.id),
    ("stack_frames".toList, .arr ((t.top :: t.frames).map (frameJ d)))]

/-- The whole file. -/
def layoutJ (d : Data) (ts : List Thread) : J :=
  .obj [field "version" ['2'], ("threads".toList, .arr (ts.map (threadJ d))),
    ("heap objects".toList, .arr (d.heap.map (nodeJ d true))),
    ("thread stacks".toList, .arr (d.stacks.map (nodeJ d false)))]

/-- Text that stands for itself in a string. -/
def Clean (s : Str) : Prop := ∀ c ∈ s, c ≠ '"' ∧ c ≠ '\\' ∧ isCtl c = false

/-! ## Running the reader -/

theorem run_append : ∀ (a b : Str) (s : Mode × List Ctx),
    run (a ++ b) s = (run a s).bind (run b)
  | [], _, _ => rfl
  | c :: a, b, s => by
    rw [List.cons_append, run, run]
    cases step s c with
    | none => rfl
    | some s' => exact run_append a b s'

theorem run_then {a : Str} {s s' : Mode × List Ctx} (h : run a s = some s') (b : Str) :
    run (a ++ b) s = run b s' := by rw [run_append, h]; rfl

theorem run_fail {a : Str} {s : Mode × List Ctx} (h : run a s = none) (b : Str) :
    run (a ++ b) s = none := by rw [run_append, h]; rfl

theorem run_clean : ∀ (s acc : Str) (st : List Ctx), Clean s →
    run s (.inStr acc, st) = some (.inStr (acc ++ s), st)
  | [], acc, st, _ => by rw [run, List.append_nil]
  | c :: s, acc, st, h => by
    obtain ⟨h1, h2, h3⟩ := h c (by simp)
    rw [run, step]
    simp only [h1, h2, h3, if_false, Bool.false_eq_true]
    rw [run_clean s (acc ++ [c]) st (fun x hx => h x (by simp [hx])), List.append_assoc]
    rfl

/-- A string read from its first character on. -/
theorem run_str {s : Str} (h : Clean s) (st : List Ctx) (b : Str) :
    run (s ++ ('"' :: b)) (.inStr [], st) = run b (.done (.str s), st) := by
  rw [run_then (run_clean s [] st h)]
  rfl

theorem hexDigit_clean : ∀ n, n < 16 → SysFile.hexDigit n ≠ '"' ∧ SysFile.hexDigit n ≠ '\\' ∧
    isCtl (SysFile.hexDigit n) = false := by decide +kernel

theorem hex_clean (n : Nat) : Clean (hex n) := by
  induction n using Nat.strongRecOn with
  | _ n ih =>
    intro c hc
    rw [hex, SysFile.hex] at hc
    split at hc
    · rename_i h
      rw [List.mem_singleton] at hc
      rw [hc]; exact hexDigit_clean n h
    · rename_i h
      rw [List.mem_append, List.mem_singleton] at hc
      rcases hc with hc | hc
      · exact ih (n / 16) (by omega) c hc
      · rw [hc]; exact hexDigit_clean _ (by omega)

theorem Clean.append {a b : Str} (ha : Clean a) (hb : Clean b) : Clean (a ++ b) := by
  intro c hc
  rcases List.mem_append.mp hc with h | h
  · exact ha c h
  · exact hb c h

theorem zeros_clean (n : Nat) : Clean (List.replicate n '0') := by
  intro c hc
  rw [(List.mem_replicate.mp hc).2]
  decide

theorem pad_clean (w : Nat) {s : Str} (h : Clean s) : Clean (pad w s) :=
  (zeros_clean _).append h

theorem ox_clean {s : Str} (h : Clean s) : Clean ('0' :: 'x' :: s) :=
  Clean.append (a := ['0', 'x']) (fun c hc => by revert c; decide) h

theorem pfx_clean (p n : Nat) : Clean (pfx p n) := ox_clean (pad_clean _ (hex_clean n))

theorem digit_clean : ∀ n, n < 10 → Char.ofNat (48 + n) ≠ '"' ∧ Char.ofNat (48 + n) ≠ '\\' ∧
    isCtl (Char.ofNat (48 + n)) = false := by decide +kernel

theorem dec_clean (n : Nat) : Clean (dec n) := by
  induction n using Nat.strongRecOn with
  | _ n ih =>
    intro c hc
    rw [dec] at hc
    split at hc
    · rename_i h
      rw [List.mem_singleton] at hc
      rw [hc]; exact digit_clean n h
    · rename_i h
      rw [List.mem_append, List.mem_singleton] at hc
      rcases hc with hc | hc
      · exact ih (n / 10) (by omega) c hc
      · rw [hc]; exact digit_clean _ (by omega)

theorem decInt_clean (n : Nat) : Clean (decInt n) := by
  rw [decInt]
  split
  · exact dec_clean _
  · exact Clean.append (a := ['-']) (fun c hc => by revert c; decide) (dec_clean _)

/-! ## Pieces -/

theorem p_cases (d : Data) : d.p = 8 ∨ d.p = 4 := by
  rw [Data.p]; cases d.x64
  · exact Or.inr rfl
  · exact Or.inl rfl

theorem pieces_zero (p a : Nat) : pieces p a 0 = [] := by simp [pieces]

theorem pieces_word {p : Nat} (hp : p = 8 ∨ p = 4) (a sz : Nat) (h : p ≤ sz) :
    pieces p a sz = (a, p) :: pieces p (a + p) (sz - p) := by
  have hp0 : 0 < p := by omega
  have h1 : sz / p = (sz - p) / p + 1 := by rw [Nat.div_eq]; simp [hp0, h]
  have h2 : sz % p = (sz - p) % p := by rw [Nat.mod_eq]; simp [hp0, h]
  simp only [pieces]
  rw [h1, h2]
  generalize hq : (sz - p) / p = q
  have h3 : a + (q + 1) * p = a + p + q * p := by rw [Nat.succ_mul]; omega
  have h4 : a + sz - 1 = a + p + (sz - p) - 1 := by omega
  rw [h3, h4, List.range_succ_eq_map]
  simp only [List.map_cons, List.map_map, List.cons_append, Nat.zero_mul, Nat.add_zero]
  congr 2
  apply List.map_congr_left
  intro i _
  simp only [Function.comp]
  rw [Nat.succ_mul]
  congr 1
  omega

theorem pieces_small (p a : Nat) (hp : p = 8 ∨ p = 4) : ∀ sz, sz < p → sz ≠ 0 →
    pieces p a sz = (a, width p sz) :: pieces p (a + width p sz) (sz - width p sz) := by
  intro sz h h0
  have : sz = 1 ∨ sz = 2 ∨ sz = 3 ∨ sz = 4 ∨ sz = 5 ∨ sz = 6 ∨ sz = 7 := by omega
  rcases hp with rfl | rfl <;> rcases this with rfl | rfl | rfl | rfl | rfl | rfl | rfl <;>
    first | omega | simp [pieces, width]

theorem pieces_step (d : Data) (a sz : Nat) (h : sz ≠ 0) :
    pieces d.p a sz = (a, width d.p sz) ::
      pieces d.p (a + width d.p sz) (sz - width d.p sz) := by
  by_cases hs : d.p ≤ sz
  · have : width d.p sz = d.p := by rw [width, if_pos hs]
    rw [this]
    exact pieces_word (p_cases d) a sz hs
  · exact pieces_small d.p a (p_cases d) sz (by omega) h

/-- The value of a short piece is not printed as a negative number. -/
def Small (d : Data) (w : Nat × Nat) : Prop :=
  (w.2 = 2 → load d.mem w.1 2 < 32768) ∧ (w.2 = 1 → load d.mem w.1 1 < 128)

/-! ## Entries -/

/-- Within the string value of a member. -/
abbrev inside (l : List (Str × J)) (k : String) (st : List Ctx) : Mode × List Ctx :=
  (.inStr [], .obj l k.toList :: st)

theorem run_spaces (m : Mode) (st : List Ctx) (h : step (m, st) ' ' = some (m, st)) :
    ∀ n : Nat, run (List.replicate n ' ') (m, st) = some (m, st)
  | 0 => rfl
  | n + 1 => by
    rw [List.replicate_succ, run, h]
    exact run_spaces m st h n

theorem run_cleanKey : ∀ (s acc : Str) (l : List (Str × J)) (st : List Ctx), Clean s →
    run s (.inKey l acc, st) = some (.inKey l (acc ++ s), st)
  | [], acc, l, st, _ => by rw [run, List.append_nil]
  | c :: s, acc, l, st, h => by
    obtain ⟨h1, h2, h3⟩ := h c (by simp)
    rw [run, step]
    simp only [h1, h2, h3, if_false, Bool.false_eq_true]
    rw [run_cleanKey s (acc ++ [c]) l st (fun x hx => h x (by simp [hx])), List.append_assoc]
    rfl

/-- Text that stands for itself, as a test. -/
def clean (s : Str) : Bool := s.all fun c => c != '"' && c != '\\' && !isCtl c

theorem clean_iff {s : Str} (h : clean s = true) : Clean s := by
  intro c hc
  have := List.all_eq_true.mp h c hc
  simp only [Bool.and_eq_true, bne_iff_ne, Bool.not_eq_true'] at this
  exact ⟨this.1.1, this.1.2, this.2⟩

/-- The name of a member with a string value. -/
theorem run_key (lit : String) (n : Nat) (k : String)
    (h : lit.toList = List.replicate n ' ' ++ ('"' :: (k.toList ++ "\": \"".toList)) ∧
      clean k.toList = true) (l : List (Str × J)) (e : Bool) (st : List Ctx) (t : Str) :
    run (lit.toList ++ t) (.key l e, st) = run t (inside l k st) := by
  rw [h.1, List.append_assoc, run_then (run_spaces _ _ (by rfl) n), List.cons_append, run]
  show run _ (.inKey l [], st) = _
  rw [List.append_assoc, run_then (run_cleanKey _ [] l st (clean_iff h.2))]
  rfl

/-- The name of a member with an array. -/
theorem run_arrKey (lit : String) (n : Nat) (k : String)
    (h : lit.toList = List.replicate n ' ' ++ ('"' :: (k.toList ++ "\": [\n".toList)) ∧
      clean k.toList = true) (l : List (Str × J)) (e : Bool) (st : List Ctx) (t : Str) :
    run (lit.toList ++ t) (.key l e, st) = run t (.first, .arr [] :: .obj l k.toList :: st) := by
  rw [h.1, List.append_assoc, run_then (run_spaces _ _ (by rfl) n), List.cons_append, run]
  show run _ (.inKey l [], st) = _
  rw [List.append_assoc, run_then (run_cleanKey _ [] l st (clean_iff h.2))]
  rfl

/-- The beginning of an object within an array. -/
theorem run_open (lit : String) (n : Nat) (rest : String)
    (h : lit.toList = List.replicate n ' ' ++ ('{' :: '\n' :: rest.toList))
    (m : Mode) (hm : m = .val ∨ m = .first) (st : List Ctx) (t : Str) :
    run (lit.toList ++ t) (m, st) = run (rest.toList ++ t) (.key [] true, st) := by
  have h1 : step (m, st) ' ' = some (m, st) := by rcases hm with rfl | rfl <;> rfl
  rw [h, List.append_assoc, run_then (run_spaces _ _ h1 n)]
  rcases hm with rfl | rfl <;> rfl

/-- Two parts of a literal. -/
theorem lit_split (a b c : String) (h : a.toList = b.toList ++ c.toList) (t : Str) :
    a.toList ++ t = b.toList ++ (c.toList ++ t) := by rw [h, List.append_assoc]

/-- A member that another one follows. -/
theorem run_more {v : Str} (hv : Clean v) (l : List (Str × J)) (k : String) (st : List Ctx)
    (t : Str) :
    run (v ++ ("\",\n".toList ++ t)) (inside l k st) = run t (.key (l ++ [field k v]) false, st) := by
  rw [show "\",\n".toList ++ t = '"' :: (",\n".toList ++ t) from rfl, run_str hv]
  rfl

/-- The last member. -/
theorem run_last {v : Str} (hv : Clean v) (l : List (Str × J)) (k : String) (st : List Ctx)
    (t : Str) :
    run (v ++ ("\"".toList ++ t)) (inside l k st) = run t (.done (.str v), .obj l k.toList :: st) := by
  rw [show "\"".toList ++ t = '"' :: t from rfl, run_str hv]

theorem run_close (x : J) (l : List (Str × J)) (k : Str) (st : List Ctx) (b : Str) :
    run ("\n".toList ++ ("        }".toList ++ b)) (.done x, .obj l k :: st) =
      run b (.done (.obj (l ++ [(k, x)])), st) := by
  rw [run_then (s' := (.done x, .obj l k :: st)) (by rfl),
    run_then (s' := (.done (.obj (l ++ [(k, x)])), st)) (by rfl)]

theorem run_target (d : Data) (v : Nat) (l : List (Str × J)) (x : J) (st : List Ctx) (b : Str) :
    run (target d v ++ ("\n".toList ++ ("        }".toList ++ b)))
        (.done x, .obj l "value".toList :: st) =
      run b (.done (.obj (l ++ [("value".toList, x)] ++ pointsTo d v)), st) := by
  have out : ∀ (kind : String) (hk : Clean kind.toList) (n : Node),
      run ((",\n          \"points-to-type\": \"".toList ++ (kind.toList ++ ("\",\n".toList ++
        ("          \"points-to-base\": \"".toList ++ (pfx d.p n.base ++ ("\",\n".toList ++
          ("          \"points-to-offset\": \"".toList ++
            (('0' :: 'x' :: hex (v - n.base)) ++ "\"".toList)))))))) ++
          ("\n".toList ++ ("        }".toList ++ b))) (.done x, .obj l "value".toList :: st) =
      run b (.done (.obj (l ++ [("value".toList, x)] ++ [field "points-to-type" kind.toList,
        field "points-to-base" (pfx d.p n.base),
        field "points-to-offset" ('0' :: 'x' :: hex (v - n.base))])), st) := by
    intro kind hk n
    have ho : Clean ('0' :: 'x' :: hex (v - n.base)) := ox_clean (hex_clean _)
    generalize '0' :: 'x' :: hex (v - n.base) = o at ho
    simp only [List.append_assoc]
    rw [lit_split ",\n          \"points-to-type\": \"" ",\n" "          \"points-to-type\": \""
        (by decide +kernel),
      run_then (s' := (.key (l ++ [("value".toList, x)]) false, st)) (by rfl),
      run_key _ 10 "points-to-type" (by decide +kernel), run_more hk,
      run_key _ 10 "points-to-base" (by decide +kernel), run_more (pfx_clean _ _),
      run_key _ 10 "points-to-offset" (by decide +kernel), run_last ho, run_close]
    simp [List.append_assoc, field]
  have h1 : Clean "heap".toList := fun c hc => by revert c; decide
  have h2 : Clean "stack".toList := fun c hc => by revert c; decide
  rw [target, pointsTo]
  cases inNode d.heap v with
  | some n => exact out "heap" h1 n
  | none =>
    cases inNode d.stacks v with
    | some n => exact out "stack" h2 n
    | none =>
      dsimp only
      rw [List.nil_append, run_close, List.append_nil]

theorem signExt_small {b n : Nat} (h : n < 2 ^ (b - 1)) : signExt b n = n := by
  rw [signExt, if_pos h]

/-- The text of an entry. -/
theorem run_entry (d : Data) (a sz : Nat) (hd : Small d (a, width d.p sz))
    (m : Mode) (hm : m = .val ∨ m = .first) (st : List Ctx) (b : Str) :
    run (entryText d a sz ++ b) (m, st) = run b (.done (pieceJ d (a, width d.p sz)), st) := by
  delta entryText
  simp only [List.append_assoc]
  rw [run_open _ 8 "" (by decide +kernel) m hm, show "".toList = ([] : Str) from rfl,
    List.nil_append, run_key _ 10 "address" (by decide +kernel), run_more (pfx_clean _ _)]
  delta valueText
  by_cases hp : d.p ≤ sz
  · rw [if_pos hp]
    have hw : width d.p sz = d.p := by rw [width, if_pos hp]
    rw [hw]
    dsimp only
    simp only [List.append_assoc]
    rw [run_key _ 10 "value" (by decide +kernel), run_last (pfx_clean _ _), run_target]
    simp [pieceJ, field]
  · rw [if_neg hp]
    dsimp only
    have ht : (if 4 ≤ sz then pad 8 (hex (load d.mem a 4))
        else if 2 ≤ sz then pad 4 (hex (signExt 16 (load d.mem a 2)))
        else pad 2 (hex (signExt 8 (load d.mem a 1)))) =
        pad (2 * width d.p sz) (hex (load d.mem a (width d.p sz))) ∧ width d.p sz ≠ d.p := by
      have h4 := p_cases d
      have hd' := hd
      simp only [Small] at hd'
      rw [width, if_neg hp] at hd' ⊢
      by_cases h1 : 4 ≤ sz
      · rw [if_pos h1, if_pos h1]
        exact ⟨rfl, by omega⟩
      · rw [if_neg h1] at hd' ⊢
        rw [if_neg h1]
        by_cases h2 : 2 ≤ sz
        · rw [if_pos h2] at hd' ⊢
          rw [if_pos h2, signExt_small (hd'.1 rfl)]
          exact ⟨rfl, by omega⟩
        · rw [if_neg h2] at hd' ⊢
          rw [if_neg h2, signExt_small (hd'.2 rfl)]
          exact ⟨rfl, by omega⟩
    rw [ht.1]
    generalize width d.p sz = w at ht
    have hc : Clean (pfx w (load d.mem a w)) := pfx_clean _ _
    rw [show '0' :: 'x' :: pad (2 * w) (hex (load d.mem a w)) = pfx w (load d.mem a w) from rfl]
    have he : pieceJ d (a, w) = .obj ([] ++ [field "address" (pfx d.p a)] ++
        [field "value" (pfx w (load d.mem a w))]) := by
      simp [pieceJ, ht.2]
    rw [he]
    generalize pfx w (load d.mem a w) = v at hc
    simp only [List.append_assoc]
    rw [run_key _ 10 "value" (by decide +kernel),
      lit_split "\"\n" "\"" "\n" (by decide +kernel), run_last hc, run_close]
    rfl

/-- The rest of an object behind an entry. -/
theorem run_chunk (d : Data) (base : Nat) (st : List Ctx) (b : Str) :
    ∀ (n sz a : Nat), sz ≤ n → base < a → (∀ w ∈ pieces d.p a sz, Small d w) →
    ∀ (v : J) (l : List J),
    run (chunk d base a sz ++ ("      ]\n".toList ++ b)) (.done v, .arr l :: st) =
      run b (.done (.arr (l ++ [v] ++ (pieces d.p a sz).map (pieceJ d))), st) := by
  intro n
  induction n with
  | zero =>
    intro sz a hn _ _ v l
    have : sz = 0 := by omega
    subst this
    rw [chunk, dif_pos rfl, pieces_zero, run_then (s' := (.done v, .arr l :: st)) (by rfl),
      run_then (s' := (.done (.arr (l ++ [v])), st)) (by rfl)]
    simp
  | succ n ih =>
    intro sz a hn hb hsm v l
    by_cases h0 : sz = 0
    · subst h0
      rw [chunk, dif_pos rfl, pieces_zero, run_then (s' := (.done v, .arr l :: st)) (by rfl),
        run_then (s' := (.done (.arr (l ++ [v])), st)) (by rfl)]
      simp
    · have hw := width_pos d h0
      rw [pieces_step d a sz h0] at hsm ⊢
      rw [chunk, dif_neg h0, if_pos hb]
      simp only [List.append_assoc]
      rw [run_then (s' := (.val, .arr (l ++ [v]) :: st)) (by rfl),
        run_entry d a sz (hsm _ (by simp)) _ (Or.inl rfl),
        ih _ _ (by omega) (by omega) (fun w hw => hsm w (by simp [hw]))]
      simp

/-- The contents of an object. -/
theorem run_contents (d : Data) (base sz : Nat) (st : List Ctx) (b : Str)
    (hsm : ∀ w ∈ pieces d.p base sz, Small d w) :
    run (chunk d base base sz ++ ("      ]\n".toList ++ b)) (.first, .arr [] :: st) =
      run b (.done (.arr ((pieces d.p base sz).map (pieceJ d))), st) := by
  by_cases h0 : sz = 0
  · subst h0
    rw [chunk, dif_pos rfl, pieces_zero, run_then (s' := (.first, .arr [] :: st)) (by rfl),
      run_then (s' := (.done (.arr []), st)) (by rfl)]
    simp
  · have hw := width_pos d h0
    rw [pieces_step d base sz h0] at hsm ⊢
    rw [chunk, dif_neg h0, if_neg (by omega)]
    simp only [List.append_assoc, List.nil_append]
    rw [run_entry d base sz (hsm _ (by simp)) _ (Or.inr rfl),
      run_chunk d base st b _ _ _ (Nat.le_refl _) (by omega)
        (fun w hw => hsm w (by simp [hw]))]
    simp

/-- Objects that are printed right: not too large, short pieces not negative. -/
def Fits (d : Data) (n : Node) : Prop :=
  n.size < 2147483648 ∧ ∀ w ∈ pieces d.p n.base n.size, Small d w

theorem decInt_small {n : Nat} (h : n < 2147483648) : decInt n = dec n := by
  rw [decInt, Nat.mod_eq_of_lt (by omega), if_pos h]

theorem run_object (d : Data) (heap : Bool) (n : Node) (hf : Fits d n)
    (m : Mode) (hm : m = .val ∨ m = .first) (st : List Ctx) (b : Str) :
    run (objectText d heap n ++ b) (m, st) = run b (.done (nodeJ d heap n), st) := by
  have tail : ∀ (l : List (Str × J)),
      run ("      \"contents\": [\n".toList ++ (chunk d n.base n.base n.size ++
        ("      ]\n".toList ++ ("    }".toList ++ b)))) (.key l false, st) =
      run b (.done (.obj (l ++ [("contents".toList,
        .arr ((pieces d.p n.base n.size).map (pieceJ d)))])), st) := by
    intro l
    rw [run_arrKey _ 6 "contents" (by decide +kernel),
      run_contents d n.base n.size _ _ hf.2]
    rw [run_then (s' := (.done (.obj (l ++ [("contents".toList,
        .arr ((pieces d.p n.base n.size).map (pieceJ d)))])), st)) (by rfl)]
  have hz : Clean (dec n.size) := dec_clean _
  rw [objectText, decInt_small hf.1]
  cases heap with
  | true =>
    rw [if_pos rfl]
    simp only [List.append_assoc]
    rw [run_open _ 4 "      \"address\": \"" (by decide +kernel) m hm,
      run_key _ 6 "address" (by decide +kernel), run_more (pfx_clean _ _),
      run_key _ 6 "size" (by decide +kernel), run_more hz, tail]
    simp [nodeJ]
  | false =>
    rw [if_neg (by simp)]
    simp only [List.append_assoc]
    rw [run_open _ 4 "      \"thread_id\": \"" (by decide +kernel) m hm,
      run_key _ 6 "thread_id" (by decide +kernel), run_more (pfx_clean _ _),
      run_key _ 6 "address" (by decide +kernel), run_more (pfx_clean _ _),
      run_key _ 6 "size" (by decide +kernel), run_more hz, tail]
    simp [nodeJ]

/-- Objects behind another one. -/
theorem run_objects (d : Data) (isChar heap : Bool) (st : List Ctx) (b : Str) :
    ∀ (ns : List Node) (i : Nat), (∀ n ∈ ns, Fits d n) →
    (∀ j, i ≤ j → j < i + ns.length → 0 < count isChar j) → ∀ (v : J) (l : List J),
    ∃ v' l', l' ++ [v'] = l ++ [v] ++ ns.map (nodeJ d heap) ∧
      run (objects d isChar heap i ns ++ b) (.done v, .arr l :: st) =
        run b (.done v', .arr l' :: st)
  | [], _, _, _, v, l => ⟨v, l, by simp, rfl⟩
  | n :: ns, i, hf, hc, v, l => by
    obtain ⟨v', l', h1, h2⟩ := run_objects d isChar heap st b ns (i + 1)
      (fun x hx => hf x (by simp [hx]))
      (fun j hj hk => hc j (by omega) (by simp only [List.length_cons]; omega))
      (nodeJ d heap n) (l ++ [v])
    refine ⟨v', l', by rw [h1]; simp, ?_⟩
    rw [objects, if_pos (hc i (Nat.le_refl _) (by simp))]
    simp only [List.append_assoc]
    rw [run_then (s' := (.val, .arr (l ++ [v]) :: st)) (by rfl),
      run_object d heap n (hf n (by simp)) _ (Or.inl rfl), h2]

theorem count_zero (isChar : Bool) : count isChar 0 = 0 := by cases isChar <;> rfl

/-- An array of objects with what follows it. -/
theorem run_array (d : Data) (isChar heap : Bool) (st : List Ctx) (b e : Str) (ns : List Node)
    (he : e = "\n".toList ∨ e = []) (hf : ∀ n ∈ ns, Fits d n)
    (hc : ∀ j, 0 < j → j < ns.length → 0 < count isChar j) :
    run (objects d isChar heap 0 ns ++ (e ++ ("  ]".toList ++ b))) (.first, .arr [] :: st) =
      run b (.done (.arr (ns.map (nodeJ d heap))), st) := by
  cases ns with
  | nil =>
    rw [objects, List.nil_append]
    have h1 : run e (.first, .arr [] :: st) = some (.first, .arr [] :: st) := by
      rcases he with rfl | rfl <;> rfl
    rw [run_then h1, run_then (s' := (.done (.arr []), st)) (by rfl)]
    rfl
  | cons n ns =>
    rw [objects, count_zero, if_neg (by decide)]
    simp only [List.append_assoc, List.nil_append]
    rw [run_object d heap n (hf n (by simp)) _ (Or.inr rfl)]
    obtain ⟨v', l', h1, h2⟩ := run_objects d isChar heap st (e ++ ("  ]".toList ++ b)) ns 1
      (fun x hx => hf x (by simp [hx]))
      (fun j hj hk => hc j (by omega) (by simp only [List.length_cons]; omega))
      (nodeJ d heap n) []
    rw [h2]
    have h3 : run e (.done v', .arr l' :: st) = some (.done v', .arr l' :: st) := by
      rcases he with rfl | rfl <;> rfl
    rw [run_then h3, run_then (s' := (.done (.arr (l' ++ [v'])), st)) (by rfl), h1]
    rfl

/-! ## Threads -/

theorem run_frame (d : Data) (f : Frame) (hf : Clean f.func) (st : List Ctx) (b : Str) :
    run (frameBody d f ++ ("        }".toList ++ b)) (inside [] "program_counter" st) =
      run b (.done (frameJ d f), st) := by
  delta frameBody
  simp only [List.append_assoc]
  rw [run_more (pfx_clean _ _), run_key _ 10 "frame_pointer" (by decide +kernel),
    run_more (pfx_clean _ _), run_key _ 10 "function" (by decide +kernel),
    lit_split "\"\n" "\"" "\n" (by decide +kernel), run_last hf, run_close]
  rfl

theorem run_frames (d : Data) (st : List Ctx) (b : Str) :
    ∀ (fs : List Frame) (f : Frame) (l : List J), Clean f.func → (∀ g ∈ fs, Clean g.func) →
    run (frameBody d f ++ (framesText d fs ++ ("        }\n".toList ++ ("      ]\n".toList ++ b))))
        (inside [] "program_counter" (.arr l :: st)) =
      run b (.done (.arr (l ++ (f :: fs).map (frameJ d))), st)
  | [], f, l, hf, _ => by
    rw [show framesText d [] = [] from rfl, List.nil_append,
      lit_split "        }\n" "        }" "\n" (by decide +kernel), run_frame d f hf,
      run_then (s' := (.done (frameJ d f), .arr l :: st)) (by rfl),
      run_then (s' := (.done (.arr (l ++ [frameJ d f])), st)) (by rfl)]
    rfl
  | g :: fs, f, l, hf, hfs => by
    have h1 : framesText d (g :: fs) =
        "        },\n        {\n          \"program_counter\": \"".toList ++ (frameBody d g ++
          framesText d fs) := rfl
    rw [h1]
    simp only [List.append_assoc]
    rw [lit_split "        },\n        {\n          \"program_counter\": \"" "        }"
        ",\n        {\n          \"program_counter\": \"" (by decide +kernel), run_frame d f hf,
      lit_split ",\n        {\n          \"program_counter\": \"" ",\n"
        "        {\n          \"program_counter\": \"" (by decide +kernel),
      run_then (s' := (.val, .arr (l ++ [frameJ d f]) :: st)) (by rfl),
      run_open _ 8 "          \"program_counter\": \"" (by decide +kernel) _ (Or.inl rfl),
      run_key _ 10 "program_counter" (by decide +kernel),
      run_frames d st b fs g _ (hfs g (by simp)) (fun x hx => hfs x (by simp [hx]))]
    simp

/-- Names of functions that stand for themselves. -/
def Thread.Clean (t : Thread) : Prop :=
  MemLayout.Clean t.top.func ∧ ∀ f ∈ t.frames, MemLayout.Clean f.func

theorem run_thread (d : Data) (t : Thread) (ht : t.Clean) (m : Mode)
    (hm : m = .val ∨ m = .first) (st : List Ctx) (b : Str) :
    run (threadText d t ++ b) (m, st) = run b (.done (threadJ d t), st) := by
  delta threadText
  simp only [List.append_assoc]
  rw [run_open _ 4 "      \"thread_id\": \"" (by decide +kernel) m hm,
    run_key _ 6 "thread_id" (by decide +kernel), run_more (pfx_clean _ _),
    run_arrKey _ 6 "stack_frames" (by decide +kernel),
    run_open _ 8 "          \"program_counter\": \"" (by decide +kernel) _ (Or.inr rfl),
    run_key _ 10 "program_counter" (by decide +kernel),
    run_frames d _ _ t.frames t.top [] ht.1 ht.2,
    run_then (s' := (.done (threadJ d t), st)) (by rfl)]

/-! ## The file -/

/-- The text from the threads on. -/
def rest (d : Data) (isChar : Bool) : Str :=
  "  ],\n  \"heap objects\": [\n".toList ++ (objects d isChar true 0 d.heap ++
    ((if 0 < count isChar d.heap.length then "\n".toList else []) ++
      ("  ],\n  \"thread stacks\": [\n".toList ++ (objects d isChar false 0 d.stacks ++
        ((if 0 < count isChar d.stacks.length then "\n".toList else []) ++
          "  ]\n}\n".toList)))))

theorem dump_eq (d : Data) (isChar : Bool) (others : List Thread) (self : Thread) :
    dump d isChar others self = "{\n  \"version\": \"2\",\n".toList ++
      ("  \"threads\": [\n".toList ++ (threadsText d others ++ (threadText d self ++
        rest d isChar))) := rfl

theorem run_start (t : Str) :
    run ("{\n  \"version\": \"2\",\n".toList ++ ("  \"threads\": [\n".toList ++ t)) (.val, []) =
      run t (.first, [.arr [], .obj [field "version" ['2']] "threads".toList]) := by
  rw [run_open _ 0 "  \"version\": \"2\",\n" (by decide +kernel) _ (Or.inl rfl),
    lit_split "  \"version\": \"2\",\n" "  \"version\": \"" "2\",\n" (by decide +kernel),
    run_key _ 2 "version" (by decide +kernel),
    lit_split "2\",\n" "2" "\",\n" (by decide +kernel),
    run_more (clean_iff (by decide +kernel)), run_arrKey _ 2 "threads" (by decide +kernel)]
  rfl

/-- **C66**.  The file written by a process with one thread is JSON and says exactly what it should
(`layoutJ`): each object with its address, size and contents, where the pieces cover the object from
beginning to end, with their values and with the heap object or stack that a word points into. -/
theorem C66_dump_partial (d : Data) (isChar : Bool) (self : Thread)
    (hself : self.Clean)
    (hheap : ∀ n ∈ d.heap, Fits d n) (hstacks : ∀ n ∈ d.stacks, Fits d n)
    (hcount : isChar = true → d.heap.length ≤ 128 ∧ d.stacks.length ≤ 128) :
    parse (dump d isChar [] self) = some (layoutJ d [self]) := by
  have hc : ∀ n : Nat, (isChar = true → n ≤ 128) → ∀ j, 0 < j → j < n → 0 < count isChar j := by
    intro n hn j h1 h2
    rw [count]
    cases isChar with
    | true =>
      have := hn rfl
      rw [if_pos rfl, if_pos (by omega)]
      omega
    | false => rw [if_neg (by simp), if_neg (by omega)]; decide
  have he : ∀ n : Nat, (if 0 < count isChar n then "\n".toList else []) = "\n".toList ∨
      (if 0 < count isChar n then "\n".toList else []) = [] := by
    intro n; split
    · exact Or.inl rfl
    · exact Or.inr rfl
  have hr : run (dump d isChar [] self) (.val, []) = some (.done (layoutJ d [self]), []) := by
    rw [dump_eq, show threadsText d [] = [] from rfl, List.nil_append, run_start,
      run_thread d self hself _ (Or.inr rfl)]
    delta rest
    rw [
      lit_split "  ],\n  \"heap objects\": [\n" "  ],\n" "  \"heap objects\": [\n"
        (by decide +kernel),
      run_then (s' := (.key [field "version" ['2'],
        ("threads".toList, .arr [threadJ d self])] false, [])) (by rfl),
      run_arrKey _ 2 "heap objects" (by decide +kernel),
      lit_split "  ],\n  \"thread stacks\": [\n" "  ]" ",\n  \"thread stacks\": [\n"
        (by decide +kernel),
      run_array d isChar true _ _ _ d.heap (he _) hheap (hc _ fun h => (hcount h).1),
      lit_split ",\n  \"thread stacks\": [\n" ",\n" "  \"thread stacks\": [\n"
        (by decide +kernel),
      run_then (s' := (.key [field "version" ['2'], ("threads".toList, .arr [threadJ d self]),
        ("heap objects".toList, .arr (d.heap.map (nodeJ d true)))] false, [])) (by rfl),
      run_arrKey _ 2 "thread stacks" (by decide +kernel),
      show "  ]\n}\n".toList = "  ]".toList ++ "\n}\n".toList from rfl,
      run_array d isChar false _ _ _ d.stacks (he _) hstacks (hc _ fun h => (hcount h).2)]
    rfl
  rw [parse, hr]

/-- **C66** (negative).  With a second thread the file is not JSON: there is no comma between two
threads. -/
theorem C66_two_threads (d : Data) (isChar : Bool) (t : Thread) (ts : List Thread) (self : Thread)
    (ht : t.Clean) : parse (dump d isChar (t :: ts) self) = none := by
  have hr : run (dump d isChar (t :: ts) self) (.val, []) = none := by
    have hb : ∀ (x : J) (l : List J) (u : Thread) (b : Str),
        run (threadText d u ++ b) (.done x, .arr l :: [.obj [field "version" ['2']]
          "threads".toList]) = none := by
      intro x l u b
      delta threadText
      rw [List.append_assoc,
        lit_split "    {\n      \"thread_id\": \"" "    {" "\n      \"thread_id\": \""
          (by decide +kernel)]
      exact run_fail (by rfl) _
    rw [dump_eq, threadsText, run_start, List.append_assoc, run_thread d t ht _ (Or.inr rfl)]
    cases ts with
    | nil => rw [threadsText, List.nil_append, hb]
    | cons u us => rw [threadsText, List.append_assoc, hb]
  rw [parse, hr]

/-- Objects up to one without a comma. -/
theorem run_objects_fail (d : Data) (heap : Bool) (st : List Ctx) (b : Str) :
    ∀ (k : Nat) (ns : List Node) (i : Nat), i + k = 128 → 0 < i → k < ns.length →
    (∀ n ∈ ns, Fits d n) → ∀ (v : J) (l : List J),
    run (objects d true heap i ns ++ b) (.done v, .arr l :: st) = none := by
  intro k
  induction k with
  | zero =>
    intro ns i hi _ hl _ v l
    cases ns with
    | nil => simp at hl
    | cons n ns =>
      have : i = 128 := by omega
      subst this
      have h1 : objects d true heap 128 (n :: ns) = objectText d heap n ++
          objects d true heap 129 ns := rfl
      rw [h1, List.append_assoc]
      have h2 : ∃ t, objectText d heap n = "    {".toList ++ t := by
        delta objectText
        cases heap
        · rw [if_neg (by simp), lit_split "    {\n      \"thread_id\": \"" "    {"
            "\n      \"thread_id\": \"" (by decide +kernel)]
          exact ⟨_, List.append_assoc _ _ _⟩
        · rw [if_pos rfl, lit_split "    {\n      \"address\": \"" "    {"
            "\n      \"address\": \"" (by decide +kernel)]
          exact ⟨_, List.append_assoc _ _ _⟩
      obtain ⟨t, ht⟩ := h2
      rw [ht, List.append_assoc]
      exact run_fail (by rfl) _
  | succ k ih =>
    intro ns i hi h0 hl hf v l
    cases ns with
    | nil => simp at hl
    | cons n ns =>
      have hc : 0 < count true i := by
        rw [count, if_pos rfl, if_pos (by omega)]; omega
      have h1 : objects d true heap i (n :: ns) = ",\n".toList ++ (objectText d heap n ++
          objects d true heap (i + 1) ns) := by
        rw [objects, if_pos hc]
      rw [h1]
      simp only [List.append_assoc]
      rw [run_then (s' := (.val, .arr (l ++ [v]) :: st)) (by rfl),
        run_object d heap n (hf n (by simp)) _ (Or.inl rfl)]
      exact ih ns (i + 1) (by omega) (by omega) (by simp only [List.length_cons] at hl; omega)
        (fun x hx => hf x (by simp [hx])) _ _

/-- **C66** (negative).  Where `bool` is a `char`, the file is not JSON if there are more than 128
heap objects: the count wraps to a negative value and a comma is left out. -/
theorem C66_many_objects (d : Data) (self : Thread) (hself : self.Clean)
    (hheap : ∀ n ∈ d.heap, Fits d n) (hn : 128 < d.heap.length) :
    parse (dump d true [] self) = none := by
  have hr : run (dump d true [] self) (.val, []) = none := by
    rw [dump_eq, show threadsText d [] = [] from rfl, List.nil_append, run_start,
      run_thread d self hself _ (Or.inr rfl)]
    delta rest
    rw [lit_split "  ],\n  \"heap objects\": [\n" "  ],\n" "  \"heap objects\": [\n"
        (by decide +kernel),
      run_then (s' := (.key [field "version" ['2'],
        ("threads".toList, .arr [threadJ d self])] false, [])) (by rfl),
      run_arrKey _ 2 "heap objects" (by decide +kernel)]
    generalize d.heap = ns at hheap hn
    cases ns with
    | nil => simp at hn
    | cons n ns =>
      rw [objects, count_zero, if_neg (by decide)]
      simp only [List.append_assoc, List.nil_append]
      rw [run_object d true n (hheap n (by simp)) _ (Or.inr rfl)]
      exact run_objects_fail d true _ _ 127 ns 1 (by omega) (by omega)
        (by simp only [List.length_cons] at hn; omega) (fun x hx => hheap x (by simp [hx])) _ _
  rw [parse, hr]

theorem cover (d : Data) (x : Nat) : ∀ (n sz a : Nat), sz ≤ n →
    (pieces d.p a sz).countP (fun w => decide (w.1 ≤ x ∧ x < w.1 + w.2)) =
      if a ≤ x ∧ x < a + sz then 1 else 0 := by
  intro n
  induction n with
  | zero =>
    intro sz a hn
    have : sz = 0 := by omega
    subst this
    rw [pieces_zero, if_neg (by omega)]
    rfl
  | succ n ih =>
    intro sz a hn
    by_cases h0 : sz = 0
    · subst h0
      rw [pieces_zero, if_neg (by omega)]
      rfl
    · have hw := width_pos d h0
      rw [pieces_step d a sz h0, List.countP_cons, ih _ _ (by omega)]
      generalize width d.p sz = w at hw
      simp only [decide_eq_true_eq]
      by_cases h1 : a ≤ x ∧ x < a + w
      · rw [if_pos h1, if_neg (by omega), if_pos (by omega)]
      · rw [if_neg h1]
        by_cases h2 : a + w ≤ x ∧ x < a + w + (sz - w)
        · rw [if_pos h2, if_pos (by omega)]
        · rw [if_neg h2, if_neg (by omega)]

/-- **C66** (coverage).  Each byte of an object is in exactly one piece, no other byte is in any. -/
theorem C66_cover (d : Data) (x a sz : Nat) :
    (pieces d.p a sz).countP (fun w => decide (w.1 ≤ x ∧ x < w.1 + w.2)) =
      if a ≤ x ∧ x < a + sz then 1 else 0 := cover d x sz sz a (Nat.le_refl _)

/-- **C66** (values).  The value shown for a piece has the bytes of memory as its digits to the
base 256, the byte at the lowest address being the last digit. -/
theorem C66_value (mem : Nat → Nat) : ∀ (w a : Nat), load mem a w < 256 ^ w ∧
    ∀ i, i < w → load mem a w / 256 ^ i % 256 = mem (a + i) % 256
  | 0, a => ⟨by simp [load], fun i h => absurd h (Nat.not_lt_zero i)⟩
  | w + 1, a => by
    obtain ⟨h1, h2⟩ := C66_value mem w (a + 1)
    refine ⟨?_, ?_⟩
    · rw [load, Nat.pow_succ]; omega
    · intro i hi
      cases i with
      | zero =>
        show (mem a % 256 + 256 * load mem (a + 1) w) / 256 ^ 0 % 256 = mem a % 256
        rw [Nat.pow_zero, Nat.div_one]; omega
      | succ i =>
        have h3 := h2 i (by omega)
        rw [load, Nat.pow_succ, Nat.mul_comm (256 ^ i) 256, ← Nat.div_div_eq_div_mul]
        rw [show (mem a % 256 + 256 * load mem (a + 1) w) / 256 = load mem (a + 1) w by omega, h3]
        congr 2
        omega

/-- **C66** (targets).  The object that a word is said to point into contains the address; none is
given only if no object contains it; and if objects do not overlap, it is the only one. -/
theorem C66_target (t : List Node) (a : Nat) :
    (∀ n, inNode t a = some n → n ∈ t ∧ n.base ≤ a ∧ a < n.base + n.size) ∧
    (inNode t a = none ↔ ∀ n ∈ t, ¬ (n.base ≤ a ∧ a < n.base + n.size)) ∧
    (t.Pairwise (fun m n => m.base + m.size ≤ n.base) →
      ∀ n ∈ t, n.base ≤ a → a < n.base + n.size → inNode t a = some n) := by
  refine ⟨fun n h => ?_, ?_, ?_⟩
  · have h1 := List.find?_some h
    exact ⟨List.mem_of_find?_eq_some h, of_decide_eq_true h1⟩
  · rw [inNode, List.find?_eq_none]
    simp only [decide_eq_true_eq]
  · intro hp
    induction t with
    | nil => intro n hn; simp at hn
    | cons m t ih =>
      intro n hn h1 h2
      rw [List.pairwise_cons] at hp
      rw [inNode, List.find?_cons]
      rcases List.mem_cons.mp hn with rfl | hn
      · rw [decide_eq_true ⟨h1, h2⟩]
      · have := hp.1 n hn
        rw [decide_eq_false (by omega)]
        exact ih hp.2 n hn h1 h2

theorem decVal_digit : ∀ n, n < 10 → SysFile.decVal (Char.ofNat (48 + n)) = some n := by
  decide +kernel

theorem dec_digits (n : Nat) : ∀ c ∈ dec n, (SysFile.decVal c).isSome := by
  induction n using Nat.strongRecOn with
  | _ n ih =>
    intro c hc
    rw [dec] at hc
    split at hc
    · rename_i h
      rw [List.mem_singleton] at hc
      rw [hc, decVal_digit n h]; rfl
    · rename_i h
      rw [List.mem_append, List.mem_singleton] at hc
      rcases hc with hc | hc
      · exact ih (n / 10) (by omega) c hc
      · rw [hc, decVal_digit _ (by omega)]; rfl

theorem digits_zeros (b : Nat) (s : Str) : ∀ n : Nat,
    SysFile.digits SysFile.hexVal b 0 (List.replicate n '0' ++ s) =
      SysFile.digits SysFile.hexVal b 0 s
  | 0 => rfl
  | n + 1 => by
    rw [List.replicate_succ, List.cons_append, SysFile.digits,
      show SysFile.hexVal '0' = some 0 by decide +kernel]
    exact digits_zeros b s n

/-- **C66** (numbers).  Sizes are shown to the base 10; addresses and values to the base 16, with
leading zeros up to two digits per byte. -/
theorem C66_numbers (p n : Nat) :
    SysFile.digits SysFile.decVal 10 0 (dec n) = n ∧
    (∃ s, pfx p n = '0' :: 'x' :: s ∧ SysFile.digits SysFile.hexVal 16 0 s = n ∧
      2 * p ≤ s.length) := by
  refine ⟨?_, _, rfl, ?_, ?_⟩
  · induction n using Nat.strongRecOn with
    | _ n ih =>
      rw [dec]
      split
      · rename_i h
        simp [SysFile.digits, decVal_digit n h]
      · rename_i h
        rw [SysFile.digits_append _ _ _ _ _ (dec_digits _), ih (n / 10) (by omega)]
        simp only [SysFile.digits, decVal_digit _ (show n % 10 < 10 by omega)]
        omega
  · rw [pad, digits_zeros, hex, SysFile.hex_value]
  · rw [pad, List.length_append, List.length_replicate]; omega

/-! ## Cases -/

/-- Memory whose first word is 0x1020, followed by bytes with and without their highest bit. -/
def mem0 : Nat → Nat := fun a => if a < 16 then [0x20, 0x10, 0, 0, 0, 0, 0, 0, 0xff, 0xff, 0xff, 0xff,
  0x12, 0x80, 0x80, 0][a]! else 0

/-- **C66** (negative): the last byte of an object of 15 bytes is 0x80 and is printed as
0xffffff80. -/
theorem C66_sign : load mem0 14 1 = 0x80 ∧ entryText ⟨true, mem0, [], []⟩ 14 1 =
    ("        {\n          \"address\": \"0x000000000000000e\",\n" ++
      "          \"value\": \"0xffffff80\"\n        }").toList := by decide +kernel

/-- **C66** (negative): the size of an object of 2 GiB is printed as a negative number. -/
theorem C66_size : decInt 2147483648 = "-2147483648".toList := by decide +kernel

/-- **C66** (negative): a function name with a quotation mark, like that of a C++ literal operator,
makes the file invalid. -/
theorem C66_name : (parse (dump ⟨true, mem0, [], []⟩ false []
    ⟨1, ⟨2, 3, "operator\"\"_km".toList⟩, []⟩)).isNone = true := by decide +kernel

/-- A heap object of 13 bytes whose first word points into a stack. -/
def d0 : Data := ⟨true, mem0, [⟨0, 13, 0⟩], [⟨0x1000, 0x40, 7⟩]⟩

/-- A thread with two frames. -/
def t0 : Thread := ⟨7, ⟨0x400100, 0x1010, "main".toList⟩, [⟨0x400200, 0x1030, "_start".toList⟩]⟩

example : pieces d0.p 0 13 = [(0, 8), (8, 4), (12, 1)] := by decide +kernel

example : (inNode d0.stacks (load mem0 0 8)).map Node.base = some 0x1000 := by decide +kernel

/-- The hypotheses of the theorem hold for it. -/
example : parse (dump d0 true [] t0) = some (layoutJ d0 [t0]) := by
  refine C66_dump_partial d0 true t0 ⟨clean_iff (by decide +kernel), ?_⟩ ?_ ?_ ?_
  · intro f hf
    rw [show t0.frames = [⟨0x400200, 0x1030, "_start".toList⟩] from rfl, List.mem_singleton] at hf
    subst hf
    exact clean_iff (by decide +kernel)
  · intro n hn
    rw [show d0.heap = [⟨0, 13, 0⟩] from rfl, List.mem_singleton] at hn
    subst hn
    refine ⟨by decide, ?_⟩
    unfold Small
    decide +kernel
  · intro n hn
    rw [show d0.stacks = [⟨0x1000, 0x40, 7⟩] from rfl, List.mem_singleton] at hn
    subst hn
    refine ⟨by decide, ?_⟩
    unfold Small
    decide +kernel
  · intro _; exact ⟨by decide, by decide⟩

/-- The reader takes JSON of other kinds, too. -/
example : (parse "{\"a\": [1, true, \"\\\"\"], \"b\": {}}".toList).isSome = true ∧
    (parse "[{} {}]".toList).isNone = true ∧ (parse "[1,]".toList).isNone = true ∧
    (parse "{\"a\" 1}".toList).isNone = true := by decide +kernel

end Verif.MemLayout
