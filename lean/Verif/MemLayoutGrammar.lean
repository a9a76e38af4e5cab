import Verif.MemLayoutThms

/-!
# C66: the reader takes every JSON text

The grammar of JSON (RFC 8259), generous about words and about what follows a backslash.  Every
text of the grammar is read as the value it stands for; a text that is refused is therefore not
JSON, and a text that is accepted stands for no other value.
-/

namespace Verif.MemLayout

/-- Space. -/
def Space (w : Str) : Prop := ∀ c ∈ w, isWs c = true

/-- The inside of a string. -/
inductive Body : Str → Prop where
  | nil : Body []
  | char (c : Char) (s : Str) : c ≠ '"' → c ≠ '\\' → isCtl c = false → Body s → Body (c :: s)
  | esc (c : Char) (s : Str) : isCtl c = false → Body s → Body ('\\' :: c :: s)

mutual

/-- Texts of a value. -/
inductive Val : J → Str → Prop where
  | word (c : Char) (s : Str) : (∀ x ∈ c :: s, isWs x = false ∧ isPunct x = false) →
      Val (.atom (c :: s)) (c :: s)
  | str (s : Str) : Body s → Val (.str s) ('"' :: (s ++ ['"']))
  | arr0 (w : Str) : Space w → Val (.arr []) ('[' :: (w ++ [']']))
  | arr (l : List J) (s : Str) : Elems l s → Val (.arr l) ('[' :: (s ++ [']']))
  | obj0 (w : Str) : Space w → Val (.obj []) ('{' :: (w ++ ['}']))
  | obj (l : List (Str × J)) (s : Str) : Members l s → Val (.obj l) ('{' :: (s ++ ['}']))

/-- Texts of the elements of an array. -/
inductive Elems : List J → Str → Prop where
  | one (v : J) (w s w' : Str) : Space w → Val v s → Space w' → Elems [v] (w ++ (s ++ w'))
  | cons (v : J) (w s w' : Str) (l : List J) (t : Str) : Space w → Val v s → Space w' →
      Elems l t → Elems (v :: l) (w ++ (s ++ (w' ++ (',' :: t))))

/-- Texts of the members of an object. -/
inductive Members : List (Str × J) → Str → Prop where
  | one (k : Str) (v : J) (w w1 w2 s w' : Str) : Space w → Body k → Space w1 → Space w2 → Val v s →
      Space w' → Members [(k, v)] (w ++ ('"' :: (k ++ ('"' :: (w1 ++ (':' :: (w2 ++ (s ++ w'))))))))
  | cons (k : Str) (v : J) (w w1 w2 s w' : Str) (l : List (Str × J)) (t : Str) : Space w → Body k →
      Space w1 → Space w2 → Val v s → Space w' → Members l t →
      Members ((k, v) :: l)
        (w ++ ('"' :: (k ++ ('"' :: (w1 ++ (':' :: (w2 ++ (s ++ (w' ++ (',' :: t))))))))))

end

/-- A JSON text. -/
def Json (v : J) (t : Str) : Prop := ∃ w s w', Space w ∧ Val v s ∧ Space w' ∧ t = w ++ (s ++ w')

/-- The state behind a value: a word ends only with the next character. -/
def Behind (v : J) (st : List Ctx) (q : Mode × List Ctx) : Prop :=
  q = (.done v, st) ∨ ∃ s, v = .atom s ∧ q = (.word s, st)

theorem Behind.step {v : J} {st : List Ctx} {q : Mode × List Ctx} (h : Behind v st q) {c : Char}
    (hc : isWs c = true ∨ isPunct c = true) : step q c = stepDone v st c := by
  rcases h with rfl | ⟨s, rfl, rfl⟩
  · rfl
  · show (if (isWs c || isPunct c) = true then _ else _) = _
    rw [if_pos (by rcases hc with h | h <;> simp [h])]

theorem run_ws (m : Mode) (st : List Ctx)
    (h : ∀ c, isWs c = true → step (m, st) c = some (m, st)) :
    ∀ w : Str, Space w → run w (m, st) = some (m, st)
  | [], _ => rfl
  | c :: w, hw => by
    rw [run, h c (hw c (by simp))]
    exact run_ws m st h w (fun x hx => hw x (by simp [hx]))

theorem stepDone_ws (v : J) (st : List Ctx) {c : Char} (hc : isWs c = true) :
    stepDone v st c = some (.done v, st) := by
  unfold stepDone
  rw [if_pos hc]

theorem run_behind {v : J} {st : List Ctx} {q : Mode × List Ctx} (h : Behind v st q) (w : Str)
    (hw : Space w) : ∃ q', Behind v st q' ∧ run w q = some q' := by
  cases w with
  | nil => exact ⟨q, h, rfl⟩
  | cons c w =>
    refine ⟨(.done v, st), Or.inl rfl, ?_⟩
    have hc := hw c (by simp)
    rw [run, h.step (Or.inl hc), stepDone_ws v st hc]
    refine run_ws _ _ ?_ w (fun x hx => hw x (by simp [hx]))
    intro x hx
    exact stepDone_ws v st hx

theorem run_body {s : Str} (h : Body s) : ∀ (acc : Str) (st : List Ctx),
    run s (.inStr acc, st) = some (.inStr (acc ++ s), st) := by
  induction h with
  | nil => intro acc st; rw [run, List.append_nil]
  | char c s h1 h2 h3 _ ih =>
    intro acc st
    rw [run, step]
    simp only [h1, h2, h3, if_false, Bool.false_eq_true]
    rw [ih, List.append_assoc]; rfl
  | esc c s h3 _ ih =>
    intro acc st
    rw [run, show step (.inStr acc, st) '\\' = some (.escStr (acc ++ ['\\']), st) from rfl]
    dsimp only
    rw [run, step, h3]
    simp only [if_false, Bool.false_eq_true]
    rw [ih]; simp

theorem run_bodyKey {s : Str} (h : Body s) : ∀ (acc : Str) (l : List (Str × J)) (st : List Ctx),
    run s (.inKey l acc, st) = some (.inKey l (acc ++ s), st) := by
  induction h with
  | nil => intro acc l st; rw [run, List.append_nil]
  | char c s h1 h2 h3 _ ih =>
    intro acc l st
    rw [run, step]
    simp only [h1, h2, h3, if_false, Bool.false_eq_true]
    rw [ih, List.append_assoc]; rfl
  | esc c s h3 _ ih =>
    intro acc l st
    rw [run, show step (.inKey l acc, st) '\\' = some (.escKey l (acc ++ ['\\']), st) from rfl]
    dsimp only
    rw [run, step, h3]
    simp only [if_false, Bool.false_eq_true]
    rw [ih]; simp

theorem ws_not_punct {c : Char} (h : isPunct c = true) : isWs c = false := by
  simp only [isPunct, Bool.or_eq_true, beq_iff_eq] at h
  rcases h with (((((rfl | rfl) | rfl) | rfl) | rfl) | rfl) | rfl <;> rfl

theorem not_punct {c : Char} (h : isPunct c = false) :
    c ≠ '{' ∧ c ≠ '[' ∧ c ≠ '"' ∧ c ≠ ']' := by
  refine ⟨?_, ?_, ?_, ?_⟩ <;> (rintro rfl; exact absurd h (by decide))

theorem run_word : ∀ (s acc : Str) (st : List Ctx),
    (∀ x ∈ s, isWs x = false ∧ isPunct x = false) →
    run s (.word acc, st) = some (.word (acc ++ s), st)
  | [], acc, st, _ => by rw [run, List.append_nil]
  | c :: s, acc, st, h => by
    obtain ⟨h1, h2⟩ := h c (by simp)
    rw [run, step, h1, h2]
    simp only [Bool.or_self, if_false, Bool.false_eq_true]
    rw [run_word s _ st (fun x hx => h x (by simp [hx]))]
    simp

/-- Modes in which a value is read. -/
def Ready (m : Mode) : Prop := m = .val ∨ m = .first

theorem Ready.ws {m : Mode} (h : Ready m) (st : List Ctx) (c : Char) (hc : isWs c = true) :
    step (m, st) c = some (m, st) := by
  rcases h with rfl | rfl
  · show stepVal _ _ _ = _
    rw [stepVal, if_pos hc]
  · show (if c = ']' then _ else stepVal _ _ _) = _
    have : c ≠ ']' := by rintro rfl; exact absurd hc (by decide)
    rw [if_neg this, stepVal, if_pos hc]

theorem key_ws (l : List (Str × J)) (e : Bool) (st : List Ctx) (c : Char) (hc : isWs c = true) :
    step (.key l e, st) c = some (.key l e, st) := by
  rw [step, if_pos hc]

theorem colon_ws (l : List (Str × J)) (k : Str) (st : List Ctx) (c : Char) (hc : isWs c = true) :
    step (.colon l k, st) c = some (.colon l k, st) := by
  rw [step, if_pos hc]

mutual

theorem run_val : ∀ {v : J} {s : Str}, Val v s → ∀ (m : Mode), Ready m → ∀ (st : List Ctx),
    ∃ q, Behind v st q ∧ run s (m, st) = some q
  | _, _, .word c s h, m, hm, st => by
    obtain ⟨h1, h2⟩ := h c (by simp)
    obtain ⟨n1, n2, n3, n4⟩ := not_punct h2
    refine ⟨(.word (c :: s), st), Or.inr ⟨_, rfl, rfl⟩, ?_⟩
    have h0 : step (m, st) c = some (.word [c], st) := by
      have : ∀ m', stepVal m' st c = some (.word [c], st) := by
        intro m'; rw [stepVal, h1, h2]; simp [n1, n2, n3]
      rcases hm with rfl | rfl
      · exact this _
      · show (if c = ']' then _ else stepVal _ _ _) = _
        rw [if_neg n4]; exact this _
    rw [run, h0]
    exact run_word s [c] st (fun x hx => h x (by simp [hx]))
  | _, _, .str s h, m, hm, st => by
    refine ⟨(.done (.str s), st), Or.inl rfl, ?_⟩
    have h0 : step (m, st) '"' = some (.inStr [], st) := by rcases hm with rfl | rfl <;> rfl
    rw [run, h0]
    dsimp only
    rw [run_then (run_body h [] st)]
    rfl
  | _, _, .arr0 w hw, m, hm, st => by
    refine ⟨(.done (.arr []), st), Or.inl rfl, ?_⟩
    have h0 : step (m, st) '[' = some (.first, .arr [] :: st) := by
      rcases hm with rfl | rfl <;> rfl
    rw [run, h0]
    dsimp only
    rw [run_then (run_ws _ _ (Ready.ws (Or.inr rfl) _) w hw)]
    rfl
  | _, _, .arr l s h, m, hm, st => by
    refine ⟨(.done (.arr l), st), Or.inl rfl, ?_⟩
    have h0 : step (m, st) '[' = some (.first, .arr [] :: st) := by
      rcases hm with rfl | rfl <;> rfl
    rw [run, h0]
    exact run_elems h .first (Or.inr rfl) [] st
  | _, _, .obj0 w hw, m, hm, st => by
    refine ⟨(.done (.obj []), st), Or.inl rfl, ?_⟩
    have h0 : step (m, st) '{' = some (.key [] true, st) := by rcases hm with rfl | rfl <;> rfl
    rw [run, h0]
    dsimp only
    rw [run_then (run_ws _ _ (key_ws _ _ _) w hw)]
    rfl
  | _, _, .obj l s h, m, hm, st => by
    refine ⟨(.done (.obj l), st), Or.inl rfl, ?_⟩
    have h0 : step (m, st) '{' = some (.key [] true, st) := by rcases hm with rfl | rfl <;> rfl
    rw [run, h0]
    exact run_members h true [] st

theorem run_elems : ∀ {l : List J} {s : Str}, Elems l s → ∀ (m : Mode), Ready m →
    ∀ (acc : List J) (st : List Ctx),
    run (s ++ [']']) (m, .arr acc :: st) = some (.done (.arr (acc ++ l)), st)
  | _, _, .one v w s w' hw h hw', m, hm, acc, st => by
    obtain ⟨q, hq, hr⟩ := run_val h m hm (.arr acc :: st)
    obtain ⟨q', hq', hr'⟩ := run_behind hq w' hw'
    simp only [List.append_assoc]
    rw [run_then (run_ws _ _ (hm.ws _) w hw), run_then hr, run_then hr', run,
      hq'.step (Or.inr (by decide))]
    rfl
  | _, _, .cons v w s w' l t hw h hw' ht, m, hm, acc, st => by
    obtain ⟨q, hq, hr⟩ := run_val h m hm (.arr acc :: st)
    obtain ⟨q', hq', hr'⟩ := run_behind hq w' hw'
    simp only [List.append_assoc, List.cons_append]
    rw [run_then (run_ws _ _ (hm.ws _) w hw), run_then hr, run_then hr', run,
      hq'.step (Or.inr (by decide))]
    show run (t ++ [']']) (.val, .arr (acc ++ [v]) :: st) = _
    rw [run_elems ht .val (Or.inl rfl) (acc ++ [v]) st]
    simp

theorem run_members : ∀ {l : List (Str × J)} {s : Str}, Members l s → ∀ (e : Bool)
    (acc : List (Str × J)) (st : List Ctx),
    run (s ++ ['}']) (.key acc e, st) = some (.done (.obj (acc ++ l)), st)
  | _, _, .one k v w w1 w2 s w' hw hk hw1 hw2 h hw', e, acc, st => by
    obtain ⟨q, hq, hr⟩ := run_val h .val (Or.inl rfl) (.obj acc k :: st)
    obtain ⟨q', hq', hr'⟩ := run_behind hq w' hw'
    simp only [List.append_assoc, List.cons_append]
    rw [run_then (run_ws _ _ (key_ws _ _ _) w hw), run]
    show run _ (.inKey acc [], st) = _
    rw [run_then (run_bodyKey hk [] acc st), run]
    show run _ (.colon acc k, st) = _
    rw [run_then (run_ws _ _ (colon_ws _ _ _) w1 hw1), run]
    show run _ (.val, .obj acc k :: st) = _
    rw [run_then (run_ws _ _ (Ready.ws (Or.inl rfl) _) w2 hw2), run_then hr, run_then hr', run,
      hq'.step (Or.inr (by decide))]
    rfl
  | _, _, .cons k v w w1 w2 s w' l t hw hk hw1 hw2 h hw' ht, e, acc, st => by
    obtain ⟨q, hq, hr⟩ := run_val h .val (Or.inl rfl) (.obj acc k :: st)
    obtain ⟨q', hq', hr'⟩ := run_behind hq w' hw'
    simp only [List.append_assoc, List.cons_append]
    rw [run_then (run_ws _ _ (key_ws _ _ _) w hw), run]
    show run _ (.inKey acc [], st) = _
    rw [run_then (run_bodyKey hk [] acc st), run]
    show run _ (.colon acc k, st) = _
    rw [run_then (run_ws _ _ (colon_ws _ _ _) w1 hw1), run]
    show run _ (.val, .obj acc k :: st) = _
    rw [run_then (run_ws _ _ (Ready.ws (Or.inl rfl) _) w2 hw2), run_then hr, run_then hr', run,
      hq'.step (Or.inr (by decide))]
    show run (t ++ ['}']) (.key (acc ++ [(k, v)]) false, st) = _
    rw [run_members ht false (acc ++ [(k, v)]) st]
    simp

end

/-- **C66** (reader).  Every JSON text is read as its value. -/
theorem C66_reader {v : J} {t : Str} (h : Json v t) : parse t = some v := by
  obtain ⟨w, s, w', hw, hs, hw', rfl⟩ := h
  obtain ⟨q, hq, hr⟩ := run_val hs .val (Or.inl rfl) []
  obtain ⟨q', hq', hr'⟩ := run_behind hq w' hw'
  have : run (w ++ (s ++ w')) (.val, []) = some q' := by
    rw [run_then (run_ws _ _ (Ready.ws (Or.inl rfl) _) w hw), run_then hr, hr']
  rw [parse, this]
  rcases hq' with rfl | ⟨s, rfl, rfl⟩ <;> rfl

/-- **C66** (negative).  The file of a process with two or more threads is not a JSON text of any
value. -/
theorem C66_not_json (d : Data) (isChar : Bool) (t : Thread) (ts : List Thread) (self : Thread)
    (ht : t.Clean) : ¬ ∃ v, Json v (dump d isChar (t :: ts) self) := by
  rintro ⟨v, hv⟩
  have := C66_reader hv
  rw [C66_two_threads d isChar t ts self ht] at this
  cases this

example : Json (.arr [.atom ['1'], .str ['a']]) "[1, \"a\"] ".toList :=
  ⟨[], "[1, \"a\"]".toList, [' '], by simp [Space],
    .arr _ "1, \"a\"".toList (.cons _ [] ['1'] [] _ " \"a\"".toList (by simp [Space])
      (.word '1' [] (by decide)) (by simp [Space])
      (.one _ [' '] "\"a\"".toList [] (by unfold Space; decide)
        (.str ['a'] (.char 'a' [] (by decide) (by decide) (by decide) .nil)) (by simp [Space]))),
    by unfold Space; decide, by decide⟩

end Verif.MemLayout
