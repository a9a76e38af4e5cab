import Verif.SuppressProps
import Verif.TextProps
/-!
# Suppression files: writer and parser (drmemory/report.c)

`genLines` models `write_suppress_pattern`/`report_error_suppression` (923-976), `readLines` models
`read_suppression_file` (798-889) on the lines delivered by `find_next_line` (C04), restricted to the
Dr. Memory format: a line starting with `{` (legacy Valgrind format) is the outcome `none`, like an
abort on a malformed suppression.
-/
namespace Verif.Suppress

/-- ASCII literal, for readable constants. -/
def str (s : String) : Bytes := s.toList.map fun c => c.toNat.toUInt8

def chLt : UInt8 := 60      -- '<'
def chGt : UInt8 := 62      -- '>'
def chPlus : UInt8 := 43    -- '+'
def chBang : UInt8 := 33    -- '!'
def chEq : UInt8 := 61      -- '='
def chHash : UInt8 := 35    -- '#'
def chBrace : UInt8 := 123  -- '{'

/-- `suppress_name[]` (drmemory/report.c:130-141), non-Windows build. -/
def suppressName : List Bytes :=
  [str "UNADDRESSABLE ACCESS", str "UNINITIALIZED READ", str "INVALID HEAP ARGUMENT", str "WARNING",
   str "LEAK", str "POSSIBLE LEAK", str "REACHABLE LEAK"]

def notInModule : Bytes := str "<not in a module>"
def syscallPfx : Bytes := str "system call "
def dots : Bytes := str "..."
def toolName : Bytes := str "Dr.Memory"

/-- `strstr(s, p)` as an index (C library; first occurrence). -/
def strstr (p : Bytes) : Bytes → Option Nat
  | [] => if p = [] then some 0 else none
  | c :: s => if p.isPrefixOf (c :: s) then some 0 else (strstr p s).map (· + 1)

/-- `get_suppress_type` (drmemory/report.c:404-422). -/
def suppressType (line : Bytes) : Option Nat :=
  if line = [] then none
  else suppressName.findIdx? fun nm =>
    strstr nm line == some 0 ||
      (strstr nm line == some (toolName.length + 1) && strstr toolName line == some 0)

/-- The frame-parsing part of `suppress_spec_add_frame` for the Dr. Memory format
(drmemory/report.c:739-785).  `none` = the suppression is rejected as malformed (usage error, the tool
exits) or, if `>` precedes `+`, a negative length is passed to `drmem_strndup`. -/
def parseFrame (line : Bytes) : Option SFrame :=
  if line.head? = some chLt ∧ chPlus ∈ line ∧ chGt ∈ line ∧ chBang ∉ line then
    let plus := line.idxOf chPlus
    let gt := line.idxOf chGt
    if gt < plus + 1 then none
    else
      let offs := (line.drop (plus + 1)).take (gt - (plus + 1))
      if offs.length < 3 ∨ offs[0]? ≠ some 48 ∨ offs[1]? ≠ some 120 then none
      else some { isModule := true, modname := some ((line.take plus).drop 1), modoffs := some offs }
  else if chBang ∈ line ∧ line.head? ≠ some chLt then
    let bang := line.idxOf chBang
    let rest := line.drop (bang + 1)
    if strstr dots rest = some 0 then
      some { isModule := true, modname := some (line.take bang), isEllipsis := true }
    else some { isModule := true, modname := some (line.take bang), func := some rest }
  else if line = notInModule then some { func := some line }
  else if line = dots then some { isEllipsis := true }
  else if line = str "*" then some { isStar := true }
  else if (strstr syscallPfx line).isSome then some { func := some line }
  else none

/-- A suppression being parsed (`suppress_spec_t`, drmemory/report.c:367-380); `num` is `num_frames`. -/
structure Cur where
  type : Nat
  frames : List SFrame := []
  num : Nat := 0
  instruction : Option Bytes := none

/-- `suppress_spec_add_frame` (drmemory/report.c:678-795) with `suppress_spec_prefix_line`
(586-676) for the Dr. Memory format; `maxFrames` is `-callstack_max_frames`. -/
def addLine (maxFrames : Nat) (sp : Cur) (line : Bytes) : Option Cur :=
  if chEq ∈ line ∧ strstr (str "name=") line = some 0 then some sp
  else if chEq ∈ line ∧ strstr (str "instruction=") line = some 0 then
    if sp.type = 0 ∨ sp.type = 1 ∨ sp.type = 3 then
      some { sp with instruction := some (line.drop (line.idxOf chEq + 1)) }
    else none
  else
    let sp := { sp with num := sp.num + 1 }
    if maxFrames ≤ sp.num then some sp          -- truncated (697-703)
    else match parseFrame line with
      | none => none
      | some f => some { sp with frames := sp.frames ++ [f] }

/-- `suppress_spec_finish` (drmemory/report.c:533-584): reject an empty suppression or one ending in an
ellipsis, else prepend to the list of its type. -/
def finish (sp : Cur) (lists : Nat → List Spec) : Option (Nat → List Spec) :=
  match sp.frames.getLast? with
  | none => none
  | some f =>
    if f.isEllipsis then none
    else some fun u => if u = sp.type then
      { frames := sp.frames, instruction := sp.instruction } :: lists u else lists u

/-- State of `read_suppression_file`. -/
structure Rd where
  spec : Option Cur
  lists : Nat → List Spec

/-- One iteration of the loop of `read_suppression_file` (drmemory/report.c:827-879). -/
def readLine (maxFrames : Nat) (r : Rd) (line : Bytes) : Option Rd :=
  if line = [] ∨ line.head? = some chHash then some r
  else match suppressType line with
    | some t =>
      match r.spec with
      | none => some { r with spec := some { type := t } }
      | some sp => (finish sp r.lists).map fun l => { spec := some { type := t }, lists := l }
    | none =>
      if line.head? = some chBrace then none
      else match r.spec with
        | none => none
        | some sp => (addLine maxFrames sp line).map fun sp' => { r with spec := some sp' }

/-- `read_suppression_file` on the lines of the file (drmemory/report.c:798-889). -/
def readLines (maxFrames : Nat) (lines : List Bytes) (lists : Nat → List Spec) :
    Option (Nat → List Spec) := do
  let r ← lines.foldlM (readLine maxFrames) { spec := none, lists := lists }
  match r.spec with
  | none => some r.lists
  | some sp => finish sp r.lists

/-- One frame as written by `write_suppress_pattern` (drmemory/report.c:932-949). -/
def writeFrame (symbolic : Bool) (f : Frame) : Bytes :=
  if f.isModule then
    if symbolic then f.modname ++ chBang :: (if f.func = str "?" then str "*" else f.func)
    else chLt :: f.modname ++ chPlus :: f.modoffs ++ [chGt]
  else f.func

/-- `write_suppress_pattern` (drmemory/report.c:922-950); `idDigits` is the printed error number. -/
def writePattern (t : Nat) (idDigits : Bytes) (F : List Frame) (symbolic : Bool) : List Bytes :=
  suppressName.getD t [] :: (str "name=Error #" ++ idDigits ++ str " (update to meaningful name)") ::
    F.map (writeFrame symbolic)

/-- `report_error_suppression` (drmemory/report.c:953-974): options gen_suppress_syms,
gen_suppress_offs. -/
def genLines (syms offs : Bool) (t : Nat) (idDigits : Bytes) (F : List Frame) : List Bytes :=
  if !syms && !offs then []
  else
    [str "# Suppression for Error #" ++ idDigits] ++
    (if syms then writePattern t idDigits F true else []) ++
    (if offs then
      (if syms then [[], str "## Mod+offs-style suppression for Error #" ++ idDigits ++ str ":"] else []) ++
        writePattern t idDigits F false
     else []) ++ [[]]

/-- The text of the file: every line followed by NL (common/utils.h:243). -/
def genText (lines : List Bytes) : Bytes := lines.flatMap (· ++ [Text.LF])

/-! ## C06 -/

/-- A line is trimmed: no LF, CR or blank at its ends, no LF, CR, NUL inside. -/
structure Trimmed (l : Bytes) : Prop where
  noLF : Text.LF ∉ l
  noCR : Text.CR ∉ l
  noNul : (0 : UInt8) ∉ l
  first : ∀ c, l.head? = some c → Text.blank c = false
  last : ∀ c, l.getLast? = some c → Text.blank c = false

/-- Frames whose generated line can be read back.  The excluded ones are real: see the witnesses. -/
structure Writable (symbolic : Bool) (f : Frame) : Prop where
  /-- no line structure or surrounding blanks in the names -/
  trimmed : Trimmed (writeFrame symbolic f)
  /-- the symbolic line starts like neither a comment, a brace, an error type, nor a `name=` line -/
  plainStart : f.isModule = true → symbolic = true →
    (∃ c s, f.modname = c :: s ∧ c ≠ chLt ∧ c ≠ chHash ∧ c ≠ chBrace) ∧
    suppressType (writeFrame symbolic f) = none ∧
    strstr (str "name=") (writeFrame symbolic f) ≠ some 0 ∧
    strstr (str "instruction=") (writeFrame symbolic f) ≠ some 0
  noBang : f.isModule = true → chBang ∉ f.modname
  noDots : f.isModule = true → symbolic = true → strstr dots f.func ≠ some 0
  /-- the `<mod+offs>` form: no `+` or `>` in the module name, offset printed as `0x…` hex digits -/
  modName : f.isModule = true → symbolic = false → chPlus ∉ f.modname ∧ chGt ∉ f.modname
  modOffs : f.isModule = true → symbolic = false →
    ∃ d ds, f.modoffs = str "0x" ++ d :: ds ∧ chGt ∉ d :: ds ∧ chPlus ∉ d :: ds ∧ chBang ∉ d :: ds
  /-- frames outside modules are written by the callstack code as one of two texts
  (common/callstack.c:2266, 2307) -/
  nonMod : f.isModule = false → f.func = notInModule ∨ ∃ nm, f.func = syscallPfx ++ nm ∧ chBang ∉ nm

/-! ### String lemmas -/

theorem strstr_zero {p s : Bytes} : strstr p s = some 0 ↔ p <+: s := by
  cases s with
  | nil =>
    unfold strstr
    split
    · simp_all
    · simp_all
  | cons c s =>
    unfold strstr
    rw [← List.isPrefixOf_iff_prefix]
    split
    · simp_all
    · simp_all

theorem strstr_ne_of_head {p : Bytes} {a : UInt8} {p' : Bytes} {c : UInt8} {s : Bytes}
    (hp : p = a :: p') (h : c ≠ a) : strstr p (c :: s) ≠ some 0 := by
  rw [Ne, strstr_zero, hp, List.cons_prefix_cons]
  exact fun e => h e.1.symm

/-- A line whose first character starts neither an error type nor the tool name has no type. -/
theorem suppressType_none_of_head {c : UInt8} {s : Bytes}
    (h : c ∉ ([85, 73, 87, 76, 80, 82, 68] : List UInt8)) : suppressType (c :: s) = none := by
  simp only [List.mem_cons, List.not_mem_nil, or_false, not_or] at h
  obtain ⟨h1, h2, h3, h4, h5, h6, h7⟩ := h
  unfold suppressType
  rw [if_neg (by simp)]
  rw [List.findIdx?_eq_none_iff]
  intro nm hnm
  have htool : (strstr toolName (c :: s) == some 0) = false := by
    rw [beq_eq_false_iff_ne]; exact strstr_ne_of_head (a := 68) (p' := toolName.tail) (by decide) h7
  rw [htool, Bool.and_false, Bool.or_false, beq_eq_false_iff_ne]
  simp only [suppressName, List.mem_cons, List.not_mem_nil, or_false] at hnm
  rcases hnm with rfl | rfl | rfl | rfl | rfl | rfl | rfl
  · exact strstr_ne_of_head (a := 85) (p' := (str "UNADDRESSABLE ACCESS").tail) (by decide) h1
  · exact strstr_ne_of_head (a := 85) (p' := (str "UNINITIALIZED READ").tail) (by decide) h1
  · exact strstr_ne_of_head (a := 73) (p' := (str "INVALID HEAP ARGUMENT").tail) (by decide) h2
  · exact strstr_ne_of_head (a := 87) (p' := (str "WARNING").tail) (by decide) h3
  · exact strstr_ne_of_head (a := 76) (p' := (str "LEAK").tail) (by decide) h4
  · exact strstr_ne_of_head (a := 80) (p' := (str "POSSIBLE LEAK").tail) (by decide) h5
  · exact strstr_ne_of_head (a := 82) (p' := (str "REACHABLE LEAK").tail) (by decide) h6

theorem suppressType_name : ∀ t, t < 7 → suppressType (suppressName.getD t []) = some t := by
  decide

theorem idxOf_append_cons {c : UInt8} {a b : Bytes} (h : c ∉ a) : (a ++ c :: b).idxOf c = a.length := by
  induction a with
  | nil => simp
  | cons d a ih =>
    have hd : d ≠ c := fun e => h (by simp [e])
    rw [List.cons_append, List.idxOf_cons, ih (fun e => h (by simp [e])), beq_eq_false_iff_ne.2 hd]
    rfl

/-- Any text matches itself as a pattern. -/
theorem matches_self (ic : Bool) (p : Bytes) : Glob.Matches (Glob.ceq ic) p p := by
  rw [← globB_iff]
  induction p with
  | nil => rw [globB.eq_def]; rfl
  | cons c p ih =>
    rw [globB.eq_def]
    dsimp only
    split
    · rw [List.any_eq_true]; exact ⟨1, by simp, by simpa using ih⟩
    · simp [ih]

theorem matches_star (ic : Bool) (t : Bytes) : Glob.Matches (Glob.ceq ic) (str "*") t := by
  rw [← globB_iff, globB.eq_def]
  have : str "*" = [Glob.star] := by decide
  rw [this]
  dsimp only
  rw [if_pos rfl, List.any_eq_true]
  refine ⟨t.length, by simp, ?_⟩
  rw [List.drop_length, globB.eq_def]; rfl

/-! ### Reading back one frame -/

/-- The suppression frame that a generated line denotes. -/
def frameOf (symbolic : Bool) (f : Frame) : SFrame :=
  if f.isModule then
    if symbolic then { isModule := true, modname := some f.modname,
                       func := some (if f.func = str "?" then str "*" else f.func) }
    else { isModule := true, modname := some f.modname, modoffs := some f.modoffs }
  else { func := some f.func }

theorem frameOf_spec (cfg : Cfg) (symbolic : Bool) (f : Frame) : LineSpec cfg f (frameOf symbolic f) := by
  unfold frameOf
  split
  · rename_i hm
    split
    · refine .modFunc _ rfl rfl hm ⟨_, rfl, matches_self _ _⟩ rfl ?_
      split
      · exact matches_star _ _
      · exact matches_self _ _
    · exact .modOffs _ rfl rfl hm ⟨_, rfl, matches_self _ _⟩ rfl rfl (matches_self _ _)
  · rename_i hm
    exact .nonmod _ rfl rfl (by simpa using hm) rfl (matches_self _ _)

theorem frameOf_ordinary (symbolic : Bool) (f : Frame) : (frameOf symbolic f).isEllipsis = false := by
  unfold frameOf; split
  · split <;> rfl
  · rfl

theorem parse_written {symbolic : Bool} {f : Frame} (h : Writable symbolic f) :
    parseFrame (writeFrame symbolic f) = some (frameOf symbolic f) := by
  unfold frameOf
  cases hm : f.isModule with
  | true =>
    cases symbolic with
    | true =>
      obtain ⟨⟨c, s, hcs, hc, _⟩, _⟩ := h.plainStart hm rfl
      have hb := h.noBang hm
      have hd : strstr dots (if f.func = str "?" then str "*" else f.func) ≠ some 0 := by
        split
        · decide
        · exact h.noDots hm rfl
      have hw : writeFrame true f = f.modname ++ chBang :: (if f.func = str "?" then str "*" else f.func) := by
        simp [writeFrame, hm]
      rw [hw]
      generalize (if f.func = str "?" then str "*" else f.func) = fn at *
      unfold parseFrame
      have hhead : (f.modname ++ chBang :: fn).head? = some c := by rw [hcs]; rfl
      rw [if_neg (by rw [hhead]; simp [hc]), if_pos ⟨by simp, by rw [hhead]; simp [hc]⟩]
      simp only [idxOf_append_cons hb]
      have e1 : (f.modname ++ chBang :: fn).drop (f.modname.length + 1) = fn := by
        rw [List.drop_append, List.drop_eq_nil_of_le (by omega)]; simp
      rw [e1, if_neg hd]
      simp
    | false =>
      obtain ⟨hp, hg⟩ := h.modName hm rfl
      obtain ⟨d, ds, ho, hog, hop, hob⟩ := h.modOffs hm rfl
      have hb := h.noBang hm
      have h0x : str "0x" = [48, 120] := by decide
      have hw : writeFrame false f = (chLt :: f.modname) ++ chPlus :: (f.modoffs ++ [chGt]) := by
        simp [writeFrame, hm]
      have hp' : chPlus ∉ chLt :: f.modname := by
        intro hh; rcases List.mem_cons.mp hh with e | e
        · revert e; decide
        · exact hp e
      have hoff3 : chGt ∉ f.modoffs := by
        rw [ho, h0x]
        simp only [List.cons_append, List.nil_append, List.mem_cons, not_or]
        simp only [List.mem_cons, not_or] at hog
        exact ⟨by decide, by decide, hog⟩
      have hoff1 : chBang ∉ f.modoffs := by
        rw [ho, h0x]
        simp only [List.cons_append, List.nil_append, List.mem_cons, not_or]
        simp only [List.mem_cons, not_or] at hob
        exact ⟨by decide, by decide, hob⟩
      rw [hw]
      unfold parseFrame
      have hbl : chBang ∉ (chLt :: f.modname) ++ chPlus :: (f.modoffs ++ [chGt]) := by
        simp only [List.mem_append, List.mem_cons, List.not_mem_nil, or_false, not_or]
        exact ⟨⟨by decide, hb⟩, by decide, hoff1, by decide⟩
      rw [if_pos ⟨by simp, by simp, by simp, hbl⟩]
      have hgt : ((chLt :: f.modname) ++ chPlus :: (f.modoffs ++ [chGt])).idxOf chGt =
          f.modname.length + 2 + f.modoffs.length := by
        have e : (chLt :: f.modname) ++ chPlus :: (f.modoffs ++ [chGt]) =
            ((chLt :: f.modname) ++ chPlus :: f.modoffs) ++ chGt :: [] := by simp
        rw [e, idxOf_append_cons]
        · simp only [List.length_append, List.length_cons]; omega
        · simp only [List.mem_append, List.mem_cons, not_or]
          exact ⟨⟨by decide, hg⟩, by decide, hoff3⟩
      simp only [idxOf_append_cons hp', hgt]
      rw [if_neg (by simp only [List.length_cons]; omega)]
      have e1 : ((chLt :: f.modname) ++ chPlus :: (f.modoffs ++ [chGt])).drop
          ((chLt :: f.modname).length + 1) = f.modoffs ++ [chGt] := by
        rw [List.drop_append, List.drop_eq_nil_of_le (by omega)]; simp
      have e2 : f.modname.length + 2 + f.modoffs.length - ((chLt :: f.modname).length + 1) =
          f.modoffs.length := by simp only [List.length_cons]; omega
      rw [e1, e2, List.take_left, if_neg]
      · simp
      · rw [ho, h0x]; simp
  | false =>
    have hw : writeFrame symbolic f = f.func := by simp [writeFrame, hm]
    rw [hw]
    rcases h.nonMod hm with e | ⟨nm, e, hnb⟩
    · rw [e, if_neg (by simp)]; decide
    · have e' : f.func = 115 :: (syscallPfx.tail ++ nm) := by rw [e]; rfl
      have hb : chBang ∉ f.func := by
        rw [e, List.mem_append, not_or]; exact ⟨by decide, hnb⟩
      unfold parseFrame
      rw [if_neg (by rw [e']; rintro ⟨hh, _⟩; rw [List.head?_cons] at hh; revert hh; decide),
        if_neg (fun hh => hb hh.1), if_neg, if_neg, if_neg, if_pos]
      · simp
      · rw [strstr_zero.2 (by rw [e]; exact List.prefix_append _ _)]; rfl
      · rw [e']; intro hh; injection hh with hh _; revert hh; decide
      · rw [e']; intro hh; injection hh with hh _; revert hh; decide
      · rw [e']; intro hh; injection hh with hh _; revert hh; decide

/-- The reader treats the line as a frame line. -/
structure FrameLine (l : Bytes) : Prop where
  cons : ∃ c s, l = c :: s ∧ c ≠ chHash ∧ c ≠ chBrace
  noType : suppressType l = none
  noName : strstr (str "name=") l ≠ some 0
  noInstr : strstr (str "instruction=") l ≠ some 0

theorem frameLine_of_head {c : UInt8} {s : Bytes} (h : c = chLt ∨ c = 115) : FrameLine (c :: s) := by
  refine ⟨⟨c, s, rfl, ?_, ?_⟩, ?_, ?_, ?_⟩
  · rcases h with rfl | rfl <;> decide
  · rcases h with rfl | rfl <;> decide
  · apply suppressType_none_of_head; rcases h with rfl | rfl <;> decide
  · exact strstr_ne_of_head (a := 110) (p' := (str "name=").tail) (by decide)
      (by rcases h with rfl | rfl <;> decide)
  · exact strstr_ne_of_head (a := 105) (p' := (str "instruction=").tail) (by decide)
      (by rcases h with rfl | rfl <;> decide)

theorem Writable.frameLine {symbolic : Bool} {f : Frame} (h : Writable symbolic f) :
    FrameLine (writeFrame symbolic f) := by
  cases hm : f.isModule with
  | true =>
    cases symbolic with
    | true =>
      obtain ⟨⟨c, s, hcs, _, h1, h2⟩, h3, h4, h5⟩ := h.plainStart hm rfl
      refine ⟨⟨c, s ++ chBang :: (if f.func = str "?" then str "*" else f.func), ?_, h1, h2⟩, h3, h4, h5⟩
      simp [writeFrame, hm, hcs]
    | false =>
      have hw : writeFrame false f = chLt :: (f.modname ++ chPlus :: (f.modoffs ++ [chGt])) := by
        simp [writeFrame, hm]
      rw [hw]; exact frameLine_of_head (.inl rfl)
  | false =>
    have hw : writeFrame symbolic f = f.func := by simp [writeFrame, hm]
    rw [hw]
    rcases h.nonMod hm with e | ⟨nm, e, _⟩
    · rw [e]; exact frameLine_of_head (c := chLt) (s := notInModule.tail) (.inl rfl)
    · rw [e]; exact frameLine_of_head (c := 115) (s := syscallPfx.tail ++ nm) (.inr rfl)

theorem readLine_frame {M : Nat} {sp : Cur} {lists : Nat → List Spec} {l : Bytes} {fr : SFrame}
    (hl : FrameLine l) (hp : parseFrame l = some fr) :
    readLine M ⟨some sp, lists⟩ l = some ⟨some { sp with
      num := sp.num + 1, frames := if M ≤ sp.num + 1 then sp.frames else sp.frames ++ [fr] }, lists⟩ := by
  obtain ⟨⟨c, s, e, hc1, hc2⟩, h2, h3, h4⟩ := hl
  unfold readLine
  rw [if_neg (by rw [e]; simp [hc1]), h2]
  simp only
  rw [if_neg (by rw [e]; simp [hc2])]
  unfold addLine
  rw [if_neg (fun hh => h3 hh.2), if_neg (fun hh => h4 hh.2)]
  simp only [hp]
  split <;> rfl

theorem readLine_frames {M : Nat} {symbolic : Bool} {lists : Nat → List Spec} (F : List Frame)
    (hF : ∀ f ∈ F, Writable symbolic f) (sp : Cur) :
    (F.map (writeFrame symbolic)).foldlM (readLine M) ⟨some sp, lists⟩ =
      some ⟨some { sp with num := sp.num + F.length,
                           frames := sp.frames ++ (F.take (M - 1 - sp.num)).map (frameOf symbolic) },
            lists⟩ := by
  induction F generalizing sp with
  | nil => simp
  | cons f F ih =>
    have hf := hF f (by simp)
    rw [List.map_cons, List.foldlM_cons, readLine_frame hf.frameLine (parse_written hf)]
    simp only [Option.bind_eq_bind, Option.bind_some]
    rw [ih (fun g hg => hF g (by simp [hg]))]
    simp only [Option.some.injEq, Rd.mk.injEq, and_true, Cur.mk.injEq, true_and]
    refine ⟨?_, by simp; omega⟩
    split
    · rename_i hM
      have h1 : M - 1 - (sp.num + 1) = 0 := by omega
      have h2 : M - 1 - sp.num = 0 := by omega
      simp [h1, h2]
    · rename_i hM
      obtain ⟨k, hk⟩ : ∃ k, M - 1 - sp.num = k + 1 := ⟨M - 1 - sp.num - 1, by omega⟩
      have h1 : M - 1 - (sp.num + 1) = k := by omega
      simp [h1, hk]

/-- The reader skips the line (blank or comment). -/
theorem readLine_skip {M : Nat} {r : Rd} {l : Bytes} (h : l = [] ∨ l.head? = some chHash) :
    readLine M r l = some r := by
  unfold readLine; rw [if_pos h]

theorem readLine_name {M : Nat} {sp : Cur} {lists : Nat → List Spec} (x : Bytes) :
    readLine M ⟨some sp, lists⟩ (str "name=Error #" ++ x) = some ⟨some sp, lists⟩ := by
  have e : str "name=Error #" ++ x = 110 :: ((str "name=Error #").tail ++ x) := rfl
  unfold readLine
  rw [if_neg (by rw [e]; simp; decide), e, suppressType_none_of_head (by decide), ← e]
  simp only
  rw [if_neg (by rw [e]; simp; decide)]
  unfold addLine
  rw [if_pos]
  · rfl
  · refine ⟨List.mem_append_left _ (by decide), strstr_zero.2 ?_⟩
    exact List.IsPrefix.trans (l₂ := str "name=Error #") (by decide) (List.prefix_append _ _)

/-- What is read from one generated pattern. -/
def curOf (M t : Nat) (symbolic : Bool) (F : List Frame) : Cur :=
  { type := t, num := F.length, frames := (F.take (M - 1)).map (frameOf symbolic) }

theorem read_pattern {M t : Nat} (ht : t < 7) {symbolic : Bool} {lists : Nat → List Spec}
    (F : List Frame) (hF : ∀ f ∈ F, Writable symbolic f) (ids : Bytes) (r : Rd)
    (hr : r.spec = none ∧ r.lists = lists ∨ ∃ sp, r.spec = some sp ∧ finish sp r.lists = some lists) :
    (writePattern t ids F symbolic).foldlM (readLine M) r =
      some ⟨some (curOf M t symbolic F), lists⟩ := by
  unfold writePattern
  have hty := suppressType_name t ht
  have hne : suppressName.getD t [] ≠ [] ∧ (suppressName.getD t []).head? ≠ some chHash := by
    revert ht t; decide
  rw [List.foldlM_cons]
  have h1 : readLine M r (suppressName.getD t []) = some ⟨some { type := t }, lists⟩ := by
    unfold readLine
    rw [if_neg (by simp only [not_or]; exact hne), hty]
    rcases hr with ⟨h1, h2⟩ | ⟨sp, h1, h2⟩
    · simp [h1, h2]
    · simp [h1, h2]
  rw [h1]
  simp only [Option.bind_eq_bind, Option.bind_some]
  rw [List.foldlM_cons, List.append_assoc, readLine_name]
  simp only [Option.bind_eq_bind, Option.bind_some]
  rw [readLine_frames F hF]
  simp [curOf]

theorem curOf_finish {M t : Nat} {symbolic : Bool} {F : List Frame} (hM : 2 ≤ M) (hF : F ≠ [])
    (lists : Nat → List Spec) :
    finish (curOf M t symbolic F) lists = some fun u => if u = t then
      { frames := (F.take (M - 1)).map (frameOf symbolic) } :: lists u else lists u := by
  unfold finish
  obtain ⟨f, F', rfl⟩ := List.exists_cons_of_ne_nil hF
  obtain ⟨k, hk⟩ : ∃ k, M - 1 = k + 1 := ⟨M - 2, by omega⟩
  have hne : (curOf M t symbolic (f :: F')).frames ≠ [] := by simp [curOf, hk]
  have hord : ∀ p ∈ (curOf M t symbolic (f :: F')).frames, p.isEllipsis = false := by
    intro p hp
    simp only [curOf, List.mem_map] at hp
    obtain ⟨g, _, rfl⟩ := hp
    exact frameOf_ordinary _ _
  rw [List.getLast?_eq_some_getLast hne]
  simp only
  rw [if_neg (by rw [hord _ (List.getLast_mem hne)]; simp)]
  rfl

/-- The frames read back describe the callstack they were generated from. -/
theorem describes_frameOf (cfg : Cfg) (symbolic : Bool) (n : Nat) (F : List Frame) :
    Describes cfg ((F.take n).map (frameOf symbolic)) F := by
  induction F generalizing n with
  | nil => simp; exact .nil _
  | cons f F ih =>
    cases n with
    | zero => exact .nil _
    | succ n =>
      rw [List.take_succ_cons, List.map_cons]
      exact .frame (frameOf_ordinary _ _) (frameOf_spec _ _ _) (ih n)

/-- `m` is the value of `stack_matches_suppression` for this error. -/
def Decides (cfg : Cfg) (e : Err) (m : Spec → Bool) : Prop :=
  ∀ sp, m sp = true ↔ instrOk sp e = true ∧ Returns cfg sp.frames e.stack true

theorem decides_exists (cfg : Cfg) (e : Err) : ∃ m, Decides cfg e m := by
  classical
  exact ⟨fun sp => decide (instrOk sp e = true ∧ Returns cfg sp.frames e.stack true),
    fun sp => by simp⟩

theorem plain_frames (symbolic : Bool) (F : List Frame) : PlainSpec (F.map (frameOf symbolic)) := by
  refine ⟨?_, ?_⟩
  · intro p hp he
    simp only [List.mem_map] at hp
    obtain ⟨g, _, rfl⟩ := hp
    rw [frameOf_ordinary] at he; cases he
  · intro p hp
    have := List.mem_of_getLast? hp
    simp only [List.mem_map] at this
    obtain ⟨g, _, rfl⟩ := this
    exact frameOf_ordinary _ _

/-- **C06 (partial).**  Missing with respect to the full claim: frames that are not `Writable` (module
names with `+`, `>` or `!`, unnamed modules, names that look like an error type, ...: the claim is
false for them, see the witnesses) and `-callstack_max_frames` below 2.  For all other errors the
generated suppressions, in both forms, are accepted by the parser whatever was loaded before, and the
error is then suppressed. -/
theorem C06_round_trip_partial (cfg : Cfg) (M t : Nat) (e : Err) (syms offs : Bool) (ids : Bytes)
    (lists : Nat → List Spec) (ht : t < 7) (hM : 2 ≤ M) (hne : e.stack ≠ [])
    (hs : syms = true → ∀ f ∈ e.stack, Writable true f)
    (ho : offs = true → ∀ f ∈ e.stack, Writable false f) (hsome : syms = true ∨ offs = true) :
    ∃ lists', readLines M (genLines syms offs t ids e.stack) lists = some lists' ∧
      (∀ m, Decides cfg e m → (onList m e t lists').2.isSome = true) ∧
      (∀ u, ∀ sp ∈ lists u, sp ∈ lists' u) := by
  have hcomment : ∀ x r, readLine M r (str "# Suppression for Error #" ++ x) = some r :=
    fun x r => readLine_skip (.inr rfl)
  have hcomment2 : ∀ x r, readLine M r (str "## Mod+offs-style suppression for Error #" ++ x) = some r :=
    fun x r => readLine_skip (.inr rfl)
  have hblank : ∀ r, readLine M r [] = some r := fun r => readLine_skip (.inl rfl)
  -- the final state of the loop
  have key : ∃ symbolic lists1, (genLines syms offs t ids e.stack).foldlM (readLine M) ⟨none, lists⟩ =
      some ⟨some (curOf M t symbolic e.stack), lists1⟩ ∧ ∀ u, ∀ sp ∈ lists u, sp ∈ lists1 u := by
    unfold genLines
    cases syms with
    | true =>
      cases offs with
      | true =>
        refine ⟨false, fun u => if u = t then
          { frames := (e.stack.take (M - 1)).map (frameOf true) } :: lists u else lists u, ?_, ?_⟩
        · simp only [Bool.not_true, Bool.and_self, Bool.false_eq_true, if_false, if_true,
            List.foldlM_append, List.foldlM_cons, List.foldlM_nil, Option.bind_eq_bind,
            hcomment, hcomment2, hblank, Option.bind_some, Option.pure_def, List.append_assoc,
            List.singleton_append, List.cons_append, List.nil_append]
          rw [read_pattern ht e.stack (hs rfl) ids ⟨none, lists⟩ (.inl ⟨rfl, rfl⟩)]
          simp only [Option.bind_some, hblank]
          rw [read_pattern ht e.stack (ho rfl) ids _ (.inr ⟨_, rfl, curOf_finish hM hne lists⟩)]
          simp only [Option.bind_some, hblank]
        · intro u sp hsp
          by_cases hu : u = t
          · simp [hu]; right; rw [← hu]; exact hsp
          · simp [hu, hsp]
      | false =>
        refine ⟨true, lists, ?_, fun _ _ h => h⟩
        simp only [Bool.not_true, Bool.false_and, Bool.false_eq_true, if_false, if_true,
          List.foldlM_append, List.foldlM_cons, List.foldlM_nil, Option.bind_eq_bind,
          hcomment, hblank, Option.bind_some, Option.pure_def, List.append_assoc,
          List.singleton_append, List.cons_append, List.nil_append]
        rw [read_pattern ht e.stack (hs rfl) ids ⟨none, lists⟩ (.inl ⟨rfl, rfl⟩)]
        simp only [Option.bind_some, hblank]
    | false =>
      cases offs with
      | true =>
        refine ⟨false, lists, ?_, fun _ _ h => h⟩
        simp only [Bool.not_true, Bool.and_false, Bool.false_eq_true, if_false, if_true,
          List.foldlM_append, List.foldlM_cons, List.foldlM_nil, Option.bind_eq_bind,
          hcomment, hblank, Option.bind_some, Option.pure_def, List.append_assoc,
          List.singleton_append, List.cons_append, List.nil_append]
        rw [read_pattern ht e.stack (ho rfl) ids ⟨none, lists⟩ (.inl ⟨rfl, rfl⟩)]
        simp only [Option.bind_some, hblank]
      | false => simp at hsome
  obtain ⟨symbolic, lists1, hk, hsub⟩ := key
  refine ⟨fun u => if u = t then
      { frames := (e.stack.take (M - 1)).map (frameOf symbolic) } :: lists1 u else lists1 u, ?_, ?_, ?_⟩
  · unfold readLines
    rw [hk]
    exact curOf_finish hM hne lists1
  · intro m hm
    rw [C07_suppressed_iff]
    refine ⟨t, by unfold applicable; split <;> simp,
      { frames := (e.stack.take (M - 1)).map (frameOf symbolic) }, by simp, ?_⟩
    rw [hm]
    refine ⟨rfl, C05_complete_plain_partial cfg _ _ (plain_frames _ _) (describes_frameOf _ _ _ _)⟩
  · intro u sp hsp
    by_cases hu : u = t
    · simp [hu]; right; rw [← hu]; exact hsub _ _ hsp
    · simp [hu]; exact hsub _ _ hsp

/-! ### From lines to the bytes of the file -/

theorem Trimmed.trim {l : Bytes} (h : Trimmed l) : Text.ltrim (Text.rtrim (Text.dropCr l)) = l := by
  have h1 : Text.dropCr l = l := by
    unfold Text.dropCr
    rw [if_neg]
    intro e
    exact h.noCR (List.mem_of_getLast? e)
  have h2 : Text.rtrim l = l := by
    unfold Text.rtrim
    cases hr : l.reverse with
    | nil => simp at hr; simp [hr]
    | cons c s =>
      have : l.getLast? = some c := by rw [← List.head?_reverse, hr]; rfl
      rw [List.dropWhile_cons_of_neg (by rw [h.last c this]; simp), ← hr, List.reverse_reverse]
  rw [h1, h2]
  unfold Text.ltrim
  cases l with
  | nil => rfl
  | cons c s => rw [List.dropWhile_cons_of_neg (by rw [h.first c rfl]; simp)]

/-- The lines found in the generated file are the lines written (without the blank ones). -/
theorem textLines_genText (lines : List Bytes) (h : ∀ l ∈ lines, Trimmed l) :
    Text.textLines (genText lines) = lines.filter (· ≠ []) := by
  induction lines with
  | nil => decide
  | cons l lines ih =>
    have e : genText (l :: lines) = l ++ Text.LF :: genText lines := by simp [genText]
    rw [e, Text.textLines_seg l _ (h l (by simp)).noLF, ih (fun x hx => h x (by simp [hx])),
      (h l (by simp)).trim, ← List.filter_append]
    rfl

/-- **C06 (file level).**  Reading the generated file through the line reader of C04 gives the same
result as reading the written lines. -/
theorem C06_file_text (M : Nat) (lines : List Bytes) (lists : Nat → List Spec)
    (h : ∀ l ∈ lines, Trimmed l) :
    readLines M (Text.textLines (genText lines)) lists = readLines M lines lists := by
  rw [textLines_genText lines h]
  unfold readLines
  have : ∀ r, (lines.filter (· ≠ [])).foldlM (readLine M) r = lines.foldlM (readLine M) r := by
    clear h
    induction lines with
    | nil => intro r; rfl
    | cons l lines ih =>
      intro r
      by_cases hl : l = []
      · subst hl
        rw [List.filter_cons_of_neg (by simp), List.foldlM_cons, readLine_skip (.inl rfl), ih]; rfl
      · rw [List.filter_cons_of_pos (by simpa using hl), List.foldlM_cons, List.foldlM_cons]
        congr 1; funext r'; exact ih r'
  rw [this]

/-! ### Examples and violations -/

/-- `a.out!main` at offset 0x1f -/
def exFrame : Frame := ⟨true, str "a.out", str "0x1f", str "main"⟩

example : Writable true exFrame := by
  refine ⟨⟨by decide, by decide, by decide, by decide, by decide⟩, ?_, by decide, by decide, ?_, ?_, ?_⟩
  · intro _ _; exact ⟨⟨97, str ".out", by decide⟩, by decide, by decide, by decide⟩
  · intro _ h; cases h
  · intro _ h; cases h
  · intro h; cases h
example : Writable false exFrame := by
  refine ⟨⟨by decide, by decide, by decide, by decide, by decide⟩, ?_, by decide, ?_, by decide, ?_, ?_⟩
  · intro _ h; cases h
  · intro _ h; cases h
  · intro _ _; exact ⟨49, [102], by decide⟩
  · intro h; cases h

/-- **C06, violation 1.**  For a frame in `libstdc++.so.6` the generated `<mod+offs>` suppression is
rejected as malformed when read back (the parser splits at the first `+`), so the next run exits with a
usage error. -/
theorem C06_plus_in_module_name (lists : Nat → List Spec) :
    readLines 20 (genLines false true 0 (str "1") [⟨true, str "libstdc++.so.6", str "0x1f", str "f"⟩])
      lists = none := by
  have : (genLines false true 0 (str "1") [⟨true, str "libstdc++.so.6", str "0x1f", str "f"⟩]).foldlM
      (readLine 20) ⟨none, lists⟩ = none := by
    rfl
  unfold readLines; rw [this]; rfl

/-- **C06, violation 2.**  For a frame in a module without a name (shown as `<name unavailable>`,
common/callstack.c:2288-2289) the generated `mod!func` suppression is rejected as malformed. -/
theorem C06_unnamed_module (lists : Nat → List Spec) :
    readLines 20 (genLines true false 0 (str "1") [⟨true, str "<name unavailable>", str "0x1f", str "f"⟩])
      lists = none := by
  have : (genLines true false 0 (str "1") [⟨true, str "<name unavailable>", str "0x1f", str "f"⟩]).foldlM
      (readLine 20) ⟨none, lists⟩ = none := by
    rfl
  unfold readLines; rw [this]; rfl

/-- **C06, violation 3.**  A module whose name begins with an error type name (here `LEAKAGE.dll`) makes
its frame line start a new suppression; the generated suppression is then rejected as malformed. -/
theorem C06_type_prefix (lists : Nat → List Spec) :
    readLines 20 (genLines true false 0 (str "1") [⟨true, str "LEAKAGE.dll", str "0x1f", str "f"⟩])
      lists = none := by
  have : (genLines true false 0 (str "1") [⟨true, str "LEAKAGE.dll", str "0x1f", str "f"⟩]).foldlM
      (readLine 20) ⟨none, lists⟩ = none := by
    rfl
  unfold readLines; rw [this]; rfl

end Verif.Suppress
