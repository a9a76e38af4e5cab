import Verif.Loop
/-!
# String helpers of common/utils_shared.c

`strnchr` (33-47), `strcasestr` (55-80), `find_next_line` (114-146).
-/
namespace Verif.Text

/-! ## strnchr -/

/-- Loop of `strnchr` (common/utils_shared.c:32-47) over readable memory `M` starting at its first
byte; `i` is `s - str`.  `M[i]? = none` is a read outside the memory.
Result: `none` = out-of-bounds read, `some none` = NULL, `some (some i)` = str + i. -/
def strnchrStep (M : List UInt8) (c : UInt8) (max : Nat) (i : Nat) : Nat ⊕ Option (Option Nat) :=
  if max ≤ i then .inr (some none)
  else match M[i]? with
    | none => .inr none
    | some x =>
      if x = c then .inr (some (some i))
      else if x = 0 then .inr (some none)
      else .inl (i + 1)

/-- `strnchr(M, c, max)` returns `r` (no out-of-bounds read). -/
def Strnchr (M : List UInt8) (c : UInt8) (max : Nat) (r : Option Nat) : Prop :=
  Runs (strnchrStep M c max) 0 (some r)

/-! ## strcasestr -/

/-- Local variables of `strcasestr` (common/utils_shared.c:57-60). -/
structure CsSt where
  cur : Nat   -- cur_text - text
  pat : Nat   -- cur_pattern - pattern
  root : Nat  -- root - text

/-- Body of the loop of `strcasestr` (common/utils_shared.c:61-79). -/
def casestrStep (T P : List UInt8) (s : CsSt) : CsSt ⊕ Option (Option Nat) :=
  match rd P s.pat with
  | none => .inr none
  | some p =>
    if p = 0 then .inr (some (some s.root))
    else match rd T s.cur with
      | none => .inr none
      | some t =>
        if t = 0 then .inr (some none)
        else if toLower t = toLower p then
          .inl { s with cur := s.cur + 1, pat := s.pat + 1 }
        else .inl { cur := s.root + 1, pat := 0, root := s.root + 1 }

/-- `strcasestr(T, P)` returns `r` (no out-of-bounds read). -/
def Strcasestr (T P : List UInt8) (r : Option Nat) : Prop :=
  Runs (casestrStep T P) ⟨0, 0, 0⟩ (some r)

/-! ## find_next_line -/

abbrev LF : UInt8 := 10
abbrev CR : UInt8 := 13
abbrev SP : UInt8 := 32
abbrev TAB : UInt8 := 9

/-- The search of the newline: `strnchr(line, '\n', eof - line)` (common/utils_shared.c:121) on
memory `M` starting at absolute index `i`.  `n` bounds the iterations (`eof - line` steps suffice).
`none` = out of bounds; `some none` = NULL. -/
def findNl (M : List UInt8) (eof : Nat) : Nat → Nat → Option (Option Nat)
  | 0, _ => some none
  | n + 1, i =>
    if eof ≤ i then some none
    else match M[i]? with
      | none => none
      | some x => if x = LF then some (some i) else if x = 0 then some none else findNl M eof n (i + 1)

/-- `for (next_line = newline; *next_line == '\r' || *next_line == '\n'; next_line++)`
(common/utils_shared.c:126-128).  Not bounded by `eof`: stops at the first other byte, or runs out of
the readable memory (`none`). `n` = number of readable bytes left + 1. -/
def skipCrLf (M : List UInt8) : Nat → Nat → Option Nat
  | 0, _ => none
  | n + 1, i =>
    match M[i]? with
    | none => none
    | some x => if x = CR ∨ x = LF then skipCrLf M n (i + 1) else some i

/-- Read `*(p - 1)`: `none` when `p` is the first readable byte. -/
def rdPrev (M : List UInt8) (p : Nat) : Option UInt8 := if p = 0 then none else M[p - 1]?

/-- `for (; newline > line && blank(*(newline-1)); newline--)` (common/utils_shared.c:132-134). -/
def trimBack (M : List UInt8) (line : Nat) : Nat → Option Nat
  | 0 => some 0
  | nl + 1 =>
    if line < nl + 1 then
      match M[nl]? with
      | none => none
      | some x => if x = SP ∨ x = TAB then trimBack M line nl else some (nl + 1)
    else some (nl + 1)

/-- `for (; line < newline && blank(*line); line++)` (common/utils_shared.c:138-139);
the first argument is `newline - line`. -/
def trimFront (M : List UInt8) : Nat → Nat → Option Nat
  | 0, line => some line
  | n + 1, line =>
    match M[line]? with
    | none => none
    | some x => if x = SP ∨ x = TAB then trimFront M n (line + 1) else some line

/-- Result of `find_next_line`: `*sol`, `*eol`, return value. -/
structure Line where
  sol : Nat
  eol : Nat
  next : Nat
deriving DecidableEq, Repr

/-- `find_next_line(start, eof, &sol, &eol, skip_ws)` (common/utils_shared.c:114-146) over readable
memory `M` (indices are offsets from the first readable byte).  `none` = a read outside of `M`. -/
def findNextLine (M : List UInt8) (start eof : Nat) (skipWs : Bool) : Option Line := do
  let nl? ← findNl M eof (eof - start) start
  match nl? with
  | none =>                                     -- lines 122-124
    let line ← if skipWs then trimFront M (eof - start) start else some start
    some ⟨line, eof, eof + 1⟩
  | some nl =>                                  -- lines 125-136
    let next ← skipCrLf M (M.length + 1 - nl) nl
    let prev ← rdPrev M nl
    let nl1 := if prev = CR then nl - 1 else nl
    let nl2 ← if skipWs then trimBack M start nl1 else some nl1
    let line ← if skipWs then trimFront M (nl2 - start) start else some start
    some ⟨line, nl2, next⟩

/-- The walk all callers do: `for (line = start; line < eof; line = next_line)`
(e.g. drmemory/report.c:812-815).  Collects the (sol, eol) pairs.  `fuel` bounds the number of
lines. -/
def walk (M : List UInt8) (eof : Nat) (skipWs : Bool) : Nat → Nat → Option (List (Nat × Nat))
  | 0, _ => none
  | n + 1, pos =>
    if pos < eof then do
      let l ← findNextLine M pos eof skipWs
      let rest ← walk M eof skipWs n l.next
      some ((l.sol, l.eol) :: rest)
    else some []

end Verif.Text
