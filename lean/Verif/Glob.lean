import Verif.Loop
/-!
# Wildcard matching (common/utils.c:567-655)

Model of `text_matches_pattern`, `text_matches_any_pattern`, `text_contains_any_string`.
Pointers into the two strings are modelled by indices; every read is a checked `rd`.
-/
namespace Verif.Glob

abbrev star : UInt8 := 42   -- '*'
abbrev quest : UInt8 := 63  -- '?'

/-- `tolower` on both characters when `ignore_case` (common/utils.c:580-589). -/
def fold (ic : Bool) (c : UInt8) : UInt8 := if ic then toLower c else c

/-- Local variables of `text_matches_pattern` (common/utils.c:574-577):
`cur` = cur_text - text, `pat` = the moving `pattern` pointer,
`last` = (text_last_asterisk, pattern_last_asterisk) or NULL. -/
structure St where
  cur : Nat
  pat : Nat
  last : Option (Nat × Nat)

/-- Result of the function; `oob` = a read outside one of the strings. -/
inductive Res where
  | ret (b : Bool)
  | oob
deriving DecidableEq, Repr

/-- `while (*pattern == '*') ++pattern` starting at index `i`
(common/utils.c:591 — after the `++` — and common/utils.c:615-616).
Returns the index of the first non-'*', `none` on an out-of-bounds read.  The first argument bounds
the iterations; there are at most `P.length + 1` indices to read before going out of bounds. -/
def skipStarsN (P : List UInt8) : Nat → Nat → Option Nat
  | 0, _ => none
  | n + 1, i =>
    match rd P i with
    | some c => if c = star then skipStarsN P n (i + 1) else some i
    | none => none

@[inherit_doc skipStarsN]
def skipStars (P : List UInt8) (i : Nat) : Option Nat := skipStarsN P (P.length + 1) i

/-- One evaluation of the `while (*cur_text != '\0')` loop test and its body, and the code after
the loop (common/utils.c:578-618). -/
def step (ic : Bool) (T P : List UInt8) (s : St) : St ⊕ Res :=
  match rd T s.cur with
  | none => .inr .oob
  | some ct =>
    if ct = 0 then                                   -- loop exit, lines 615-618
      match skipStars P s.pat with
      | none => .inr .oob
      | some p =>
        match rd P p with
        | none => .inr .oob
        | some c => .inr (.ret (c == 0))
    else
      match rd P s.pat with
      | none => .inr .oob
      | some cp =>
        if cp = star then                            -- lines 590-600
          match skipStars P (s.pat + 1) with
          | none => .inr .oob
          | some p =>
            match rd P p with
            | none => .inr .oob
            | some c =>
              if c = 0 then .inr (.ret true)
              else .inl { s with pat := p, last := some (s.cur, p) }
        else if fold ic ct = fold ic cp ∨ cp = quest then   -- lines 601-603
          .inl { s with cur := s.cur + 1, pat := s.pat + 1 }
        else
          match s.last with
          | some (tl, pl) =>                         -- lines 604-609: cur_text = text_last_asterisk++
            .inl { cur := tl, pat := pl, last := some (tl + 1, pl) }
          | none => .inr (.ret false)                -- lines 610-613

/-- `text_matches_pattern` returns `b`, without any out-of-bounds read (common/utils.c:567-619). -/
def Returns (ic : Bool) (T P : List UInt8) (b : Bool) : Prop :=
  Runs (step ic T P) ⟨0, 0, none⟩ (.ret b)

/-- Executable version with a step budget, for the examples. -/
def run (ic : Bool) (T P : List UInt8) (fuel : Nat) : Option Res :=
  loop (step ic T P) fuel ⟨0, 0, none⟩

/-! ## Specification -/

/-- The glob language: `Matches eq p t` iff `t` is obtained from `p` by replacing each `*` by a
string and each `?` by one character; other characters are compared with `eq`. -/
inductive Matches (eq : UInt8 → UInt8 → Prop) : List UInt8 → List UInt8 → Prop
  | nil : Matches eq [] []
  | star {p t} (w : List UInt8) : Matches eq p t → Matches eq (star :: p) (w ++ t)
  | quest {p t} (c : UInt8) : Matches eq p t → Matches eq (quest :: p) (c :: t)
  | lit {p t c d} : c ≠ Glob.star → eq d c → Matches eq p t → Matches eq (c :: p) (d :: t)

/-- Character equality used by the specification. -/
def ceq (ic : Bool) (a b : UInt8) : Prop :=
  if ic then toLower a = toLower b else a = b

/-! ## Pattern lists -/

/-- Memory image of a null-separated, double-null-terminated list, without the final NUL
(the list terminator is the NUL that `rd` supplies at the end). -/
def encode : List (List UInt8) → List UInt8
  | [] => []
  | p :: ps => p ++ 0 :: encode ps

/-- `strlen` of the string starting at index `i` of memory `M` (used at common/utils.c:629,652). -/
def strlenAtN (M : List UInt8) : Nat → Nat → Option Nat
  | 0, _ => none
  | n + 1, i =>
    match rd M i with
    | some c => if c = 0 then some 0 else (strlenAtN M n (i + 1)).map (· + 1)
    | none => none

@[inherit_doc strlenAtN]
def strlenAt (M : List UInt8) (i : Nat) : Option Nat := strlenAtN M (M.length + 1) i

/-- The loop shared by `text_matches_any_pattern` (common/utils.c:622-633) and
`text_contains_any_string` (common/utils.c:635-651): the callback `f` is the per-member test.
Result: index of the first member for which `f` holds, or `none`.
Simplification: `f` receives the member as a string (its bytes up to the NUL). -/
def anyStep (f : List UInt8 → Bool) (M : List UInt8) (c : Nat) : Nat ⊕ Option (Option Nat) :=
  match rd M c with
  | none => .inr none                -- out of bounds
  | some ch =>
    if ch = 0 then .inr (some none)
    else
      match strlenAt M c with
      | none => .inr none
      | some n =>
        if f ((M.drop c).take n) then .inr (some (some c))
        else .inl (c + n + 1)

end Verif.Glob
