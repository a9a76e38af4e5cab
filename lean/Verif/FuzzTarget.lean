/-
The descriptor of a fuzz target (-fuzz_target), as drmemory/fuzzer.c reads it, and what becomes of the
target when modules are loaded and unloaded.

Simplifications, all of them:
* a string is the list of its characters, without the final zero; nothing is allocated;
* dr_get_token and dr_sscanf are of DynamoRIO and not in this repository.  dr_get_token is taken to skip
  white space, to copy what follows up to the next white space as far as there is room, and to return
  what is left; quotes, which it also knows, are left out.  dr_sscanf of "%d" is taken to read an optional
  sign and digits, and to store the number in 32 bits; of "0x%x" to want "0x" and hexadecimal digits;
* an error of usage (tokenizer_exit_with_usage_error, fuzzer.c:1822-1827) ends the process: `abort`;
* whether a symbol is found and Dr. Fuzz takes the target (register_fuzz_target, fuzzer.c:1725-1774) is
  a choice of the event.
-/
namespace Verif.FuzzTarget

/-- White space for dr_get_token. -/
def isSpace (c : Char) : Bool := c == ' ' || c == '\t' || c == '\n' || c == '\r'

/-- dr_get_token (of DynamoRIO) into a buffer of `cap` characters and a zero. -/
def getToken (src : List Char) (cap : Nat) : Option (List Char × List Char) :=
  let s := src.dropWhile isSpace
  if s = [] then none
  else some ((s.takeWhile (fun c => !isSpace c)).take cap, s.dropWhile (fun c => !isSpace c))

/-- What a step of the parser gives: a value, false, or the end of the process. -/
inductive Out (α : Type) where
  | ok (a : α)
  | no
  | abort
deriving DecidableEq, Repr

/-- One step after another. -/
def Out.bind {α β : Type} : Out α → (α → Out β) → Out β
  | .ok a, f => f a
  | .no, _ => .no
  | .abort, _ => .abort

/-- tokenizer_t (fuzzer.c:1796-1802). -/
structure Tok where
  start : Bool
  src : List Char
deriving DecidableEq, Repr

/-- tokenizer_copy_to (fuzzer.c:1829-1843); `n` is how far away the end is. -/
def copyTo (t : Tok) (n : Nat) : Out (List Char × Tok) :=
  match getToken t.src n with
  | none => .no
  | some (tok, rest) => .ok (tok, ⟨false, rest⟩)

/-- tokenizer_has_next (fuzzer.c:1845-1854). -/
def hasNext (t : Tok) : Bool := t.src != []

/-- tokenizer_find_next (fuzzer.c:1856-1879): where the token begins, and how far its end is. -/
def findNext (t : Tok) : Out (Tok × Nat) :=
  let src := if t.start then t.src else t.src.tail
  match src.findIdx? (· == ' ') with
  | some n => .ok (⟨t.start, src⟩, n)
  | none => if src = [] then .abort else .ok (⟨t.start, src⟩, src.length)

/-- tokenizer_copy_next (fuzzer.c:1881-1892). -/
def copyNext (t : Tok) : Out (List Char × Tok) := (findNext t).bind fun x => copyTo x.1 x.2

/-- The value of digits. -/
def decVal (ds : List Char) : Nat := ds.foldl (fun a c => a * 10 + (c.toNat - '0'.toNat)) 0

/-- dr_sscanf with "%d" (of DynamoRIO): 32 bits. -/
def scanD (s : List Char) : Option Nat :=
  let neg := s.head? = some '-'
  let r := if s.head? = some '-' ∨ s.head? = some '+' then s.tail else s
  let ds := r.takeWhile Char.isDigit
  if ds = [] then none
  else some (if neg then (2 ^ 32 - decVal ds % 2 ^ 32) % 2 ^ 32 else decVal ds % 2 ^ 32)

/-- Whether a character is a hexadecimal digit. -/
def isHex (c : Char) : Bool := c.isDigit || ('a' ≤ c && c ≤ 'f') || ('A' ≤ c && c ≤ 'F')

/-- The value of one. -/
def hexDig (c : Char) : Nat :=
  if c.isDigit then c.toNat - '0'.toNat else if 'a' ≤ c ∧ c ≤ 'f' then c.toNat - 'a'.toNat + 10
  else c.toNat - 'A'.toNat + 10

/-- The value of hexadecimal digits. -/
def hexVal (ds : List Char) : Nat := ds.foldl (fun a c => a * 16 + hexDig c) 0

/-- dr_sscanf with PIFX, "0x%x" (of DynamoRIO): 64 bits. -/
def scanX (s : List Char) : Option Nat :=
  if s.take 2 = ['0', 'x'] then
    let ds := (s.drop 2).takeWhile isHex
    if ds = [] then none else some (hexVal ds % 2 ^ 64)
  else none

/-- tokenizer_next_int (fuzzer.c:1894-1912) for a decimal number of 32 bits. -/
def nextInt (t : Tok) : Out (Nat × Tok) :=
  (copyNext t).bind fun x =>
    match scanD x.1 with
    | some v => .ok (v, x.2)
    | none => .abort

/-- The machines, for the table of calling conventions (fuzzer.c:907-948). -/
inductive Arch where
  | x64 | x86 | arm
deriving DecidableEq, Repr

/-- map_callconv_args (fuzzer.c:950-973), from the code in the upper byte (optionsx.h:680-686), as the number of
registers (fuzzer.c:917, 935-936, 945-947). -/
def regCount (a : Arch) (code : Nat) : Option Nat :=
  match a, code with
  | .arm, 3 => some 4
  | .arm, _ => none
  | .x64, 1 => some 6
  | .x64, 2 => some 4
  | _, 4 => some 0
  | _, 5 => some 2
  | _, 6 => some 1
  | _, _ => none

/-- Linux or Windows, the machine, the code of DRWRAP_CALLCONV_DEFAULT, and the name of the main module. -/
structure Cfg where
  windows : Bool
  arch : Arch
  dflt : Nat
  main : Option (List Char)

/-- fuzz_target_t (fuzzer.c:129-156), as far as the descriptor says; `code` is the calling convention. -/
structure Target where
  module : List Char
  func : List Char ⊕ Nat
  argCount : Nat
  bufferArg : Nat
  sizeArg : Nat
  repeatCount : Nat
  code : Nat
  regs : Nat
  stack : Nat
deriving DecidableEq, Repr

/-- is_module_extension (fuzzer.c:1946-1954), strcasecmp on ASCII. -/
def isExt (cfg : Cfg) (s : List Char) : Bool :=
  let l := s.map Char.toLower
  if cfg.windows then l == ['.', 'e', 'x', 'e'] || l == ['.', 'd', 'l', 'l'] else l == ['.', 's', 'o']

/-- strrchr of '.': what is before the last one, and the rest. -/
def splitDot (s : List Char) : Option (List Char × List Char) :=
  let r := s.reverse
  match r.findIdx? (· == '.') with
  | none => none
  | some n => some ((r.drop (n + 1)).reverse, '.' :: (r.take n).reverse)

/-- The part of the module name in the symbol (fuzzer.c:2028-2034). -/
def stem (cfg : Cfg) (m : List Char) : List Char :=
  match splitDot m with
  | some (a, e) => if isExt cfg e then a else m
  | none => m

/-- The characters changed at the start (fuzzer.c:1966-1967). -/
def prep (c : Char) : Char := if c = ' ' then '\x01' else if c = '|' then ' ' else c

/-- The symbol (fuzzer.c:2020-2050). -/
def mkSymbol (cfg : Cfg) (m f : List Char) : List Char :=
  (if f.head? = some '?' then f.map (fun c => if c = '-' then '@' else c) else stem cfg m ++ '!' :: f).map
    (fun c => if c = '\x01' then ' ' else c)

/-- The arguments after the function (fuzzer.c:2053-2075, fuzzer_fuzz_target_callconv_arg_init, 975-994).
The code is shifted by 24 bits. -/
def parseArgs (cfg : Cfg) (m : List Char) (f : List Char ⊕ Nat) (t : Tok) : Out Target :=
  (nextInt t).bind fun a => (nextInt a.2).bind fun b => (nextInt b.2).bind fun c => (nextInt c.2).bind fun r =>
    let conv : Out Nat := if hasNext r.2 then (nextInt r.2).bind fun k => .ok (k.1 % 256) else .ok cfg.dflt
    conv.bind fun code =>
      match regCount cfg.arch code with
      | none => .abort
      | some n => .ok ⟨m, f, a.1, b.1, c.1, r.1, code, min a.1 n, a.1 - min a.1 n⟩

/-- The name of the module, with the alias of the main one (fuzzer.c:1990-2005, fuzzer.h:30). -/
def resolve (cfg : Cfg) (m : List Char) : Out (List Char) :=
  if m = ['<', 'm', 'a', 'i', 'n', '>'] then
    match cfg.main with
    | none => .no
    | some x => .ok x
  else .ok m

/-- The offset (fuzzer.c:2010-2018), and what follows. -/
def parseOffset (cfg : Cfg) (m f : List Char) (t : Tok) : Out Target :=
  match scanX f with
  | none => .abort
  | some v => parseArgs cfg m (.inr v) t

/-- tokenizer_strchrs (fuzzer.c:1917-1938) and user_input_parse_target (fuzzer.c:1956-2078). -/
def parse (cfg : Cfg) (d : List Char) : Out Target :=
  let s := d.map prep
  match s.findIdx? (fun c => c == '!' || c == '+') with
  | none => .abort
  | some n =>
    let isOffset := s[n]? = some '+'
    (copyTo ⟨true, s.set n ' '⟩ n).bind fun x =>
      (resolve cfg x.1).bind fun m =>
        (copyNext x.2).bind fun f =>
          if isOffset then parseOffset cfg m f.1 f.2
          else parseArgs cfg m (.inl (mkSymbol cfg m f.1)) f.2

/-! ## Modules -/

/-- The target as the events of modules see it (fuzzer.c:129-156): the name of the module, if there is a
target, whether it is enabled, and where its module is. -/
structure Life where
  name : Option (List Char)
  enabled : Bool
  start : Nat
deriving DecidableEq, Repr

/-- A module: its name and where it begins; whether register_fuzz_target succeeds in it is `reg`. -/
structure Mod where
  name : List Char
  start : Nat
  reg : Bool
deriving DecidableEq, Repr

/-- free_fuzz_target (fuzzer.c:1776-1788). -/
def freed : Life := ⟨none, false, 0⟩

/-- Whether a descriptor names a file (fuzzer.c:46-47, 568-575). -/
def isFile (d : List Char) : Bool := decide (5 < d.length) && d.take 5 == ['f', 'i', 'l', 'e', ':']

/-- fuzzer_fuzz_target (fuzzer.c:554-596) at the start, with the modules that are loaded by then.  There is
no target before, as fuzzer_option_init (fuzzer.c:535-552) is its only caller. -/
def begin (cfg : Cfg) (d : List Char) (loaded : List Mod) : Out Life :=
  if isFile d then .ok freed else
  match parse cfg d with
  | .abort => .abort
  | .no => .ok freed
  | .ok t =>
    match loaded.find? (fun m => m.name == t.module) with
    | none => .ok freed
    | some m => if m.reg then .ok ⟨some t.module, true, m.start⟩ else .ok freed

/-- fuzzer_fuzz_target_init (fuzzer.c:379-391) at the start, the other way to give a target: by -fuzz_module
and the options beside it.  Nothing is looked up. -/
def beginOptions (module : List Char) : Life := ⟨some module, false, 0⟩

/-- The code of the calling convention of the options (fuzzer.c:408-433), 0 where nothing is stored.  -/
def optionConv (cfg : Cfg) (name : Option (List Char)) : Nat :=
  match name with
  | none => cfg.dflt
  | some s =>
    if s = ['s', 't', 'd', 'c', 'a', 'l', 'l'] then 4
    else if s = ['f', 'a', 's', 't', 'c', 'a', 'l', 'l'] then 5
    else if s = ['t', 'h', 'i', 's', 'c', 'a', 'l', 'l'] then 6
    else if cfg.arch = .x64 ∧ cfg.windows = false ∧ s = ['a', 'm', 'd', '6', '4'] then 1
    else if cfg.arch = .x64 ∧ cfg.windows = true ∧ s = ['m', 's', '6', '4'] then 2
    else if cfg.arch = .arm ∧ s = ['a', 'r', 'm', '3', '2'] then 3
    else 0

/-- Loading and unloading (fuzzer.c:1706-1723). -/
inductive Ev where
  | load (m : Mod)
  | unload (m : Mod)
deriving DecidableEq, Repr

/-- module_loaded and module_unloaded (fuzzer.c:1716-1723). -/
def event (l : Life) : Ev → Life
  | .load m =>
    if l.start = 0 ∧ l.name = some m.name then
      { l with
        enabled := m.reg
        start := if m.reg then m.start else l.start }
    else l
  | .unload m => if l.enabled ∧ l.start = m.start then freed else l

end Verif.FuzzTarget
