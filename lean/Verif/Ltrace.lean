/-!
# The library tracer's prototype file and what it prints of a call

Model of /repo/drltrace/drltrace_libcalls.cpp:36-367 (the prototype file given with `-config`: how it
is cut into lines and fields, what each field says about an argument, which lines are refused, the
table of prototypes) and of /repo/drltrace/drltrace.cpp:78-231 (what is printed of each argument of a
traced call and where the prototype is taken from), with the parts of start-up and exit that create
and delete the table (drltrace.cpp:421-428, 495-527).

Text is a list of characters.  The build modelled is the 64-bit release build: `ASSERT` does nothing.
The parameter `win` selects the Windows or the Linux half of each `#ifdef`.

Simplifications: the printed text is represented by the values that go into it; `DR_TRY_EXCEPT` and
`dr_safe_read` are one parameter, the bytes found at an address (`none` when it cannot be read); a
string argument is represented by the address it is read from; the prototypes known to the system
call library are a parameter; `toupper` is the one of the "C" locale, as the code's comment assumes
(drltrace_libcalls.cpp:129).
-/
namespace Verif.Ltrace

/-! ## Text -/

/-- `split` (drltrace_libcalls.cpp:236-249): `getline` until it extracts nothing.  A delimiter ends a
field; what follows the last delimiter is a field only if it is not empty. -/
def split (d : Char) : List Char → List (List Char)
  | [] => []
  | c :: cs =>
    if c = d then [] :: split d cs
    else
      match split d cs with
      | [] => [[c]]
      | t :: ts => (c :: t) :: ts

/-- `src_string.find(pattern) != npos` (drltrace_libcalls.cpp:115-119). -/
def has (p : List Char) : List Char → Bool
  | [] => p.isPrefixOf []
  | c :: cs => p.isPrefixOf (c :: cs) || has p cs

/-- `erase_token` (drltrace_libcalls.cpp:85-94): `k` characters of an occurrence are still to be
skipped.  The search resumes where the occurrence was, so it only sees what followed it. -/
def erase (p : List Char) : Nat → List Char → List Char
  | _, [] => []
  | k + 1, _ :: cs => erase p k cs
  | 0, c :: cs =>
    if p.isPrefixOf (c :: cs) then erase p (p.length - 1) cs else c :: erase p 0 cs

/-- `::toupper` on ASCII (drltrace_libcalls.cpp:130). -/
def up (c : Char) : Char := if 97 ≤ c.toNat ∧ c.toNat ≤ 122 then Char.ofNat (c.toNat - 32) else c

/-! ## Arguments -/

/-- The types the parser can give an argument (drltrace_libcalls.cpp:108, 145-231;
/repo/drsyscall/drsyscall.h:171-193). -/
inductive Ty where
  | unknown | void | signedInt | unsignedInt | sizeT | handle | hfile | hmodule | bool | lcid | lparam
  | cstring | cwstring
deriving DecidableEq, Repr

/-- `drsys_arg_t` as filled by `config_parse_type` (drltrace_libcalls.cpp:105-122); `pre` is always
true. -/
structure Arg where
  type : Ty
  ordinal : Nat
  size : Nat
  isIn : Bool
  isOut : Bool
  inlined : Bool
  typeName : List Char
deriving DecidableEq, Repr

/-- The mode of the argument (drltrace_libcalls.cpp:115-122): in, out, inlined. -/
def mode (s : List Char) : Bool × Bool × Bool :=
  if has "__inout".toList s then (true, true, false)
  else if has "__out".toList s then (false, true, false)
  else if has "*".toList s then (true, false, false)
  else (false, false, true)

/-- The bare name of the type (drltrace_libcalls.cpp:124-136). -/
def bare (s : List Char) : List Char :=
  let s := erase "*".toList 0 s
  let s := erase "__inout".toList 0 s
  let s := erase "__out".toList 0 s
  let s := s.map up
  let s := s.filter (· != ' ')
  let s := s.filter (· != '\r')
  s.filter (· != '\n')

/-- The chain of comparisons (drltrace_libcalls.cpp:145-231): type, size and the name printed.  The
sizes are those of the 64-bit ABIs (`long` is 8 bytes on Linux and 4 on Windows). -/
def typeOf (win : Bool) (n : List Char) : Ty × Nat × List Char :=
  if n = "VOID".toList then (.void, 0, "void".toList)
  else if n = "INT".toList then (.signedInt, 4, "int".toList)
  else if n = "LONG".toList then (.signedInt, if win then 4 else 8, "long".toList)
  else if n = "SIZE_T".toList then (.sizeT, 8, "size_t".toList)
  else if win ∧ n = "HANDLE".toList then (.handle, 8, "HANDLE".toList)
  else if win ∧ n = "HKEY".toList then (.handle, 8, "HKEY".toList)
  else if win ∧ n = "HDC".toList then (.handle, 8, "HDC".toList)
  else if win ∧ n = "HFILE".toList then (.hfile, 4, "HFILE".toList)
  else if win ∧ n = "HMODULE".toList then (.hmodule, 4, "HMODULE".toList)
  else if win ∧ n = "UINT".toList then (.unsignedInt, 4, "uint".toList)
  else if win ∧ n = "ULONG".toList then (.unsignedInt, 4, "ULONG".toList)
  else if win ∧ n = "ULONGLONG".toList then (.unsignedInt, 8, "ULONGLONG".toList)
  else if win ∧ n = "DWORD".toList then (.unsignedInt, 4, "DWORD".toList)
  else if win ∧ n = "WORD".toList then (.unsignedInt, 2, "WORD".toList)
  else if win ∧ n = "BYTE".toList then (.unsignedInt, 1, "BYTE".toList)
  else if win ∧ n = "BOOL".toList then (.bool, 4, "BOOL".toList)
  else if win ∧ n = "LCID".toList then (.lcid, 4, "LCID".toList)
  else if win ∧ n = "LPARAM".toList then (.lparam, 8, "LPARAM".toList)
  else if n = "CHAR".toList then (.cstring, 0, "char".toList)
  else if n = "WCHAR".toList then (.cwstring, 0, "wchar_t".toList)
  else (.unknown, 0, "<unknown>".toList)

/-- `config_parse_type` (drltrace_libcalls.cpp:99-234). -/
def parseType (win : Bool) (s : List Char) (i : Nat) : Arg :=
  let m := mode s
  let t := typeOf win (bare s)
  { type := t.1
    ordinal := i
    size := t.2.1
    isIn := m.1
    isOut := m.2.1
    inlined := m.2.2
    typeName := t.2.2 }

/-! ## Lines -/

/-- What a line of the file is (drltrace_libcalls.cpp:251-302). -/
inductive Line where
  | skip
  | bad
  | add (name : List Char) (args : List Arg)
deriving DecidableEq, Repr

/-- The fields from the third on, each with its position (drltrace_libcalls.cpp:277-288). -/
def parseArgs (win : Bool) : Nat → List (List Char) → List Arg
  | _, [] => []
  | i, t :: ts => parseType win t i :: parseArgs win (i + 1) ts

/-- `parse_line` (drltrace_libcalls.cpp:251-302). -/
def parseLine (win : Bool) (l : List Char) : Line :=
  if l.head? = some '#' then .skip
  else if l = [] ∨ l.head? = some '\n' ∨ l.head? = some '\r' then .skip
  else
    match split '|' l with
    | _ :: name :: t :: ts => .add name (parseArgs win 0 (t :: ts))
    | _ => .bad

/-! ## The table -/

/-- One entry of `libcalls_table`. -/
abbrev Entry := List Char × List Arg

/-- Comparison of the keys: `HASH_STRING_NOCASE` (drltrace_libcalls.cpp:59). -/
def same (a b : List Char) : Bool := a.map up == b.map up

/-- `libcalls_search` (drltrace_libcalls.cpp:69-73). -/
def search (t : List Entry) (n : List Char) : Option (List Arg) :=
  (t.find? (fun e => same e.1 n)).map (·.2)

/-- `libcalls_hashtable_insert` (drltrace_libcalls.cpp:75-79): nothing is added under a key that is
there already. -/
def insert (t : List Entry) (n : List Char) (a : List Arg) : List Entry :=
  match search t n with
  | some _ => t
  | none => t ++ [(n, a)]

/-- The loop over the lines (drltrace_libcalls.cpp:353-366); `none`: a line was refused, the table is
deleted and the file not used. -/
def lines (win : Bool) (t : List Entry) : List (List Char) → Option (List Entry)
  | [] => some t
  | l :: ls =>
    match parseLine win l with
    | .skip => lines win t ls
    | .bad => none
    | .add n a => lines win (insert t n a) ls

/-- The bytes a C string read from the start of the mapping sees (`ss.str(buf)`,
drltrace_libcalls.cpp:243, 340): up to the first zero; `none`: there is none in the mapping. -/
def cstr : List Char → Option (List Char)
  | [] => none
  | c :: cs => if c = Char.ofNat 0 then some [] else (cstr cs).map (c :: ·)

/-- The mapping of the file (drltrace_libcalls.cpp:318-327): whole pages, the rest of the last one
zero. -/
def mapped (f : List Char) : List Char :=
  f ++ List.replicate ((4096 - f.length % 4096) % 4096) (Char.ofNat 0)

/-- What becomes of the file. -/
inductive Cfg where
  | off                       -- `op_use_config` is cleared
  | on (t : List Entry)
  | overrun                   -- the mapping is read beyond its end
deriving DecidableEq, Repr

/-- `parse_config` (drltrace_libcalls.cpp:304-367), with `-use_config`; `none`: the file cannot be
opened or sized.  A file of no bytes cannot be mapped. -/
def parseConfig (win : Bool) (f : Option (List Char)) : Cfg :=
  match f with
  | none => .off
  | some [] => .off
  | some (c :: cs) =>
    match cstr (mapped (c :: cs)) with
    | none => .overrun
    | some s =>
      match split '\n' s with
      | [] => .off
      | l :: ls =>
        match lines win [] (l :: ls) with
        | none => .off
        | some t => .on t

/-! ## Printing -/

/-- What is printed as the value of an argument. -/
inductive Shown where
  | num (zeroes : Bool) (v : Nat) (pointee : Option Nat)   -- `print_simple_value`
  | null                                                   -- "<null>"
  | text (wide : Bool) (addr : Nat)                        -- the string at `addr`
  | raw (v : Nat)                                          -- the `default` case
deriving DecidableEq, Repr

/-- One line of the trace below the name of the function (drltrace.cpp:112, 143-150). -/
structure Item where
  ordinal : Nat
  shown : Shown
  typeName : List Char
  star : Bool
  size : Nat
deriving DecidableEq, Repr

/-- Memory: the number of `n` bytes at an address, if they can be read (`dr_safe_read`). -/
abbrev Mem := Nat → Nat → Option Nat

/-- `print_simple_value` (drltrace.cpp:78-91) before the call. -/
def simple (rd : Mem) (a : Arg) (v : Nat) (zeroes : Bool) : Shown :=
  if a.inlined then .num zeroes v none
  else if a.isIn then .num true v (rd v a.size)
  else .num true v none

/-- `print_string` (drltrace.cpp:93-105). -/
def string (v : Nat) (wide : Bool) : Shown := if v = 0 then .null else .text wide v

/-- The `default` case (drltrace.cpp:135-140). -/
def dflt (v : Nat) : Shown := if v = 0 then .null else .raw v

/-- The `switch` over the type (drltrace.cpp:113-141). -/
def shown (win : Bool) (rd : Mem) (a : Arg) (v : Nat) : Shown :=
  match a.type with
  | .void => simple rd a v true
  | .bool | .signedInt | .unsignedInt | .handle => simple rd a v false
  | .lcid | .lparam | .sizeT | .hmodule => if win then simple rd a v false else dflt v
  | .cstring => string v false
  | .cwstring => string v true
  | .unknown | .hfile => dflt v

/-- `print_arg` (drltrace.cpp:107-151) before the call. -/
def printArg (win : Bool) (rd : Mem) (a : Arg) (v : Nat) : Option Item :=
  if a.isOut && !a.isIn then none
  else some
    { ordinal := a.ordinal
      shown := shown win rd a v
      typeName := a.typeName
      star := !a.inlined
      size := a.size }

/-- `print_libcall_args` and `drlib_iter_arg_cb` (drltrace.cpp:153-165, 185-197): stops at the first
argument whose position is not below `-num_max_args`.  `args` gives the arguments of the call. -/
def printArgs (win : Bool) (rd : Mem) (max : Int) (args : Nat → Nat) : List Arg → List Item
  | [] => []
  | a :: as =>
    if (a.ordinal : Int) ≥ max then []
    else (printArg win rd a (args a.ordinal)).toList ++ printArgs win rd max args as

/-! ## A run -/

/-- The options that matter here (/repo/drltrace/drltrace_options.cpp:68-124). -/
structure Opts where
  maxArgs : Int
  unknownArgs : Nat
  useConfig : Bool

/-- `libcalls_table` over a run. -/
inductive Table where
  | none                       -- never set up, or deleted again when a line was refused
  | live (t : List Entry)
  | gone                       -- deleted at exit
deriving DecidableEq, Repr

/-- The state after start-up. -/
structure St where
  useConfig : Bool
  table : Table
deriving DecidableEq, Repr

/-- Start-up (drltrace.cpp:495-527): the file is only read when arguments are printed.  `none`: the
mapping was read beyond its end. -/
def start (win : Bool) (o : Opts) (f : Option (List Char)) : Option St :=
  if 0 < o.maxArgs ∧ o.useConfig then
    match parseConfig win f with
    | .overrun => Option.none
    | .on t => some { useConfig := true
                      table := .live t }
    | .off => some { useConfig := false
                     table := .none }
  else some { useConfig := o.useConfig
              table := .none }

/-- What a traced call prints after the name of the function. -/
inductive Out where
  | nothing
  | proto (items : List Item)          -- by the prototype file
  | syscall                            -- by the system call library
  | blind (n : Nat)                    -- the first `n` arguments as numbers
  | badTable                           -- the table is searched though it was never set up
deriving DecidableEq, Repr

/-- `print_symbolic_args` after the prototype file (drltrace.cpp:217-230). -/
def fallback (o : Opts) (known : Bool) : Out :=
  if known then .syscall else if 0 < o.unknownArgs then .blind o.unknownArgs else .nothing

/-- `print_symbolic_args` (drltrace.cpp:199-231); `known`: the system call library knows the name. -/
def call (win : Bool) (rd : Mem) (o : Opts) (st : St) (known : Bool) (name : List Char)
    (args : Nat → Nat) : Out :=
  if o.maxArgs = 0 then .nothing
  else if st.useConfig then
    match st.table with
    | .live t =>
      match search t name with
      | some (a :: as) => .proto (printArgs win rd o.maxArgs args (a :: as))
      | _ => fallback o known
    | _ => .badTable
  else fallback o known

/-- `event_exit` (drltrace.cpp:421-428): `none`: a table that was never set up is deleted. -/
def exit (st : St) : Option Table :=
  if st.useConfig then
    match st.table with
    | .live _ => some .gone
    | _ => Option.none
  else some st.table

end Verif.Ltrace
