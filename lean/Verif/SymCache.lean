/-
Model of the symbol cache: drsymcache/drsymcache.c (Linux variant).

Bytes are natural numbers; a C string is the list of its bytes without the
terminating NUL.  A pointer into the mapped cache file is the list of the bytes
from there to the end of the mapping, so running off the mapping is visible as
the empty list and modelled as a crash.

Not modelled: locks (every operation holds `symcache_lock`), the temporary file
name of the writer and failing I/O, the Windows and Mac consistency fields,
freeing memory, the iteration cache fields `iter_idx`/`iter_entry` (never read).
`hashtable_t` (drcontainers, not in this repository) is taken as a finite map
whose iteration order is arbitrary.  `dr_snprintf` and `dr_sscanf` (not in this
repository either) are taken with the C meaning of the conversions used here,
except that the number conversions accept no sign.
-/

namespace Verif.SymCache

abbrev Str := List Nat

/-- What ends an operation early: a NULL or out-of-mapping access, `dr_abort`, or
the file being rejected (`goto symcache_read_symfile_done` with `res` false,
drsymcache.c:397-577). -/
inductive Stop where
  | crash
  | abort
  | reject
deriving DecidableEq, Repr

/-! ## Offset lists -/

/-- `offset_list_t`, drsymcache.c:131-149: the linked list from `list` to
`list_last` (its length is `num`) and the keys of the optional hashtable. -/
structure OList where
  list : List Nat
  table : Option (List Nat)
deriving DecidableEq, Repr

/-- The hashtable key `(void *)(offs + 1)`, drsymcache.c:143, 218, 258: 64-bit
addition. -/
def key (offs : Nat) : Nat := (offs + 1) % 2 ^ 64

/-- `hashtable_lookup(olist->table, offs + 1) != NULL`, drsymcache.c:218: the
payload is the key itself, so key 0 looks like a missing entry. -/
def tableHas (t : List Nat) (offs : Nat) : Bool :=
  decide (key offs ≠ 0) && t.contains (key offs)

/-- The part of `symcache_symbol_add` that appends, drsymcache.c:230-262. -/
def OList.append (o : OList) (offs : Nat) : OList :=
  let l := o.list ++ [offs]
  if l.length ≥ 3 then
    match o.table with
    | none => ⟨l, some (l.map key)⟩
    | some t => ⟨l, some (key offs :: t)⟩
  else ⟨l, o.table⟩

/-- The search for a duplicate, drsymcache.c:214-227. -/
def OList.has (o : OList) (offs : Nat) : Bool :=
  match o.table with
  | some t => tableHas t offs
  | none => o.list.contains offs

/-- `symcache_symbol_add` for an existing list, drsymcache.c:193-262.  The flag is
the result of the function. -/
def OList.add (o : OList) (offs : Nat) : Except Stop (OList × Bool) :=
  if o.list = [0] then
    -- replace a single 0 entry, 198-205
    match o.table with
    | none => .ok (⟨[offs], none⟩, true)
    | some t => .ok (⟨[offs], some (key offs :: t.erase (key 0))⟩, true)
  else if o.list.length = 1 ∧ offs = 0 then
    -- "appending 0 to non-0", 206-213
    .error .abort
  else
    if o.has offs then .ok (o, false)
    else .ok (o.append offs, true)

/-- The per-module table: symbol name to offset list (`mod_cache_t.table`,
drsymcache.c:101-102, with HASH_STRING keys that are copied, 796-798). -/
abbrev Table := List (Str × OList)

/-- `hashtable_lookup(symtable, symbol)`. -/
def Table.find (t : Table) (sym : Str) : Option OList :=
  (t.find? fun e => e.1 = sym).map (·.2)

/-- The list object of `sym` is updated in place (it is a pointer payload). -/
def Table.set (t : Table) (sym : Str) (o : OList) : Table :=
  t.map fun e => if e.1 = sym then (e.1, o) else e

/-- `symcache_symbol_add`, drsymcache.c:199-278. -/
def symbolAdd (t : Table) (sym : Str) (offs : Nat) : Except Stop (Table × Bool) :=
  match t.find sym with
  | some o => (o.add offs).map fun r => (t.set sym r.1, r.2)
  | none => .ok (t ++ [(sym, (OList.mk [] none).append offs)], true)

/-- The array handed out by `drsymcache_lookup`, drsymcache.c:972-995: for one
entry the caller's own variable, otherwise a fresh array; both hold the offsets
in list order. -/
def lookupTable (t : Table) (sym : Str) : Option (List Nat) :=
  (t.find sym).map (·.list)

/-! ## Writing -/

/-- The consistency fields of a module on Linux (`mod_cache_t`,
drsymcache.c:104, 112-119): file size, timestamp and MD5 of the first bytes. -/
structure Ident where
  fileSize : Nat
  timestamp : Nat
  md5 : List Nat
deriving DecidableEq, Repr

/-- `SYMCACHE_FILE_HEADER`, drsymcache.c:52: "Dr. Memory symbol cache version". -/
def header : Str :=
  [68, 114, 46, 32, 77, 101, 109, 111, 114, 121, 32, 115, 121, 109, 98, 111, 108,
   32, 99, 97, 99, 104, 101, 32, 118, 101, 114, 115, 105, 111, 110]

/-- `SYMCACHE_VERSION`, drsymcache.c:59. -/
def version : Nat := 16

/-- A digit of `%u`, `%d` (base 10) and `%x` (base 16). -/
def dchar (d : Nat) : Nat := if d < 10 then 48 + d else 87 + d

/-- The digits of a number; the first argument bounds their count. -/
def fmtN (b : Nat) : Nat → Nat → Str
  | 0, n => [dchar (n % b)]
  | k + 1, n => if n < b then [dchar n] else fmtN b k (n / b) ++ [dchar (n % b)]

/-- `%u` (`b` = 10) and `%x` (`b` = 16) for numbers below 2^64. -/
def fmt (b n : Nat) : Str := fmtN b 20 n

/-- Padding on the left to a width: `%10u` with 32, `%02x` with 48. -/
def padTo (c w : Nat) (s : Str) : Str := List.replicate (w - s.length) c ++ s

/-- `SYMCACHE_BUFFER_SIZE`, drsymcache.c:69. -/
def bufSize : Nat := 4096

/-- `BUFFERED_WRITE`, common/utils.h:554-577: `f` is what reached the file, `b` the
buffer up to `sofar`.  A piece that does not fit into the empty buffer is cut
off and its last byte in the buffer is NUL. -/
def bufWrite (st : Str × Str) (p : Str) : Str × Str :=
  if st.2.length + p.length < bufSize then (st.1, st.2 ++ p)
  else if p.length < bufSize then (st.1 ++ st.2, p)
  else (st.1 ++ st.2, p.take (bufSize - 1) ++ [0])

/-- The lines of one symbol, drsymcache.c:363-370: the offset is a `size_t`
printed with `%x`, so the low 32 bits. -/
def entryPieces (e : Str × OList) : List Str :=
  e.1 :: e.2.list.map fun o => [44, 48, 120] ++ fmt 16 (o % 2 ^ 32) ++ [10]

/-- Everything handed to BUFFERED_WRITE, drsymcache.c:323-373, for the table in
iteration order `es`. -/
def pieces (id : Ident) (debug : Bool) (es : Table) : List Str :=
  [header ++ [32] ++ fmt 10 version ++ [10],
   padTo 32 10 (fmt 10 0) ++ [44],
   fmt 10 id.fileSize ++ [44] ++ fmt 10 id.timestamp]
  ++ id.md5.map (fun x => [44] ++ padTo 48 2 (fmt 16 x))
  ++ [[10], fmt 10 (if debug then 1 else 0) ++ [10]]
  ++ (es.map entryPieces).flatten

/-- `filesz_loc`, drsymcache.c:326: the position after the first line. -/
def sizeLoc : Nat := 35

/-- The file written by `symcache_write_symfile`, drsymcache.c:323-395, including
the file size put in at the end (376-381). -/
def writeFile (id : Ident) (debug : Bool) (es : Table) : Str :=
  let st := (pieces id debug es).foldl bufWrite ([], [])
  let f := st.1 ++ st.2
  f.take sizeLoc ++ padTo 32 10 (fmt 10 (f.length % 2 ^ 32)) ++ f.drop (sizeLoc + 10)

/-! ## Reading -/

/-- `strchr`: `none` is NULL. -/
def strchr (c : Nat) : Str → Except Stop (Option Str)
  | [] => .error .crash
  | x :: xs => if x = c then .ok (some (x :: xs))
    else if x = 0 then .ok none else strchr c xs

/-- White space skipped before a number conversion of `dr_sscanf`. -/
def skipWs : Str → Except Stop Str
  | [] => .error .crash
  | x :: xs => if x = 32 ∨ (9 ≤ x ∧ x ≤ 13) then skipWs xs else .ok (x :: xs)

/-- The value of a digit in base `b`. -/
def dval (b c : Nat) : Option Nat :=
  let v := if 48 ≤ c ∧ c ≤ 57 then c - 48 else if 97 ≤ c ∧ c ≤ 102 then c - 87
    else if 65 ≤ c ∧ c ≤ 70 then c - 55 else b
  if v < b then some v else none

/-- The digits of a number conversion. -/
def scanDigits (b : Nat) : Nat → Str → Except Stop (Nat × Str)
  | _, [] => .error .crash
  | acc, x :: xs => match dval b x with
    | some v => scanDigits b (acc * b + v) xs
    | none => .ok (acc, x :: xs)

/-- The optional prefix of `%x`. -/
def skip0x (b : Nat) : Str → Str
  | 48 :: 120 :: xs => if b = 16 then xs else 48 :: 120 :: xs
  | s => s

/-- `%u`/`%d` (`b` = 10) and `%x` (`b` = 16) of `dr_sscanf` into an unsigned variable
of `w` bits; `none` when the conversion fails. -/
def scanNum (b w : Nat) (s : Str) : Except Stop (Option (Nat × Str)) := do
  let s ← skipWs s
  match skip0x b s with
  | [] => .error .crash
  | x :: xs => match dval b x with
    | none => .ok none
    | some _ => do
      let r ← scanDigits b 0 (x :: xs)
      .ok (some (r.1 % 2 ^ w, r.2))

/-- A literal character in the format of `dr_sscanf`. -/
def scanLit (c : Nat) : Str → Except Stop (Option Str)
  | [] => .error .crash
  | x :: xs => .ok (if x = c then some xs else none)

/-- A failed conversion or a NULL pointer rejects the file. -/
def orReject {α : Type} : Option α → Except Stop α
  | some a => .ok a
  | none => .error .reject

/-- A NULL pointer is used without a check. -/
def orCrash {α : Type} : Option α → Except Stop α
  | some a => .ok a
  | none => .error .crash

/-- The loop over the MD5 bytes, drsymcache.c:507-523: `n` bytes are left; the
result is the bytes and `line`. -/
def readMd5 : Nat → Str → Except Stop (List Nat × Str)
  | 0, line => .ok ([], line)
  | n + 1, line => do
    let s ← orReject (← scanLit 44 line)
    let v ← orReject (← scanNum 16 32 s)
    if v.1 > 255 then .error .reject
    else if n = 0 then .ok ([v.1], line)
    else do
      let line ← orReject (← strchr 44 line.tail)
      let r ← readMd5 n line
      .ok (v.1 :: r.1, r.2)

/-- The consistency line, drsymcache.c:490-529 and 551-556: `size` is the size of
the file. -/
def readIdent (id : Ident) (size : Nat) (line : Str) : Except Stop Str := do
  let a ← orReject (← scanNum 10 32 line)
  let s ← orReject (← scanLit 44 a.2)
  let b ← orReject (← scanNum 10 64 s)
  let s ← orReject (← scanLit 44 b.2)
  let c ← orReject (← scanNum 10 32 s)
  -- 496-504: the results of the first two strchr are used without a check
  let line ← orCrash (← strchr 44 line)
  let line ← orCrash (← strchr 44 line.tail)
  let line ← orReject (← strchr 44 line.tail)
  let m ← readMd5 16 line
  if b.1 ≠ id.fileSize ∨ c.1 ≠ id.timestamp ∨ m.1 ≠ id.md5 then .error .reject
  else if a.1 ≠ size % 2 ^ 32 then .error .reject
  else .ok m.2

/-- `MAX_SYMLEN`, drsymcache.c:399. -/
def maxSymlen : Nat := 256

/-- The conversion `",0x%x"`, drsymcache.c:597. -/
def scanOffs (s : Str) : Except Stop (Option Nat) := do
  match ← scanLit 44 s with
  | none => .ok none
  | some s => match ← scanLit 48 s with
    | none => .ok none
    | some s => match ← scanLit 120 s with
      | none => .ok none
      | some s => do
        let r ← scanNum 16 32 s
        .ok (r.map (·.1))

/-- The loop over the symbols, drsymcache.c:583-623: `pad` is the number of zero
bytes of the mapping behind the file, `line` and `symbol` the variables. -/
def readLines (pad : Nat) : Nat → Str → Str → Table → Except Stop Table
  | 0, _, _, t => .ok t
  | n + 1, line, symbol, t =>
    if line.length ≤ pad then .ok t
    else do
      let comma ← strchr 44 line
      let newline ← strchr 10 line
      match comma with
      | none => .ok t
      | some c =>
        let symlen := line.length - c.length
        let symbol := if 0 < symlen ∧ symlen < maxSymlen then line.take symlen else symbol
        if symlen < maxSymlen ∧ symbol ≠ [] then do
          match ← scanOffs c with
          | none => .ok t
          | some offs => do
            let r ← symbolAdd t symbol offs
            match newline with
            | none => .ok r.1
            | some nl => readLines pad n nl.tail symbol r.1
        else .ok t

/-- The zero bytes between the end of the file and the end of its last page. -/
def padding (size : Nat) : Nat := (4096 - size % 4096) % 4096

/-- The lines from the debug information flag on, drsymcache.c:557-624. -/
def readBody (hasSyms : Bool) (pad : Nat) (line : Str) : Except Stop (Table × Bool) := do
  -- 557: a missing newline leads to strchr(NULL) in 579
  let line ← orCrash (← strchr 10 line)
  let line := line.tail
  let d ← orReject (← scanNum 10 32 line)
  if d.1 = 0 ∧ hasSyms then .error .reject
  else do
    match ← strchr 10 line with
    | none => .ok ([], decide (d.1 ≠ 0))
    | some line => do
      let t ← readLines pad (line.length + 1) line.tail [] []
      .ok (t, decide (d.1 ≠ 0))

/-- `symcache_read_symfile`, drsymcache.c:405-634, for the contents of the file
(`none`: it cannot be opened) and the result of `module_has_symbols`.  The result
is the table and the flag `has_debug_info`. -/
def readFile (id : Ident) (hasSyms : Bool) : Option Str → Except Stop (Table × Bool)
  | none => .error .reject
  | some f => do
    if f.length = 0 then .error .reject else
    let mem := f ++ List.replicate (padding f.length) 0
    if mem.take header.length ≠ header then .error .reject else
    let v ← orReject (← scanNum 10 32 (mem.drop (header.length + 1)))
    if v.1 ≠ version then .error .reject else
    -- 451, 557: without a newline line is NULL and strchr(NULL) follows
    let line ← orCrash (← strchr 10 mem)
    let line ← readIdent id f.length line.tail
    readBody hasSyms (padding f.length) line

/-! ## The cache of the loaded modules -/

/-- What an operation learns about a module: `full_path`, preferred name, the size
`end - start`, the consistency fields and whether it has symbols. -/
structure Mod where
  path : Str
  name : Option Str
  size : Nat
  ident : Ident
  hasSyms : Bool
deriving DecidableEq, Repr

/-- `mod_cache_t`, drsymcache.c:95-125. -/
structure Cache where
  modname : Str
  fromFile : Bool
  appended : Bool
  table : Table
  ident : Ident
  debug : Bool
deriving DecidableEq, Repr

/-- `symcache_table` (path to cache) and the cache files by module name. -/
structure State where
  mods : List (Str × Cache)
  files : Str → Option Str

/-- `hashtable_lookup(&symcache_table, full_path)`. -/
def State.find (s : State) (path : Str) : Option Cache :=
  (s.mods.find? fun e => e.1 = path).map (·.2)

/-- What the model does not fix: the size threshold and the order in which a
hashtable is walked. -/
structure Conf where
  threshold : Nat
  order : Table → Table

/-- `symcache_write_symfile`, drsymcache.c:281-396. -/
def writeCache (C : Conf) (files : Str → Option Str) (name : Str) (c : Cache) :
    Str → Option Str :=
  if (c.fromFile ∧ ¬ c.appended) ∨ c.table = [] then files
  else fun n => if n = name then some (writeFile c.ident c.debug (C.order c.table))
    else files n

/-- `symcache_module_load`, drsymcache.c:768-844. -/
def load (C : Conf) (s : State) (m : Mod) : Except Stop State :=
  match m.name with
  | none => .ok s
  | some name =>
    if m.size < C.threshold then .ok s
    else match s.find m.path with
      | some _ => .ok s
      | none => match readFile m.ident m.hasSyms (s.files name) with
        | .ok (t, d) => .ok { s with mods := s.mods ++ [(m.path, ⟨name, true, false, t, m.ident, d⟩)] }
        | .error .reject =>
          .ok { s with mods := s.mods ++ [(m.path, ⟨name, false, false, [], m.ident, m.hasSyms⟩)] }
        | .error e => .error e

/-- `symcache_module_save_common`, drsymcache.c:846-864. -/
def save (C : Conf) (s : State) (m : Mod) (remove : Bool) : State :=
  match m.name with
  | none => s
  | some name => match s.find m.path with
    | none => s
    | some c =>
      { mods := if remove then s.mods.filter (fun e => e.1 ≠ m.path) else s.mods
        files := writeCache C s.files name c }

/-- `drsymcache_add`, drsymcache.c:929-952. -/
def add (s : State) (m : Mod) (sym : Str) (offs : Nat) : Except Stop State :=
  match m.name with
  | none => .ok s
  | some _ => match s.find m.path with
    | none => .ok s
    | some c => do
      let r ← symbolAdd c.table sym offs
      let c := { c with table := r.1, appended := c.appended || (r.2 && c.fromFile) }
      .ok { s with mods := s.mods.map fun e => if e.1 = m.path then (e.1, c) else e }

/-- `drsymcache_lookup`, drsymcache.c:959-1000: `none` is DRMF_ERROR_NOT_FOUND (or a
module without a name). -/
def lookup (s : State) (m : Mod) (sym : Str) : Option (List Nat) :=
  match m.name with
  | none => none
  | some _ => (s.find m.path).bind fun c => lookupTable c.table sym

/-- `drsymcache_exit`, drsymcache.c:716-745: all caches are written, in table order. -/
def exit (C : Conf) (s : State) : State :=
  { mods := []
    files := s.mods.foldl (fun fs e => writeCache C fs e.2.modname e.2) s.files }

/-- The operations of a run: module load and unload events, the two saves, additions
and the end of a process followed by the start of the next one. -/
inductive Op where
  | load (m : Mod)
  | save (m : Mod)
  | unload (m : Mod)
  | add (m : Mod) (sym : Str) (offs : Nat)
  | exit

/-- One operation. -/
def step (C : Conf) (s : State) : Op → Except Stop State
  | .load m => load C s m
  | .save m => .ok (save C s m false)
  | .unload m => .ok (save C s m true)
  | .add m sym offs => add s m sym offs
  | .exit => .ok (exit C s)

/-- A run. -/
def run (C : Conf) (s : State) (ops : List Op) : Except Stop State :=
  ops.foldlM (step C) s

end Verif.SymCache
