/-!
# C65: the file of system call numbers

Dr. Syscall can write the system call numbers of a Windows version to a text file and read them
from it (/repo/drsyscall/pdb2sysfile.cpp:864-932, /repo/drsyscall/drsyscall_fileparse.c:27-170,
format in /repo/drsyscall/drsyscall.h:405-446).

Simplifications.  Text is a list of characters without NUL; the end of the list is the end of the
file, behind which the mapping is filled with zeros (a file whose size is a multiple of the page
size, behind which a reader would run into unmapped memory, is not treated).  Pointers into the
text are suffixes.  `dr_sscanf` (not in /repo) reads plain digits; blanks and signs before them are
not treated.  Numbers are 32-bit patterns.
-/

namespace Verif.SysFile

/-- Text. -/
abbrev Str := List Char

/-- `strchr` -/
def strchr (c : Char) : Str → Option Str
  | [] => none
  | x :: xs => if x = c then some (x :: xs) else strchr c xs

/-- `double_strchr` (/repo/drsyscall/drsyscall_fileparse.c:27-37). -/
def dchr (c d : Char) : Str → Option Str
  | [] => none
  | x :: xs => if x = c ∨ x = d then some (x :: xs) else dchr c d xs

/-- `strncmp(s, p, strlen(p)) == 0` -/
def isPre : Str → Str → Bool
  | [], _ => true
  | _ :: _, [] => false
  | p :: ps, s :: ss => decide (p = s) && isPre ps ss

/-- `strstr` for a nonempty pattern. -/
def strstr (p : Str) : Str → Option Str
  | [] => none
  | x :: xs => if isPre p (x :: xs) then some (x :: xs) else strstr p xs

/-- Value of a hexadecimal digit. -/
def hexVal (c : Char) : Option Nat :=
  if '0' ≤ c ∧ c ≤ '9' then some (c.toNat - 48)
  else if 'a' ≤ c ∧ c ≤ 'f' then some (c.toNat - 87)
  else if 'A' ≤ c ∧ c ≤ 'F' then some (c.toNat - 55)
  else none

/-- The digits at the start, to the base `base`, added to `acc`. -/
def digits (val : Char → Option Nat) (base : Nat) (acc : Nat) : Str → Nat
  | [] => acc
  | c :: s =>
    match val c with
    | none => acc
    | some v => digits val base (base * acc + v) s

/-- `dr_sscanf(s, "%x", ..) == 1` -/
def scanHex : Str → Option Nat
  | [] => none
  | c :: s =>
    match hexVal c with
    | none => none
    | some _ => some (digits hexVal 16 0 (c :: s) % 4294967296)

/-- Value of a decimal digit. -/
def decVal (c : Char) : Option Nat :=
  if '0' ≤ c ∧ c ≤ '9' then some (c.toNat - 48) else none

/-- `dr_sscanf(s, "%d", ..) == 1` -/
def scanDec : Str → Option Nat
  | [] => none
  | c :: s =>
    match decVal c with
    | none => none
    | some _ => some (digits decVal 10 0 (c :: s) % 4294967296)

/-- `dr_sscanf` with a fixed text before the number. -/
def scanAfter (p s : Str) : Option Nat :=
  if isPre p s then scanHex (s.drop p.length) else none

/-- `DRSYS_SYSNUM_FILE_HEADER` (/repo/drsyscall/drsyscall.h:456). -/
def header : Str := "DrSyscall Number File".toList
/-- `DRSYS_SYSNUM_FILE_FOOTER` (/repo/drsyscall/drsyscall.h:461). -/
def footer : Str := "=END".toList
/-- `"START=0x"` (/repo/drsyscall/drsyscall_fileparse.c:113-118). -/
def start : Str := "START=0x".toList
/-- `MAXIMUM_PATH` -/
def maxPath : Nat := 260

/-- Result of reading, each with the names and numbers recorded so far: success, an error, or
a null pointer used. -/
inductive Out where
  | ok (r : List (Str × Nat))
  | bad (r : List (Str × Nat))
  | crash (r : List (Str × Nat))
deriving DecidableEq

theorem strchr_len {c : Char} : ∀ {s t : Str}, strchr c s = some t → t.length ≤ s.length
  | [], _, h => by cases h
  | x :: xs, t, h => by
    rw [strchr] at h
    split at h
    · cases h; exact Nat.le_refl _
    · exact Nat.le_succ_of_le (strchr_len h)

theorem strchr_ne {c : Char} : ∀ {s t : Str}, strchr c s = some t → t ≠ []
  | [], _, h => by cases h
  | x :: xs, t, h => by
    rw [strchr] at h
    split at h
    · cases h; simp
    · exact strchr_ne h

theorem strstr_len {p : Str} : ∀ {s t : Str}, strstr p s = some t → t.length ≤ s.length
  | [], _, h => by cases h
  | x :: xs, t, h => by
    rw [strstr] at h
    split at h
    · cases h; exact Nat.le_refl _
    · exact Nat.le_succ_of_le (strstr_len h)

theorem strstr_ne {p : Str} : ∀ {s t : Str}, strstr p s = some t → t ≠ []
  | [], _, h => by cases h
  | x :: xs, t, h => by
    rw [strstr] at h
    split at h
    · cases h; simp
    · exact strstr_ne h

/-- Is the first character a capital letter (`name[0] < 'A' || name[0] > 'Z'`,
/repo/drsyscall/drsyscall_fileparse.c:143)? -/
def capital : Str → Bool
  | [] => false
  | c :: _ => decide ('A' ≤ c ∧ c ≤ 'Z')

/-- The loop over the entries of a list (/repo/drsyscall/drsyscall_fileparse.c:134-158).  If there
is no newline after a number, the test for a missing trailing newline passes the null pointer to
`strncmp` (line 151). -/
def entries (line : Str) (acc : List (Str × Nat)) : Out :=
  if isPre footer line then .ok acc
  else
    match hs : strchr '=' line with
    | none => .bad acc
    | some search =>
      let name := line.take (line.length - search.length)
      if maxPath ≤ name.length then .bad acc
      else if capital name = false then .bad acc
      else
        match scanAfter "0x".toList search.tail with
        | none => .bad acc
        | some v =>
          match hl : strchr '\n' search.tail with
          | none => .crash (acc ++ [(name, v)])
          | some l => entries l.tail (acc ++ [(name, v)])
termination_by line.length
decreasing_by
  have h1 := strchr_len hs
  have h2 := strchr_len hl
  have h3 := strchr_ne hl
  cases l with
  | nil => exact absurd rfl h3
  | cons x xs =>
    simp only [List.tail_cons, List.length_cons, List.length_tail] at *
    omega

/-- The search for the list of this kernel (/repo/drsyscall/drsyscall_fileparse.c:111-132); the
result is the text behind its first line. -/
def findList (num : Nat) (line : Str) : Option Str :=
  match hs : strstr ('\n' :: start) line with
  | none => none
  | some search =>
    match scanAfter start search.tail with
    | none => none
    | some v =>
      match hl : strchr '\n' search.tail with
      | none => none
      | some l => if v = num then some l.tail else findList num l
termination_by line.length
decreasing_by
  have h1 := strstr_len hs
  have h2 := strchr_len hl
  have h3 := strstr_ne hs
  cases search with
  | nil => exact absurd rfl h3
  | cons x xs =>
    simp only [List.tail_cons, List.length_cons] at *
    omega

/-- `read_sysnum_file` (/repo/drsyscall/drsyscall_fileparse.c:44-170) after the file is mapped;
`wrapper` gives the number found in the wrapper of a system call in ntdll. -/
def read (wrapper : Str → Option Nat) (file : Str) : Out :=
  if isPre header file = false then .bad []
  else
    let line := file.drop (header.length + 1)
    let line := if isPre ['\n'] line then line.tail else line
    match scanDec line with
    | none => .bad []
    | some ver =>
      if ver ≠ 1 then .bad []
      else
        match strchr '\n' line with
        | none => .bad []
        | some l =>
          let line := l.tail
          match dchr '\r' '\n' line with
          | none => .bad []
          | some search =>
            let name := line.take (line.length - search.length)
            if maxPath ≤ name.length then .bad []
            else
              match wrapper name with
              | none => .bad []
              | some num =>
                match findList num line with
                | none => .bad []
                | some l => entries l []

/-! ## The writer -/

/-- A hexadecimal digit as printed by `%x`. -/
def hexDigit (n : Nat) : Char :=
  if n < 10 then Char.ofNat (48 + n) else Char.ofNat (87 + n)

/-- `%x` -/
def hex (n : Nat) : Str :=
  if h : n < 16 then [hexDigit n] else hex (n / 16) ++ [hexDigit (n % 16)]
termination_by n
decreasing_by omega

/-- Comparison of names (`cmp_names`, /repo/drsyscall/pdb2sysfile.cpp:864-869). -/
def before : Str → Str → Bool
  | [], [] => false
  | [], _ :: _ => true
  | _ :: _, [] => false
  | a :: as, b :: bs => if a < b then true else if b < a then false else before as bs

/-- Insert by name. -/
def insert (e : Str × Nat) : List (Str × Nat) → List (Str × Nat)
  | [] => [e]
  | x :: xs => if before e.1 x.1 then e :: x :: xs else x :: insert e xs

/-- `std::partial_sort_copy` of the whole table (/repo/drsyscall/pdb2sysfile.cpp:890-892). -/
def sort : List (Str × Nat) → List (Str × Nat)
  | [] => []
  | x :: xs => insert x (sort xs)

/-- Look a name up in a table. -/
def find (n : Str) : List (Str × Nat) → Option Nat
  | [] => none
  | x :: xs => if x.1 = n then some x.2 else find n xs

/-- The system calls that get a number although no wrapper was found, in the order of
drsyscall_usercallx.h: name, and whether the last known version has it
(/repo/drsyscall/pdb2sysfile.cpp:898-925).  `taken` are the numbers in `num2name`, into which every
system call was put, and `num` is the last number seen (as `num + 1`, the code starts at -1). -/
def gaps (m : List (Str × Nat)) : List (Str × Bool) → Nat → List Nat → List (Str × Nat)
  | [], _, _ => []
  | (n, known) :: us, next, taken =>
    match find n m with
    | some v => gaps m us (v + 1) taken
    | none =>
      if known then
        if taken.contains next then gaps m us (next + 1) taken
        else (n, next) :: gaps m us (next + 1) (next :: taken)
      else gaps m us next taken

/-- A line of the file. -/
def entryText (e : Str × Nat) : Str := e.1 ++ "=0x".toList ++ hex e.2 ++ ['\n']

/-- The differentiator (/repo/drsyscall/pdb2sysfile.cpp:874). -/
def key : Str := "NtGetContextThread".toList

/-- `write_file` (/repo/drsyscall/pdb2sysfile.cpp:871-932); none: the differentiator was not
found. -/
def write (us : List (Str × Bool)) (m : List (Str × Nat)) : Option Str :=
  match find key m with
  | none => none
  | some n =>
    some (header ++ "\n1\n".toList ++ key ++ ['\n'] ++ start ++ hex n ++ ['\n'] ++
      (sort m).flatMap entryText ++ (gaps m us 0 (m.map Prod.snd)).flatMap entryText ++
      footer ++ ['\n'])

/-! ## The table of numbers -/

/-- Lower case for the comparison of names (`HASH_STRING_NOCASE`,
/repo/drsyscall/drsyscall_windows.c:865). -/
def lower (s : Str) : Str := s.map Char.toLower

/-- `hashtable_add`: an entry that exists is kept. -/
def add (t : List (Str × Nat)) (n : Str) (v : Nat) : List (Str × Nat) :=
  match find (lower n) t with
  | some _ => t
  | none => t ++ [(lower n, v)]

/-- The name without `NtUser` or `NtGdi` (/repo/drsyscall/drsyscall_windows.c:469-472). -/
def strip (n : Str) : Option Str :=
  if isPre "NtUser".toList n then some (n.drop 6)
  else if isPre "NtGdi".toList n then some (n.drop 5)
  else none

/-- Is it a user call (/repo/drsyscall/drsyscall_windows.c:458)? -/
def isUserCall (n : Str) : Bool := isPre "NtUserCall".toList n && n.contains '.'

/-- `name2num_record` (/repo/drsyscall/drsyscall_windows.c:451-480); user calls go to a table of
their own. -/
def record (t : List (Str × Nat)) (e : Str × Nat) : List (Str × Nat) :=
  if isUserCall e.1 then t
  else
    match strip e.1 with
    | none => add t e.1 e.2
    | some s => add (add t e.1 e.2) s e.2

/-- `os_syscall_get_num` (/repo/drsyscall/drsyscall_windows.c:587-598). -/
def lookup (t : List (Str × Nat)) (n : Str) : Option Nat := find (lower n) t

end Verif.SysFile
