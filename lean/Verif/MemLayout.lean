import Verif.SysFile

/-!
# C66: the dump of the memory layout

At the request of the application Dr. Memory writes its heap objects, thread stacks and call
stacks to a JSON file (/repo/drmemory/memlayout.c:45-309, annotation drmemory_dump_memory_layout).

Simplifications.  The two trees are given as the lists of their nodes in order of addresses (C15);
which heap objects and stack regions get into them, and the frames that the stack walk reports
(with their names), are inputs.  Failures to open or write the file are left out.  Reading behind
an object whose size is not a multiple of a word is taken to be safe, as the code assumes.
-/

namespace Verif.MemLayout

/-- Text. -/
abbrev Str := List Char

/-- `%x` -/
def hex (n : Nat) : Str := SysFile.hex n

/-- Fill with zeros to width `w`. -/
def pad (w : Nat) (s : Str) : Str := List.replicate (w - s.length) '0' ++ s

/-- `PFX`: a pointer of `p` bytes with all its digits. -/
def pfx (p n : Nat) : Str := '0' :: 'x' :: pad (2 * p) (hex n)

/-- Digits to the base 10. -/
def dec (n : Nat) : Str :=
  if _h : n < 10 then [Char.ofNat (48 + n)] else dec (n / 10) ++ [Char.ofNat (48 + n % 10)]
termination_by n
decreasing_by omega

/-- `%d` applied to a size: its low 32 bits with a sign. -/
def decInt (n : Nat) : Str :=
  if n % 4294967296 < 2147483648 then dec (n % 4294967296)
  else '-' :: dec (4294967296 - n % 4294967296)

/-- Value of `w` bytes of memory, the lowest byte first. -/
def load (mem : Nat → Nat) : Nat → Nat → Nat
  | _, 0 => 0
  | a, w + 1 => mem a % 256 + 256 * load mem (a + 1) w

/-- `short` or `char` of `b` bits passed on as an int and printed by `%x`. -/
def signExt (b n : Nat) : Nat := if n < 2 ^ (b - 1) then n else n + (4294967296 - 2 ^ b)

/-- A node of a tree: base, size and client value. -/
structure Node where
  base : Nat
  size : Nat
  id : Nat := 0

/-- `rb_in_node` (/repo/common/redblack.c:518-540) on the nodes in order. -/
def inNode (t : List Node) (a : Nat) : Option Node :=
  t.find? fun n => decide (n.base ≤ a ∧ a < n.base + n.size)

/-- What does not change during a dump: size of pointers, memory, trees of heap objects and of
stack regions. -/
structure Data where
  x64 : Bool
  mem : Nat → Nat
  heap : List Node
  stacks : List Node

/-- `sizeof(void*)` -/
def Data.p (d : Data) : Nat := if d.x64 then 8 else 4

/-- Number of bytes of the next entry if `sz` remain
(/repo/drmemory/memlayout.c:114-146). -/
def width (p sz : Nat) : Nat :=
  if p ≤ sz then p else if 4 ≤ sz then 4 else if 2 ≤ sz then 2 else 1

/-- Text about what a pointer points to (/repo/drmemory/memlayout.c:120-135). -/
def target (d : Data) (v : Nat) : Str :=
  let out (kind : Str) (n : Node) : Str :=
    ",\n          \"points-to-type\": \"".toList ++ (kind ++ ("\",\n".toList ++
      ("          \"points-to-base\": \"".toList ++ (pfx d.p n.base ++ ("\",\n".toList ++
        ("          \"points-to-offset\": \"".toList ++
          (('0' :: 'x' :: hex (v - n.base)) ++ "\"".toList)))))))
  match inNode d.heap v with
  | some n => out "heap".toList n
  | none =>
    match inNode d.stacks v with
    | some n => out "stack".toList n
    | none => []

/-- The value of an entry (/repo/drmemory/memlayout.c:114-146). -/
def valueText (d : Data) (a sz : Nat) : Str :=
  if d.p ≤ sz then
    let v := load d.mem a d.p
    "          \"value\": \"".toList ++ (pfx d.p v ++ ("\"".toList ++
      (target d v ++ "\n".toList)))
  else
    let t := if 4 ≤ sz then pad 8 (hex (load d.mem a 4))
      else if 2 ≤ sz then pad 4 (hex (signExt 16 (load d.mem a 2)))
      else pad 2 (hex (signExt 8 (load d.mem a 1)))
    "          \"value\": \"".toList ++ (('0' :: 'x' :: t) ++ "\"\n".toList)

/-- One round of the loop (/repo/drmemory/memlayout.c:112-147) after the comma. -/
def entryText (d : Data) (a sz : Nat) : Str :=
  "        {\n".toList ++ ("          \"address\": \"".toList ++ (pfx d.p a ++ ("\",\n".toList ++
    (valueText d a sz ++ "        }".toList))))

theorem width_pos (d : Data) {sz : Nat} (h : sz ≠ 0) :
    0 < width d.p sz ∧ width d.p sz ≤ sz := by
  have hp : d.p = 8 ∨ d.p = 4 := by
    rw [Data.p]; cases d.x64
    · exact Or.inr rfl
    · exact Or.inl rfl
  generalize d.p = p at hp
  simp only [width]
  split
  · omega
  · split
    · omega
    · split <;> omega

/-- `memory_layout_walk_chunk` (/repo/drmemory/memlayout.c:103-150) from `a` on. -/
def chunk (d : Data) (base a sz : Nat) : Str :=
  if _h : sz = 0 then "\n".toList
  else
    (if base < a then ",\n".toList else []) ++ (entryText d a sz ++
      chunk d base (a + width d.p sz) (sz - width d.p sz))
termination_by sz
decreasing_by
  have := width_pos d _h
  omega

/-- `memory_layout_rb_iter` (/repo/drmemory/memlayout.c:152-178) after the comma. -/
def objectText (d : Data) (heap : Bool) (n : Node) : Str :=
  (if heap then
    "    {\n      \"address\": \"".toList ++ (pfx d.p n.base ++ ("\",\n".toList ++
      ("      \"size\": \"".toList ++ (decInt n.size ++ "\",\n".toList))))
  else
    "    {\n      \"thread_id\": \"".toList ++ (pfx d.p n.id ++ ("\",\n".toList ++
      ("      \"address\": \"".toList ++ (pfx d.p n.base ++ ("\",\n".toList ++
        ("      \"size\": \"".toList ++ (decInt n.size ++ "\",\n".toList)))))))) ++
    ("      \"contents\": [\n".toList ++ (chunk d n.base n.base n.size ++
      ("      ]\n".toList ++ "    }".toList)))

/-- `entry_count` after `i` increments.  It has the type `bool` (/repo/drmemory/memlayout.c:55), which DynamoRIO's headers
(not in /repo) define as `_Bool` or, for compilers without it, as `char`. -/
def count (isChar : Bool) (i : Nat) : Int :=
  if isChar then (if i % 256 < 128 then (i % 256 : Int) else (i % 256 : Int) - 256)
  else if i = 0 then 0 else 1

/-- `rb_iterate` with `memory_layout_rb_iter`; `i` nodes came before. -/
def objects (d : Data) (isChar heap : Bool) : Nat → List Node → Str
  | _, [] => []
  | i, n :: ns =>
    (if 0 < count isChar i then ",\n".toList else []) ++ (objectText d heap n ++
      objects d isChar heap (i + 1) ns)

/-- A frame of a call stack: address, frame pointer and name of the function. -/
structure Frame where
  pc : Nat
  fp : Nat
  func : Str

/-- A thread: its id, the frame at the top, and the others. -/
structure Thread where
  id : Nat
  top : Frame
  frames : List Frame

/-- The contents of a frame, with `memlayout_dump_function` (/repo/drmemory/memlayout.c:180-190). -/
def frameBody (d : Data) (f : Frame) : Str :=
  pfx d.p f.pc ++ ("\",\n".toList ++ ("          \"frame_pointer\": \"".toList ++
    (pfx d.p f.fp ++ ("\",\n".toList ++ ("          \"function\": \"".toList ++
      (f.func ++ "\"\n".toList))))))

/-- `memlayout_dump_frame` (/repo/drmemory/memlayout.c:192-201) for each frame. -/
def framesText (d : Data) : List Frame → Str
  | [] => []
  | f :: fs =>
    "        },\n        {\n          \"program_counter\": \"".toList ++ (frameBody d f ++
      framesText d fs)

/-- `memory_layout_record_stack_region` (/repo/drmemory/memlayout.c:203-244). -/
def threadText (d : Data) (t : Thread) : Str :=
  "    {\n      \"thread_id\": \"".toList ++ (pfx d.p t.id ++ ("\",\n".toList ++
    ("      \"stack_frames\": [\n".toList ++
      ("        {\n          \"program_counter\": \"".toList ++ (frameBody d t.top ++
        (framesText d t.frames ++ ("        }\n".toList ++ ("      ]\n".toList ++
          "    }\n".toList))))))))

/-- The threads one after the other (/repo/drmemory/memlayout.c:281-284). -/
def threadsText (d : Data) : List Thread → Str
  | [] => []
  | t :: ts => threadText d t ++ threadsText d ts

/-- `memlayout_dump_layout` (/repo/drmemory/memlayout.c:246-309): `others` are the suspended threads, `self` the one that asked
for the dump. -/
def dump (d : Data) (isChar : Bool) (others : List Thread) (self : Thread) : Str :=
  "{\n  \"version\": \"2\",\n".toList ++ ("  \"threads\": [\n".toList ++
    (threadsText d others ++ (threadText d self ++
      ("  ],\n  \"heap objects\": [\n".toList ++ (objects d isChar true 0 d.heap ++
        ((if 0 < count isChar d.heap.length then "\n".toList else []) ++
          ("  ],\n  \"thread stacks\": [\n".toList ++ (objects d isChar false 0 d.stacks ++
            ((if 0 < count isChar d.stacks.length then "\n".toList else []) ++
              "  ]\n}\n".toList)))))))))

/-! ## Reading JSON

The specification: a reader for JSON that goes through the text once.  It takes any word for
`true`, `false`, `null` and numbers and any character behind a backslash, so that every JSON text
is read; texts without those it reads exactly if they are JSON. -/

/-- A JSON value; strings as written. -/
inductive J where
  | atom (s : Str)
  | str (s : Str)
  | arr (l : List J)
  | obj (l : List (Str × J))

/-- What a value is part of: the elements so far, for objects also the name of the value. -/
inductive Ctx where
  | arr (l : List J)
  | obj (l : List (Str × J)) (key : Str)

/-- What is being read. -/
inductive Mode where
  /-- a value comes -/
  | val
  /-- a value or the end of an array comes -/
  | first
  /-- a name comes in an object with these members; may it end here? -/
  | key (l : List (Str × J)) (canEnd : Bool)
  /-- within a name -/
  | inKey (l : List (Str × J)) (s : Str)
  /-- behind a backslash in a name -/
  | escKey (l : List (Str × J)) (s : Str)
  /-- a colon comes -/
  | colon (l : List (Str × J)) (key : Str)
  /-- within a string -/
  | inStr (s : Str)
  /-- behind a backslash in a string -/
  | escStr (s : Str)
  /-- within a word -/
  | word (s : Str)
  /-- behind a value -/
  | done (v : J)

/-- Space between tokens. -/
def isWs (c : Char) : Bool := c == ' ' || c == '\n' || c == '\r' || c == '\t'

/-- Control characters, which are not allowed in strings. -/
def isCtl (c : Char) : Bool := c < ' '

/-- Characters that have a meaning of their own. -/
def isPunct (c : Char) : Bool :=
  c == '{' || c == '}' || c == '[' || c == ']' || c == ',' || c == ':' || c == '"'

/-- The character behind a value. -/
def stepDone (v : J) (st : List Ctx) (c : Char) : Option (Mode × List Ctx) :=
  if isWs c then some (.done v, st)
  else
    match st with
    | [] => none
    | .arr l :: st =>
      if c = ',' then some (.val, .arr (l ++ [v]) :: st)
      else if c = ']' then some (.done (.arr (l ++ [v])), st)
      else none
    | .obj l k :: st =>
      if c = ',' then some (.key (l ++ [(k, v)]) false, st)
      else if c = '}' then some (.done (.obj (l ++ [(k, v)])), st)
      else none

/-- The first character of a value. -/
def stepVal (m : Mode) (st : List Ctx) (c : Char) : Option (Mode × List Ctx) :=
  if isWs c then some (m, st)
  else if c = '{' then some (.key [] true, st)
  else if c = '[' then some (.first, .arr [] :: st)
  else if c = '"' then some (.inStr [], st)
  else if isPunct c then none
  else some (.word [c], st)

/-- One character. -/
def step : Mode × List Ctx → Char → Option (Mode × List Ctx)
  | (.val, st), c => stepVal .val st c
  | (.first, st), c =>
    if c = ']' then
      match st with
      | .arr l :: st => some (.done (.arr l), st)
      | _ => none
    else stepVal .first st c
  | (.key l e, st), c =>
    if isWs c then some (.key l e, st)
    else if c = '"' then some (.inKey l [], st)
    else if c = '}' ∧ e = true then some (.done (.obj l), st)
    else none
  | (.inKey l s, st), c =>
    if c = '"' then some (.colon l s, st)
    else if c = '\\' then some (.escKey l (s ++ [c]), st)
    else if isCtl c then none
    else some (.inKey l (s ++ [c]), st)
  | (.escKey l s, st), c => if isCtl c then none else some (.inKey l (s ++ [c]), st)
  | (.colon l k, st), c =>
    if isWs c then some (.colon l k, st)
    else if c = ':' then some (.val, .obj l k :: st)
    else none
  | (.inStr s, st), c =>
    if c = '"' then some (.done (.str s), st)
    else if c = '\\' then some (.escStr (s ++ [c]), st)
    else if isCtl c then none
    else some (.inStr (s ++ [c]), st)
  | (.escStr s, st), c => if isCtl c then none else some (.inStr (s ++ [c]), st)
  | (.word s, st), c =>
    if isWs c || isPunct c then stepDone (.atom s) st c else some (.word (s ++ [c]), st)
  | (.done v, st), c => stepDone v st c

/-- Read text. -/
def run : Str → Mode × List Ctx → Option (Mode × List Ctx)
  | [], s => some s
  | c :: t, s =>
    match step s c with
    | none => none
    | some s' => run t s'

/-- Read a whole text. -/
def parse (t : Str) : Option J :=
  match run t (.val, []) with
  | some (.done v, []) => some v
  | some (.word s, []) => some (.atom s)
  | _ => none

end Verif.MemLayout
