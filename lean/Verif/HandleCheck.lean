/-
The handle leak checker of Dr. Memory (Windows): drmemory/handlecheck.c and the system call
hooks of drmemory/syscall_windows.c that drive it.

Simplifications, all of them:
* the three handle tables (kernel, gdi, user) are one association list whose keys carry the
  type: handlecheck_get_handle_table (handlecheck.c:641-665) only selects among them;
* an interned callstack is its value (a number) and `ref` is the reference count of the one
  object that the stack table holds for that value: 0 means that there is none.  The interning
  itself is the subject of C31 (Verif.CallstackTable);
* all of handlecheck.c runs under one lock (handle_table_lock), so that every entry point is
  one atomic step;
* the reference count is not cut off at 32 bits.
-/
namespace Verif.HandleCheck

/-- handlecheck.h, HANDLE_TYPE_*: the three namespaces of handles (handlecheck.c:76-84). -/
inductive Ty where
  | kernel | gdi | user
deriving DecidableEq, Repr

/-- A handle value within its namespace: the key of the three tables. -/
abbrev Key := Ty × Nat

/-- INVALID_HANDLE_VALUE. -/
def invalid : Nat := 0xffffffffffffffff

section Assoc
variable {κ α : Type} [DecidableEq κ]

/-- hashtable_lookup of the DynamoRIO extension drcontainers (used at handlecheck.c:343, 460,
524, 597). -/
def get : List (κ × α) → κ → Option α
  | [], _ => none
  | (k, v) :: r, x => if k = x then some v else get r x

/-- hashtable_remove without the call of the free function (handlecheck.c:470). -/
def del : List (κ × α) → κ → List (κ × α)
  | [], _ => []
  | (k, v) :: r, x => if k = x then r else (k, v) :: del r x

end Assoc

/-- The value of pt->handle_info between the two events of a system call: NULL, the address of
other_proc_hci (handlecheck.c:48-52, 772) or a clone of the entry (its callstack). -/
inductive Info where
  | null
  | other
  | hci (pcs : Nat)
deriving DecidableEq, Repr

/-- What is reported: report_handle_leak as called by handlecheck_check_open_handle
(handlecheck.c:548-555), or the leak of a handle that a system call was told not to hand out
(handlecheck_report_leak_on_syscall, handlecheck.c:476-507). -/
inductive Report where
  | leak (k : Key) (similar : Nat) (pcs : Nat) (closed : Option Nat) (potential : Bool)
  | onSyscall (own : Bool) (pcs : Nat)
deriving DecidableEq, Repr

/-- The options that matter: options.filter_handle_leaks and options.handle_leak_threshold
(optionsx.h). -/
structure Opts where
  filter : Bool
  threshold : Nat
deriving DecidableEq, Repr

/-- The static data of handlecheck.c (62-84), and pt->handle_info of the threads for which it was
set. -/
structure St where
  ents : List (Key × Nat)
  ref : Nat → Nat
  pairs : List (Nat × Nat)
  pend : List (Nat × Info)
  reps : List Report

/-- handlecheck_init (handlecheck.c:667-690). -/
def St.init : St :=
  { ents := [], ref := fun _ => 0, pairs := [], pend := [], reps := [] }

/-- Assignment to one reference count. -/
def setRef (ref : Nat → Nat) (s n : Nat) : Nat → Nat := fun x => if x = s then n else ref x

/-- packed_callstack_add_ref (callstack.c:2424-2430); `none`: the object does not exist. -/
def addRef (s : Nat) (st : St) : Option St :=
  if st.ref s = 0 then none else
    some { st with ref := setRef st.ref s (st.ref s + 1) }

/-- packed_callstack_free (callstack.c:2389-2415) on an object that the stack table still holds;
`none`: the object does not exist, or the reference that goes is the one of the table, which would
leave the table with a dangling pointer. -/
def dropRef (s : Nat) (st : St) : Option St :=
  if st.ref s ≤ 1 then none else
    some { st with ref := setRef st.ref s (st.ref s - 1) }

/-- packed_callstack_record followed by packed_callstack_add_to_table (callstack.c:2116, 2571-2605)
as called at handlecheck.c:357-361 and 405-407: a new object has one reference, which becomes the
one of the table, and a second one for the caller. -/
def intern (s : Nat) (st : St) : St :=
  { st with ref := setRef st.ref s (if st.ref s = 0 then 2 else st.ref s + 1) }

/-- handlecheck_handle_add (handlecheck.c:418-447). -/
def handleAdd (k : Key) (s : Nat) (st : St) : Option St :=
  match get st.ents k with
  | none => some { st with ents := (k, s) :: st.ents }
  | some old => dropRef old { st with ents := (k, s) :: del st.ents k }

/-- handlecheck_handle_remove (handlecheck.c:449-472): the entry is cloned, then removed, and the
free function of the table drops the reference of the entry. -/
def handleRemove (k : Key) (st : St) : Option (St × Info) :=
  match get st.ents k with
  | none => some (st, .null)
  | some s =>
    match addRef s st with
    | none => none
    | some st1 =>
      match dropRef s { st1 with ents := del st1.ents k } with
      | none => none
      | some st2 => some (st2, .hci s)

/-- open_close_pair_add (handlecheck.c:325-359): `o` is the callstack that opened the handle, `c`
the one that closes it. -/
def pairAdd (op : Opts) (o c : Nat) (st : St) : Option St :=
  if op.filter = false then some st else
  match get st.pairs o with
  | some _ => some st
  | none =>
    match addRef o st with
    | none => none
    | some st1 =>
      let st2 := intern c st1
      some { st2 with pairs := (o, c) :: st2.pairs }

/-- handlecheck_create_handle (handlecheck.c:704-731). -/
def create (own : Bool) (k : Key) (s : Nat) (st : St) : Option St :=
  if own = false then some st else
  if k.2 = invalid ∨ k.2 = 0 then some st else
  handleAdd k s (intern s st)

/-- handlecheck_delete_handle (handlecheck.c:733-764). -/
def deletePre (own : Bool) (k : Key) (st : St) : Option (St × Info) :=
  if k.2 = invalid then some (st, .null) else
  if own = false then some (st, .other) else
  handleRemove k st

/-- handlecheck_delete_handle_post_syscall (handlecheck.c:766-807). -/
def deletePost (op : Opts) (k : Key) (c : Nat) (i : Info) (success : Bool) (st : St) :
    Option St :=
  match i with
  | .other => some st
  | .null => some st
  | .hci s =>
    if success then
      match (if op.filter then pairAdd op s c st else some st) with
      | none => none
      | some st1 => dropRef s st1
    else handleAdd k s st

/-- The handle that a system call closes, from syscall_deletes_handle and syscall_handle_type
(syscall_windows.c:439-461, 600-627): whether it belongs to this process
(syscall_get_src_proc_handle, 340-346), its key, and `forced` for NtDuplicateObject with
DUPLICATE_CLOSE_SOURCE (syscall_windows.c:568-571). -/
structure Del where
  own : Bool
  key : Key
  forced : Bool
deriving DecidableEq, Repr

/-- A system call of the program: what it closes, whether it may create handles
(syscall_creates_handle, syscall_windows.c:466-493), and the callstack of the call (the system call
number is its first frame), which is the callstack for opening and for closing. -/
structure Call where
  dele : Option Del
  creates : Bool
  stack : Nat
deriving DecidableEq, Repr

/-- One argument of type handle written by the call, or its return value: the cases of
post_syscall_iter_arg_cb (syscall_windows.c:361-406).  `null` is an absent pointer in a call for
which syscall_could_leak_handle says yes; an argument that cannot be read is no `Out`. -/
inductive Out where
  | null (own : Bool)
  | handle (own : Bool) (k : Key)
deriving DecidableEq, Repr

/-- What the kernel answers. -/
structure Res where
  succ : Bool
  outs : List Out
deriving DecidableEq, Repr

/-- post_syscall_iter_arg_cb (syscall_windows.c:361-406) for one argument. -/
def postArg (s : Nat) (st : St) : Out → Option St
  | .null own => some { st with reps := st.reps ++ [.onSyscall own s] }
  | .handle own k => create own k s st

/-- drsys_iterate_args with post_syscall_iter_arg_cb (syscall_windows.c:581-583). -/
def postArgs (s : Nat) : List Out → St → Option St
  | [], st => some st
  | o :: r, st =>
    match postArg s st o with
    | none => none
    | some st1 => postArgs s r st1

/-- os_shared_pre_syscall (syscall_windows.c:499-522), with -check_handle_leaks. -/
def preCall (t : Nat) (c : Call) (st : St) : Option St :=
  match c.dele with
  | none => some st
  | some d =>
    match deletePre d.own d.key st with
    | none => none
    | some (st1, i) => some { st1 with pend := (t, i) :: del st1.pend t }

/-- pt->handle_info as it is read after the call. -/
def infoOf (t : Nat) (st : St) : Info := (get st.pend t).getD .null

/-- The deleting part of os_shared_post_syscall (syscall_windows.c:559-579). -/
def postDel (op : Opts) (t : Nat) (c : Call) (r : Res) (st : St) : Option St :=
  match c.dele with
  | none => some st
  | some d =>
    match deletePost op d.key c.stack (infoOf t st) (d.forced || r.succ) st with
    | none => none
    | some s1 => some { s1 with pend := del s1.pend t }

/-- os_shared_post_syscall (syscall_windows.c:549-586): first the deletion, then the new handles
of a successful call. -/
def postCall (op : Opts) (t : Nat) (c : Call) (r : Res) (st : St) : Option St :=
  match postDel op t c r st with
  | none => none
  | some st2 => if r.succ && c.creates then postArgs c.stack r.outs st2 else some st2

/-- handlecheck_check_open_handle (handlecheck.c:509-556).  `count` is unsigned: `count - 1` cannot
wrap because the entry itself is one of the references. -/
def checkOpen (op : Opts) (k : Key) (s : Nat) (st : St) : Report :=
  let count := st.ref s - 1
  if op.filter then
    match get st.pairs s with
    | some c =>
      let count := count - 1
      .leak k (count - 1) s (some c) (decide (count ≤ 2))
    | none => .leak k (count - 1) s none (decide (¬ count ≥ op.threshold))
  else .leak k (count - 1) s none false

/-- handlecheck_iterate_handle_table (handlecheck.c:558-572) for the table of one type. -/
def iterTable (op : Opts) (ty : Ty) (st : St) : List Report :=
  (st.ents.filter (fun e => decide (e.1.1 = ty))).map (fun e => checkOpen op e.1 e.2 st)

/-- The loop of handlecheck_enumerate_handles (handlecheck.c:594-613) over the handle values of the
process. -/
def enumerate (op : Opts) (st : St) (list : List Nat) : List Report :=
  list.filterMap (fun h =>
    match get st.ents (Ty.kernel, h) with
    | none => none
    | some s => some (checkOpen op (Ty.kernel, h) s st))

/-- handlecheck_iterate_handles (handlecheck.c:615-639): `list` is the result of
get_process_handle_list. -/
def iterate (op : Opts) (list : Option (List Nat)) (st : St) : List Report :=
  (match list with
   | some l => enumerate op st l
   | none => iterTable op .kernel st)
    ++ iterTable op .user st ++ iterTable op .gdi st

/-- handlecheck_nudge (handlecheck.c:818-822). -/
def nudge (op : Opts) (list : Option (List Nat)) (st : St) : St :=
  { st with reps := st.reps ++ iterate op list st }

/-- hashtable_delete of a handle table: the references of the entries go. -/
def dropEnts : List (Key × Nat) → St → Option St
  | [], st => some { st with ents := [] }
  | (_, s) :: r, st =>
    match dropRef s st with
    | none => none
    | some st1 => dropEnts r st1

/-- hashtable_delete of open_close_table with open_close_pair_free (handlecheck.c:298-310). -/
def dropPairs : List (Nat × Nat) → St → Option St
  | [], st => some { st with pairs := [] }
  | (o, c) :: r, st =>
    match dropRef o st with
    | none => none
    | some st1 =>
      match dropRef c st1 with
      | none => none
      | some st2 => dropPairs r st2

/-- handlecheck_exit (handlecheck.c:692-702); at the end handle_callstack_free destroys every
callstack of the stack table, whatever its count (callstack.c:2554-2567). -/
def exit (op : Opts) (list : Option (List Nat)) (st : St) : Option St :=
  let st0 := nudge op list st
  match dropEnts st0.ents st0 with
  | none => none
  | some st1 =>
    match dropPairs st1.pairs st1 with
    | none => none
    | some st2 =>
      some { st2 with ref := fun _ => 0 }

/-! ## The world around it -/

/-- The process: the tool, which handles are open and by which callstack each was opened
(`kern`), whether the last handle of that value was closed from another process (`ext`), the calls
that are between their two events, with the answer once the kernel has given it, and the closes
that the kernel has carried out: (opened by, closed by). -/
structure Sys where
  tool : St
  kern : Key → Option Nat
  ext : Key → Bool
  flight : Nat → Option (Call × Option Res)
  hist : List (Nat × Nat)

/-- Nothing has happened yet. -/
def Sys.init : Sys :=
  { tool := St.init, kern := fun _ => none, ext := fun _ => false, flight := fun _ => none, hist := [] }

/-- What can happen: a thread enters a system call; the kernel carries it out; the thread comes
back; another process closes one of our handles (i#1380, handlecheck.c:585-588); a nudge asks for a
report. -/
inductive Ev where
  | pre (t : Nat) (c : Call)
  | exec (t : Nat) (r : Res)
  | post (t : Nat)
  | ext (k : Key)
  | nudge (list : Option (List Nat))

/-- Update of a function at one point. -/
def upd {κ α : Type} [DecidableEq κ] (f : κ → α) (k : κ) (v : α) : κ → α :=
  fun x => if x = k then v else f x

/-- The handle of this process that the call closes, if the kernel answers `r`. -/
def closes (c : Call) (r : Res) : Option Key :=
  match c.dele with
  | some d => if d.own && (d.forced || r.succ) then some d.key else none
  | none => none

/-- The handles of this process that the call opens, if the kernel answers `r`: those that
were handed out. -/
def opens (c : Call) (r : Res) : List Key :=
  if r.succ && c.creates then
    r.outs.filterMap (fun o => match o with
      | .handle true k => if k.2 = invalid ∨ k.2 = 0 then none else some k
      | _ => none)
  else []

/-- The kernel carries out the closing part of a call. -/
def kclose (y : Sys) (c : Call) : Option Key → Sys
  | none => y
  | some k =>
    { y with
      kern := upd y.kern k none
      hist := match y.kern k with
        | some o => (o, c.stack) :: y.hist
        | none => y.hist }

/-- The kernel carries out the opening part of a call. -/
def kopen (c : Call) : List Key → Sys → Sys
  | [], y => y
  | k :: r, y => kopen c r { y with
      kern := upd y.kern k (some c.stack)
      ext := upd y.ext k false }

/-- One step; `none`: the tool uses or frees a callstack that it must not. -/
def step (op : Opts) (y : Sys) : Ev → Option Sys
  | .pre t c =>
    match preCall t c y.tool with
    | none => none
    | some st => some { y with
        tool := st
        flight := upd y.flight t (some (c, none)) }
  | .exec t r =>
    match y.flight t with
    | some (c, none) =>
      let y1 := kopen c (opens c r) (kclose y c (closes c r))
      some { y1 with flight := upd y1.flight t (some (c, some r)) }
    | _ => some y
  | .post t =>
    match y.flight t with
    | some (c, some r) =>
      match postCall op t c r y.tool with
      | none => none
      | some st => some { y with
          tool := st
          flight := upd y.flight t none }
    | _ => some y
  | .ext k => some { y with
      kern := upd y.kern k none
      ext := upd y.ext k true }
  | .nudge l => some { y with tool := nudge op l y.tool }

/-- What no kernel and no thread does otherwise: a thread is in one system call at a time; the
kernel hands out only handle values that are not open. -/
def enabled (y : Sys) : Ev → Prop
  | .pre t _ => y.flight t = none
  | .exec t r => ∃ c, y.flight t = some (c, none) ∧
      ∀ k ∈ opens c r, (kclose y c (closes c r)).kern k = none
  | .post t => ∃ c r, y.flight t = some (c, some r)
  | .ext _ => True
  | .nudge _ => True

/-- Thread `t` is in a call that is to close `k` and has not done so, or in a call that has opened
`k` and has not come back. -/
def busy (y : Sys) (t : Nat) (k : Key) : Prop :=
  match y.flight t with
  | none => False
  | some (c, none) => ∃ d, c.dele = some d ∧ d.own = true ∧ d.key = k
  | some (c, some r) =>
      (∃ d, c.dele = some d ∧ d.own = true ∧ d.key = k ∧ closes c r = none) ∨ k ∈ opens c r

/-- No two threads work on the same handle: nobody starts to close a handle while another thread is
busy with it, no handle value is handed out while another thread is busy with it, and a close does
not succeed on a handle that another process has closed. -/
def calm (y : Sys) : Ev → Prop
  | .pre _ c => ∀ d, c.dele = some d → d.own = true → ∀ t', ¬ busy y t' d.key
  | .exec t r => ∀ c, y.flight t = some (c, none) →
      (∀ k ∈ opens c r, ∀ t', t' ≠ t → ¬ busy y t' k) ∧
      (∀ k, closes c r = some k → y.kern k = none → y.ext k = false)
  | _ => True

/-- A run. -/
inductive Run (op : Opts) : Sys → List Ev → Sys → Prop
  | nil (y) : Run op y [] y
  | cons {y e y1 es y2} : enabled y e → step op y e = some y1 → Run op y1 es y2 →
      Run op y (e :: es) y2

/-- A run in which no two threads work on the same handle. -/
inductive CalmRun (op : Opts) : Sys → List Ev → Sys → Prop
  | nil (y) : CalmRun op y [] y
  | cons {y e y1 es y2} : enabled y e → calm y e → step op y e = some y1 → CalmRun op y1 es y2 →
      CalmRun op y (e :: es) y2

/-! ## The handle list of the process -/

/-- SYSTEM_HANDLE_ENTRY: OwnerPid and HandleValue. -/
structure Entry where
  pid : Nat
  handle : Nat
deriving DecidableEq, Repr

/-- The loop over the system list (handlecheck.c:214-229): the number of matched chunks, the entries
from h_start on (`none`: NULL) and `count`.  The argument is the part of the list from h_sys on; the
`drop 1` is the h_sys++ of the outer loop after the inner one. -/
def scan (pid cnt : Nat) (l : List Entry) (nm : Nat) (start : Option (List Entry)) (count : Nat) :
    Nat × Option (List Entry) × Nat :=
  match l with
  | [] => (nm, start, count)
  | e :: r =>
    if e.pid = pid then
      let n := ((e :: r).takeWhile (fun x => decide (x.pid = pid))).length
      if n = cnt then (nm + 1, some (e :: r), n)
      else scan pid cnt (((e :: r).drop n).drop 1) (nm + 1) (some (e :: r)) n
    else scan pid cnt r nm start count
termination_by l.length
decreasing_by
  · simp only [List.length_drop, List.length_cons]; omega
  · simp

/-- The do-while loop and the copy (handlecheck.c:207-275), with the pid of the first pass; `none`:
NULL is returned and the own table is used. -/
def findList (pid cnt : Nat) (l : List Entry) : Option (List Entry) :=
  let pick : Nat × Option (List Entry) × Nat → Option (List Entry)
    | (nm, some st, n) => if nm = 1 then some (st.take n) else none
    | (_, none, _) => none
  match scan pid cnt l 0 none 0 with
  | (nm, some st, n) => pick (nm, some st, n)
  | (_, none, _) =>
    if pid < 0x10000 then none
    else pick (scan (pid % 0x10000) cnt l 0 none 0)

/-- The answers of NtQuerySystemInformation (handlecheck.c:139-148). -/
inductive Query where
  | mismatch
  | ok (l : List Entry)
  | error
deriving DecidableEq, Repr

/-- get_system_handle_list (handlecheck.c:126-160): `some (some l)` a list, `some none` NULL, `none`
a buffer that nobody has written: after an error other than a length mismatch `list` is not NULL, so
that the test `!NT_SUCCESS(res) && list == NULL` (149) does not hold.  The argument is what the
query answers each time; the loop ends with the first answer that is no mismatch. -/
def systemList : List Query → Option (Option (List Entry))
  | [] => some none
  | .mismatch :: r => systemList r
  | .ok l :: _ => some (some l)
  | .error :: _ => none

/-- get_process_handle_list (handlecheck.c:179-280): `pcount` is get_process_handle_count
(162-174). -/
def processList (pid pcount : Nat) (q : List Query) : Option (Option (List Entry)) :=
  match systemList q with
  | none => none
  | some none => some none
  | some (some l) => if pcount = 0 then some none else some (findList pid pcount l)

end Verif.HandleCheck
