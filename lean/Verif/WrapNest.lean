import Verif.Wrap

/-
Heap calls inside heap calls, in wrapping mode: how common/alloc.c decides which of the calls of a
nest it changes the arguments and the result of, and what it keeps for a thread in between.

Simplifications, all of them:
* Linux, one thread, one set of routines with redzones, mismatches checked, without -conservative; the
  posix_memalign family is not wrapped (alloc.c:2552-2556) and so is no routine here;
* what is done to the arguments, the results and the table is Wrap's; here a call that is changed is
  an `Act`, and so is a result that is taken in hand;
* the stack of the calls that are active is drwrap's (DRWRAP_UNWIND_ON_EXCEPTION, alloc.c:2559-2561): it
  calls the post hook of a call that an exception has left with a wrapcxt of NULL, the event `unwind`.
  DynamoRIO is not part of the source;
* whether the pointer given to free is in the table is a field of the event.
-/
namespace Verif.WrapNest

open Verif.Wrap (Kind)

/-- routine_type_t (alloc_private.h:46-87) as far as the hooks tell the types apart; the nothrow
operators are the operators, `stats` is HEAP_ROUTINE_STATS and HEAP_ROUTINE_NOT_HANDLED. -/
inductive R where
  | malloc | calloc | realloc | free | size | new | newArray | delete | deleteArray | stats
deriving DecidableEq, Repr

/-- is_delete_routine (alloc_private.h:217-223); such a routine has no post hook
(routine_needs_post_wrap, alloc.c:293-310). -/
def R.isDelete : R → Bool
  | .delete | .deleteArray => true
  | _ => false

/-- is_new_routine (alloc_private.h:210-215). -/
def R.isNew : R → Bool
  | .new | .newArray => true
  | _ => false

/-- malloc_allocator_type (alloc.c:3080-3095). -/
def R.kind : R → Kind
  | .new | .delete => .new
  | .newArray | .deleteArray => .newArray
  | _ => .malloc

/-- MAX_HEAP_NESTING (alloc.c:167). -/
def maxNest : Nat := 12

/-- The fields of cls_alloc_t (alloc.c:169-230) that go from one hook to the other: in_heap_routine,
in_heap_adjusted, alloc_base, alloc_size, allocator, in_calloc, malloc_from_calloc, in_realloc and
last_alloc_info; and the flag of client_entering_heap_routine and client_exiting_heap_routine
(fastpath.c:451-467). -/
structure Pt where
  depth : Nat
  adj : Nat
  base : Nat
  size : Nat
  allocator : Kind
  inCalloc : Bool
  fromCalloc : Bool
  inRealloc : Bool
  info : Nat → R
  inheap : Bool

/-- alloc_context_init (alloc.c:232-242): all zeros. -/
def Pt.init : Pt :=
  { depth := 0, adj := 0, base := 0, size := 0, allocator := .unknown, inCalloc := false, fromCalloc := false,
    inRealloc := false, info := fun _ => .malloc, inheap := false }

/-- What is done for a call: its arguments are changed; a free of an unknown pointer is reported; a new
block, with its size, its kind and whether it is taken as zeroed; the result of a realloc; that of a
size query. -/
inductive Act where
  | args (r : R) (p n : Nat)
  | invalidFree (p : Nat)
  | block (size : Nat) (kind : Kind) (zeroed : Bool)
  | moved (p size : Nat) (kind : Kind)
  | sized (p : Nat)
deriving DecidableEq, Repr

/-- record_allocator (alloc.c:5180-5207) and the free side of handle_alloc_pre_ex
(alloc.c:6658-6677). -/
def record (pt : Pt) (r : R) : Pt :=
  match r with
  | .new | .newArray | .malloc | .realloc | .calloc =>
    if pt.depth = 0 ∧ pt.allocator = .unknown then { pt with allocator := r.kind } else pt
  | .delete | .deleteArray | .free => if pt.depth = 0 then { pt with allocator := .unknown } else pt
  | _ => pt

/-- enter_heap_routine (alloc.c:4998-5017). -/
def enter (pt : Pt) (r : R) : Pt :=
  { pt with
    inheap := if pt.depth = 0 then true else pt.inheap
    depth := pt.depth + 1
    info := if pt.depth + 1 < maxNest then Wrap.upd pt.info (pt.depth + 1) r else pt.info }

/-- check_recursive_same_sequence (alloc.c:5028-5110). -/
def recursive (pt : Pt) : Bool := pt.depth > 1 && pt.adj > 0

/-- set_handling_heap_layer (alloc.c:5112-5122). -/
def handling (pt : Pt) (p n : Nat) : Pt := { pt with adj := pt.depth, base := p, size := n }

/-- The pre handlers: handle_malloc_pre (alloc.c:5610-5689), handle_calloc_pre (6124-6195),
handle_realloc_pre (5924-6028), handle_free_pre (5290-5488), handle_size_pre (5520-5556).  `rep` is
-replace_realloc. -/
def handlePre (rep : Bool) (pt : Pt) (r : R) (p n : Nat) (known : Bool) : Pt × List Act :=
  match r with
  | .malloc => if recursive pt then (pt, []) else (handling pt 0 n, [.args .malloc 0 n])
  | .calloc =>
    if recursive pt then (pt, []) else ({ handling pt 0 n with inCalloc := true }, [.args .calloc 0 n])
  | .realloc =>
    if rep then (pt, [])
    else if recursive pt then (pt, [])
    else if p = 0 then (handling pt 0 n, [.args .realloc 0 n])
    else ({ handling pt p n with inRealloc := true }, [.args .realloc p n])
  | .free =>
    if recursive pt then (pt, [])
    else (handling pt p n, (if known ∨ pt.inRealloc then [] else [.invalidFree p]) ++ [.args .free p n])
  | .size => if recursive pt then (pt, []) else (handling pt p 0, [.args .size p 0])
  | _ => (pt, [])

/-- handle_alloc_pre_ex (alloc.c:6607-6764) of a routine that is entered. -/
def pre (rep : Bool) (pt : Pt) (r : R) (p n : Nat) (known : Bool) : Pt × List Act :=
  handlePre rep (enter (record pt r) r) r p n known

/-- handle_malloc_post (alloc.c:5873-5918). -/
def mallocPost (pt : Pt) : Pt × List Act :=
  ((if pt.inCalloc then { pt with fromCalloc := true } else pt), [.block pt.size pt.allocator pt.inCalloc])

/-- handle_realloc_post (alloc.c:6030-6118). -/
def reallocPost (rep : Bool) (pt : Pt) : Pt × List Act :=
  if rep then (pt, [])
  else if pt.base = 0 then mallocPost pt
  else ({ pt with inRealloc := false }, [.moved pt.base pt.size pt.allocator])

/-- handle_calloc_post (alloc.c:6197-6237). -/
def callocPost (pt : Pt) : Pt × List Act :=
  if pt.fromCalloc then
    ({ pt with
       inCalloc := false
       fromCalloc := false }, [])
  else ({ pt with inCalloc := false }, [.block pt.size pt.allocator true])

/-- The post handlers (alloc.c:6835-6862). -/
def handlePost (rep : Bool) (pt : Pt) (r : R) : Pt × List Act :=
  match r with
  | .malloc => mallocPost pt
  | .calloc => callocPost pt
  | .realloc => reallocPost rep pt
  | .size => (pt, [.sized pt.base])
  | _ => (pt, [])

/-- The counters on the way out (alloc.c:6802-6806). -/
def leave (pt : Pt) : Pt :=
  { pt with
    adj := if pt.depth = pt.adj then 0 else pt.adj
    depth := pt.depth - 1 }

/-- Some outer level has made the adjustment (alloc.c:6811-6812); `adjusted` is the local variable. -/
def skip (pt : Pt) (adjusted : Bool) : Bool := pt.adj > 0 || (!adjusted && pt.adj < pt.depth)

/-- handle_alloc_post_func (alloc.c:6767-6865) for a routine of type r; `gone`: an exception has left
the call (wrapcxt is NULL, 6807-6810). -/
def post (rep gone : Bool) (pt : Pt) (r : R) : Pt × List Act :=
  if gone then (leave pt, [])
  else if skip (leave pt) (pt.depth = pt.adj) then (leave pt, [])
  else
    let a := handlePost rep
      { leave pt with inheap := if (leave pt).depth = 0 then false else (leave pt).inheap } r
    ({ a.1 with allocator := .unknown }, a.2)

/-- handle_alloc_post (alloc.c:6867-6896): none is a read past the end of last_alloc_routine and of
last_alloc_info. -/
def hookPost (rep gone : Bool) (pt : Pt) : Option (Pt × List Act) :=
  if pt.depth < maxNest then some (post rep gone pt (pt.info pt.depth)) else none

/-- An active call: what drwrap has on its stack, and whether its arguments were changed. -/
structure Frame where
  r : R
  p : Nat
  n : Nat
  changed : Bool
deriving DecidableEq, Repr

/-- A thread: its data, and the active calls, the innermost first. -/
structure St where
  pt : Pt
  stack : List Frame

/-- A call of a heap routine with its pointer and its size (the product, for calloc); the innermost
active call returns; an exception leaves it. -/
inductive Ev where
  | call (r : R) (p n : Nat) (known : Bool)
  | ret
  | unwind
deriving DecidableEq, Repr

/-- A thread that has called nothing. -/
def St.init : St := { pt := Pt.init, stack := [] }

/-- Were arguments changed? -/
def changes (l : List Act) : Bool :=
  l.any fun a => match a with
    | .args _ _ _ => true
    | _ => false

/-- A step (alloc_hook, alloc.c:6528-6576, and handle_alloc_post). -/
def step (rep : Bool) (s : St) : Ev → Option (St × List Act)
  | .call r p n known =>
    if r.isDelete then some ({ s with pt := record s.pt r }, [])
    else
      let a := pre rep s.pt r p n known
      some (⟨a.1, ⟨r, p, n, changes a.2⟩ :: s.stack⟩, a.2)
  | .ret =>
    match s.stack with
    | [] => some (s, [])
    | _ :: fs => (hookPost rep false s.pt).map fun a => (⟨a.1, fs⟩, a.2)
  | .unwind =>
    match s.stack with
    | [] => some (s, [])
    | _ :: fs => (hookPost rep true s.pt).map fun a => (⟨a.1, fs⟩, a.2)

/-- The states that a thread can be in; with `ex`, after exceptions too. -/
inductive Reach (rep ex : Bool) : St → Prop where
  | init : Reach rep ex St.init
  | step {s s' : St} {e : Ev} {l : List Act} : Reach rep ex s → (e = .unwind → ex = true) →
      step rep s e = some (s', l) → Reach rep ex s'

/-- A sequence of events, with all that is done. -/
def run (rep : Bool) : St → List Ev → Option (St × List Act)
  | s, [] => some (s, [])
  | s, e :: es =>
    match step rep s e with
    | none => none
    | some a =>
      match run rep a.1 es with
      | none => none
      | some b => some (b.1, a.2 ++ b.2)

end Verif.WrapNest
