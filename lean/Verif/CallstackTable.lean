/-!
# Reference counts and interning of packed callstacks

Callstacks are objects with a value and a reference count in a heap; identifiers are not reused.
The equality `eqv`, the hash `hsh` and the bucket `bkt` of a hash are parameters (for packed
callstacks see `Callstack.lean`).  The hashtable of DynamoRIO's drcontainers is not part of the
repository; an entry is represented by the identifier of the callstack, which is key and payload,
and a lookup goes through the entries.  Every function runs with the table lock held or consists of
one atomic update, so operations are atomic.  `none` is a use of freed memory.
-/
namespace Verif.Cst

/-- A callstack object (common/callstack.c:184-200). -/
structure Obj (V : Type) where
  val : V
  ref : Nat

/-- The heap and the table. -/
structure St (V : Type) where
  heap : Nat → Option (Obj V) := fun _ => none
  next : Nat := 0
  tbl : List Nat := []

variable {V : Type}

/-- Replace an object. -/
def St.set (s : St V) (id : Nat) (o : Option (Obj V)) : St V :=
  { s with heap := fun i => if i = id then o else s.heap i }

/-- `packed_callstack_record` or `packed_callstack_clone`: a new object with one reference
(common/callstack.c:2126, 2436). -/
def alloc (v : V) (s : St V) : St V × Nat :=
  ({ s.set s.next (some ⟨v, 1⟩) with next := s.next + 1 }, s.next)

/-- `packed_callstack_free` (common/callstack.c:2388-2415): the new count. -/
def free (id : Nat) (s : St V) : Option (St V × Nat) :=
  (s.heap id).map fun o =>
    let r := (o.ref + 2 ^ 32 - 1) % 2 ^ 32
    if r = 0 then (s.set id none, 0) else (s.set id (some { o with ref := r }), r)

/-- `packed_callstack_add_ref` (common/callstack.c:2423-2429). -/
def addRef (id : Nat) (s : St V) : Option (St V) :=
  (s.heap id).map fun o => s.set id (some { o with ref := (o.ref + 1) % 2 ^ 32 })

/-- The loop of `packed_callstack_destroy` (common/callstack.c:2561-2567) with a bound on its
turns. -/
def destroyGo (id : Nat) : Nat → St V → Option (St V)
  | 0, _ => none
  | n + 1, s => (free id s).bind fun r => if r.2 > 0 then destroyGo id n r.1 else some r.1

/-- `packed_callstack_destroy` (common/callstack.c:2553-2568). -/
def destroy (id : Nat) (s : St V) : Option (St V) := destroyGo id (2 ^ 32) s

section
variable (eqv : V → V → Bool) (hsh : V → UInt32) (bkt : UInt32 → Nat)

/-- The search for a key in the table. -/
def scan (heap : Nat → Option (Obj V)) (v : V) : List Nat → Option (Option Nat)
  | [] => some none
  | j :: l => (heap j).bind fun o =>
    if bkt (hsh o.val) = bkt (hsh v) ∧ eqv o.val v = true then some (some j)
    else scan heap v l

/-- `hashtable_remove(table, pcs)` with the payload function `alloc_callstack_free`
(drmemory/alloc_drmem.c:359-368, 386). -/
def remove (id : Nat) (s : St V) : Option (St V) :=
  (s.heap id).bind fun o => (scan eqv hsh bkt s.heap o.val s.tbl).bind fun
    | none => some s
    | some j => destroy j { s with tbl := s.tbl.erase j }

/-- `packed_callstack_add_to_table` (common/callstack.c:2571-2599). -/
def intern (id : Nat) (s : St V) : Option (St V × Nat) :=
  (s.heap id).bind fun o => (scan eqv hsh bkt s.heap o.val s.tbl).bind fun
    | none => (addRef id { s with tbl := id :: s.tbl }).map fun s => (s, id)
    | some j => (free id s).bind fun r => (addRef j r.1).map fun s => (s, j)

/-- `shared_callstack_free` (drmemory/alloc_drmem.c:370-390). -/
def freeShared (id : Nat) (s : St V) : Option (St V) :=
  (free id s).bind fun r => if r.2 = 1 then remove eqv hsh bkt id r.1 else some r.1

end
end Verif.Cst
