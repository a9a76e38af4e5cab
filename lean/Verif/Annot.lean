import Verif.ShadowProps

/-!
# The requests an application makes of the tool (drmemory/annotations.c)

64-bit Linux, x86, built as Dr. Memory (`TOOL_DR_MEMORY`).  DynamoRIO recognises the request in the
application's code and calls the function registered for it; that is not modelled.  The search for
leaks is modelled elsewhere (`Leak`); here it is only noted that it takes place.
`handle_dump_memory_layout` is not modelled here.
-/
namespace Verif.Annot

open Verif.Umbra Verif.Shadow

/-- The options the handlers look at (drmemory/annotations.c:58, 78). -/
structure Opts where
  shadowing : Bool
  checkUninit : Bool
  deriving DecidableEq, Repr

/-- A request: `VALGRIND_MAKE_MEM_DEFINED_IF_ADDRESSABLE(start, len)`,
`drmemory_make_unaddressable(start, len)` and `VALGRIND_DO_LEAK_CHECK`
(drmemory/annotations.c:109-112, 126-129). -/
inductive Req
  | defIfAddr (start len : Nat)
  | unaddr (start len : Nat)
  | leakCheck
  deriving DecidableEq, Repr

/-- `handle_make_mem_defined_if_addressable` (drmemory/annotations.c:49-69).  The loop of
`shadow_set_non_matching_range` runs `len` times. -/
def handleDefined (o : Opts) (s : St) (start len : Nat) : Res (St × Nat) :=
  if !o.shadowing || !o.checkUninit then pure (s, 1)
  else do
    let (s, _) ← setNonMatching DEFINED UNADDRESSABLE len start s none
    pure (s, 1)

/-- `handle_make_unaddressable` (drmemory/annotations.c:71-84).  `(byte*)start+len` wraps. -/
def handleUnaddr (o : Opts) (s : St) (start len : Nat) : Res (St × Nat) :=
  if !o.shadowing then pure (s, 1)
  else do
    let s ← Shadow.setRange s start ((start + len) % top) UNADDRESSABLE
    pure (s, 1)

/-- The state between two requests: the shadow memory, how many searches for leaks have been made,
and what the requests have returned, latest first. -/
structure World where
  sh : St
  scans : Nat
  rets : List Nat

/-- One request; the return of `handle_do_leak_check` is at drmemory/annotations.c:86-92. -/
def step (o : Opts) (w : World) : Req → Res World
  | .defIfAddr a n => do
    let (s, r) ← handleDefined o w.sh a n
    pure { sh := s, scans := w.scans, rets := r :: w.rets }
  | .unaddr a n => do
    let (s, r) ← handleUnaddr o w.sh a n
    pure { sh := s, scans := w.scans, rets := r :: w.rets }
  | .leakCheck => pure { sh := w.sh, scans := w.scans + 1, rets := 0 :: w.rets }

/-- The requests of an application, in order. -/
def run (o : Opts) (w : World) : List Req → Res World
  | [] => pure w
  | r :: rs => do
    let w ← step o w r
    run o w rs

end Verif.Annot
