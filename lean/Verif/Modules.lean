import Verif.Regions

/-!
# The module tree of common/callstack.c

`callstack_module_load/unload` keep the regions of the loaded modules in an interval tree
(`Verif.RB`), together with caches for `module_lookup` and `is_in_module`.  A pointer to a
`modname_info_t` is represented by the module's path (a number): the table `modname_table` is keyed
by path and never loses an entry (common/callstack.c:211, 2741).  `NULL` is 0.  Locks, logging and
the bounds of the tool's own libraries (common/callstack.c:2874-2883) are left out.  A result of
`none` means that a tree operation would follow a `NIL` child or that `segments[0]` does not exist.
-/
namespace Verif.Cs
open Verif.RB Verif.Regions

/-- The fields of `module_data_t` used here: `full_path`, `contiguous`, `start`, `end` and
`segments` (common/callstack.c:2869-2907). -/
structure Mod where
  path : Nat
  contiguous : Bool
  start : Nat
  stop : Nat
  segs : List (Nat × Nat)
  deriving DecidableEq, Repr

/-- The static variables of common/callstack.c:230-246. -/
structure Tr where
  tree : Tree := .nil
  minStart : Nat := 0
  maxEnd : Nat := 0
  lastStart : Nat := 0
  lastSize : Nat := 0
  lastInfo : Nat := 0
  lastHit : Nat := 0
  lastMiss : Nat := 0

/-- `callstack_module_add_region` (common/callstack.c:2810-2830). -/
def addRegion (d : Bool) (info : Nat) (s : Tr) (r : Nat × Nat) : Option Tr :=
  (ins d ⟨r.1, sub64 r.2 r.1, info⟩ s.tree).map fun t =>
    { s with
      tree := t
      minStart := if r.1 < s.minStart ∨ s.minStart = 0 then r.1 else s.minStart
      maxEnd := if r.2 > s.maxEnd then r.2 else s.maxEnd }

/-- `callstack_module_remove_region` (common/callstack.c:2832-2845). -/
def removeRegion (s : Tr) (r : Nat × Nat) : Option Tr :=
  match find r.1 s.tree with
  | none => some s
  | some n => (delete n.base s.tree).map fun t => { s with tree := t }

/-- The loop over `segments[1..]` (common/callstack.c:2897-2907), `b` being `seg_base` and `e` the
end of the previous segment; the regions handed to `callstack_module_add_region` in this order. -/
def regionsGo (b e : Nat) : List (Nat × Nat) → List (Nat × Nat)
  | [] => [(b, e)]
  | (s', e') :: rest => if s' > e then (b, e) :: regionsGo s' e' rest else regionsGo b e' rest

/-- The regions of a module (common/callstack.c:2888-2908; the same loop at 2935-2952). -/
def regions (m : Mod) : Option (List (Nat × Nat)) :=
  if m.contiguous then some [(m.start, m.stop)]
  else match m.segs with
    | [] => none
    | (s, e) :: rest => some (regionsGo s e rest)

/-- `callstack_module_load` after `add_new_module` (common/callstack.c:2884-2915). -/
def loadTree (d : Bool) (m : Mod) (s : Tr) : Option Tr :=
  (regions m).bind fun rs => (rs.foldlM (addRegion d m.path) s).map fun s =>
    { s with lastHit := 0, lastMiss := 0 }

/-- `callstack_module_unload` (common/callstack.c:2918-2972). -/
def unloadTree (m : Mod) (s : Tr) : Option Tr :=
  (regions m).bind fun rs => (rs.foldlM removeRegion s).map fun s =>
    { s with
      maxEnd := match maxNode s.tree with
        | some n => add64 n.base n.size
        | none => 0
      minStart := match minNode s.tree with
        | some n => n.base
        | none => 0
      lastStart := 0, lastHit := 0, lastMiss := 0 }

/-- `module_lookup` (common/callstack.c:2974-3008): the start, size and name of the region. -/
def moduleLookup (pc : Nat) (s : Tr) : Tr × Option (Nat × Nat × Nat) :=
  if s.lastStart ≠ 0 ∧ pc ≥ s.lastStart ∧ pc < add64 s.lastStart s.lastSize then
    (s, some (s.lastStart, s.lastSize, s.lastInfo))
  else match inNode pc s.tree with
    | some n =>
      ({ s with lastStart := n.base, lastSize := n.size, lastInfo := n.client },
        some (n.base, n.size, n.client))
    | none => (s, none)

/-- `ALIGN_BACKWARD(pc, PAGE_SIZE)` (common/callstack.c:3022). -/
def page (pc : Nat) : Nat := pc / 4096 * 4096

/-- `is_in_module` (common/callstack.c:3011-3042). -/
def isInModule (pc : Nat) (s : Tr) : Tr × Bool :=
  if pc < s.minStart ∨ pc ≥ s.maxEnd then (s, false)
  else if page pc = s.lastMiss then (s, false)
  else if page pc = s.lastHit then (s, true)
  else if (inNode pc s.tree).isSome then ({ s with lastHit := page pc }, true)
  else ({ s with lastMiss := page pc }, false)

end Verif.Cs
