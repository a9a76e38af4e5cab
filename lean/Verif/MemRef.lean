import Verif.Define

/-
Model of the check of a memory reference, `handle_mem_ref_internal` in
drmemory/slowpath.c:1424-1747 (shadow mode, release build): which bytes are
reported, in which ranges, and what becomes of the shadow memory.

Addresses are natural numbers: the code asserts that the reference does not wrap
(slowpath.c:1463).  The size is below 2^32 (`uint i`, slowpath.c:1431).

Not modelled: the exceptions themselves (`check_unaddressable_exceptions`,
`check_undefined_exceptions`), which are inputs, with the mark that the second one
leaves on the destination of a copy through a vector register;
`handle_push_addressable` (slowpath.c:1638-1647), which looks for a stack swap;
pattern mode (slowpath.c:1449-1450).
-/

namespace Verif.MemRef

open Verif.Define (Sh)

/-- The flags of a reference, drmemory/slowpath.h:66-86.  `single` is 1, 2 or 4 for
`MEMREF_SINGLE_BYTE`, `_WORD`, `_DWORD`, else 0; `movs` is `comb->movs_addr` with
`MEMREF_MOVS`. -/
structure Flags where
  write : Bool
  pushpop : Bool
  checkDef : Bool
  useValues : Bool
  checkAddr : Bool
  abort : Bool
  single : Nat
  movs : Option Nat
deriving DecidableEq, Repr

/-- The surroundings: `BEYOND_TOS_REDZONE_SIZE` (drmemory/stack.h:51), option
-leave_uninit, `MAP_4B_TO_1B` (drmemory/shadow.h:29), and the two kinds of
exceptions. -/
structure Conf where
  redzone : Nat
  leaveUninit : Bool
  map4 : Bool
  unaddrExc : Nat → Bool
  undefExc : Nat → Bool

/-- `bad_type`. -/
inductive Kind where
  | unaddr | undef
deriving DecidableEq, Repr

/-- A call of `report_unaddressable_access` or `report_undefined_read`. -/
structure Report where
  kind : Kind
  start : Nat
  size : Nat
deriving DecidableEq, Repr

/-- The shadow memory, the reports so far, the local variables of
slowpath.c:1431-1437, and the calls of `map_src_to_dst` (index and shadow).
`stop` is the `break`. -/
structure St where
  sh : Nat → Sh
  reports : List Report
  found : Bool
  kind : Kind
  badAddr : Nat
  badEnd : Nat
  good : Bool
  mapped : List (Nat × Sh)
  stop : Bool

/-- `memref_idx`, slowpath.c:1412-1418. -/
def memrefIdx (f : Flags) (i : Nat) : Nat := if f.single = 0 then i else i % f.single

/-- `shadow_set_byte`; with one shadow byte per four bytes all four change. -/
def St.set (c : Conf) (s : St) (a : Nat) (v : Sh) : St :=
  { s with sh := fun x => if (if c.map4 then x / 4 = a / 4 else x = a) then v else s.sh x }

/-- The report of the range gathered so far. -/
def St.flush (s : St) : St :=
  { s with reports := s.reports ++ [⟨s.kind, s.badAddr, s.badEnd + 1 - s.badAddr⟩] }

/-- A new range, slowpath.c:1558-1563 and 1608-1613. -/
def St.start (s : St) (k : Kind) (a : Nat) : St :=
  { s with found := true, kind := k, badAddr := a, badEnd := a, good := false }

/-- `MEMREF_ABORT_AFTER_SIZE`, slowpath.h:85. -/
def abortAfter : Nat := 4

/-- A bad byte `a`, slowpath.c:1532-1577 (unaddressable) and 1588-1614 (undefined). -/
def St.bad (f : Flags) (s : St) (k : Kind) (a : Nat) : St :=
  if s.found then
    if s.kind ≠ k then
      if s.kind = .unaddr ∧ f.abort then { s.flush with found := false, stop := true }
      else s.flush.start k a
    else if s.badEnd < a - 1 ∨ (k = .unaddr ∧ f.abort ∧ s.badEnd + 1 - s.badAddr ≥ abortAfter) then
      if k = .unaddr ∧ f.abort then { s.flush with found := false, stop := true }
      else s.flush.start k a
    else { s with badEnd := a, good := false }
  else s.start k a

/-- The value a write stores, slowpath.c:1503-1504, 1656-1657 and 1661-1669, without
`MEMREF_MOVS`; `val` is `comb->dst`. -/
def value (f : Flags) (val : Nat → Sh) (i : Nat) : Sh :=
  if f.useValues then val (memrefIdx f i) else .defined

/-- An unaddressable byte, slowpath.c:1488-1582. -/
def stepUnaddr (f : Flags) (c : Conf) (val : Nat → Sh) (addr i : Nat) (s : St) : St :=
  let a := addr + i
  if f.pushpop ∧ f.write then
    let s := s.set c a (value f val i)
    if c.redzone > 0 then s.set c (a - c.redzone) .undef else s
  else if c.unaddrExc a then s
  else s.bad f .unaddr a

/-- A byte that is read, slowpath.c:1583-1635. -/
def stepRead (f : Flags) (c : Conf) (addr i : Nat) (s : St) : St :=
  let a := addr + i
  let s :=
    if s.sh a = .undef then
      if ¬ c.undefExc a ∧ f.checkDef then
        let s := s.bad f .undef a
        if s.stop ∨ c.leaveUninit then s else s.set c a .defined
      else s
    else if f.checkDef ∧ s.sh a = .bitlevel then { s with good := false }
    else s
  if s.stop then s
  else if f.pushpop then
    if c.redzone > 0 then (s.set c a .undef).set c (a - c.redzone) .unaddr
    else s.set c a .unaddr
  else s

/-- `newval`, slowpath.c:1661-1669. -/
def newVal (f : Flags) (val : Nat → Sh) (i : Nat) (sh : Nat → Sh) : Sh :=
  match f.movs with
  | some m => sh (m + i)
  | none => value f val i

/-- A byte that is written, slowpath.c:1636-1683. -/
def stepWrite (f : Flags) (c : Conf) (val : Nat → Sh) (addr i : Nat) (s : St) : St :=
  let a := addr + i
  if f.pushpop ∧ f.write ∧ c.redzone > 0 then
    (s.set c a (value f val i)).set c (a - c.redzone) .undef
  else
    let new := newVal f val i s.sh
    if s.sh a = .bitlevel ∨ new = .bitlevel then s
    else if s.sh a = new then s
    else s.set c a new

/-- The distinction by the shadow and the kind of reference, slowpath.c:1488, 1583 and
1636. -/
def core (f : Flags) (c : Conf) (val : Nat → Sh) (addr i : Nat) (s : St) : St :=
  if s.sh (addr + i) = .unaddr then stepUnaddr f c val addr i s
  else if ¬ f.write ∧ ¬ f.checkAddr then stepRead f c addr i s
  else if ¬ f.checkAddr then stepWrite f c val addr i s
  else s

/-- The body of the loop up to slowpath.c:1688: `core`, then the values of a read. -/
def step (f : Flags) (c : Conf) (val : Nat → Sh) (addr i : Nat) (s : St) : St :=
  let sv := s.sh (addr + i)
  let s := core f c val addr i s
  if s.stop then s
  else if ¬ f.write ∧ f.useValues then
    { s with mapped := s.mapped ++ [(memrefIdx f i, sv)] }
  else s

/-- `ALIGN_FORWARD(x, 4)`. -/
def alignForward4 (x : Nat) : Nat := (x + 3) / 4 * 4

/-- The loop, slowpath.c:1485-1699; the first argument bounds the number of rounds. -/
def loop (f : Flags) (c : Conf) (val : Nat → Sh) (addr sz : Nat) : Nat → Nat → St → St
  | 0, _, s => s
  | n + 1, i, s =>
    if i < sz then
      let s := step f c val addr i s
      if s.stop then s
      else if c.map4 then
        -- 1689-1698: one look at every shadow byte
        if addr + 4 ≥ 2 ^ 64 then s
        else
          let j := alignForward4 (addr + i + 1) - addr
          let s := if s.badEnd = addr + i
            then { s with badEnd := addr + (if j > sz then sz else j) - 1 } else s
          loop f c val addr sz n (j + 1) s
      else loop f c val addr sz n (i + 1) s
    else s

/-- The state before the loop. -/
def St.init (sh : Nat → Sh) : St :=
  { sh := sh, reports := [], found := false, kind := .undef, badAddr := 0, badEnd := 0,
    good := true, mapped := [], stop := false }

/-- `handle_mem_ref_internal`, slowpath.c:1424-1747: the reports are `reports`, the
result is `good`. -/
def memRef (f : Flags) (c : Conf) (val : Nat → Sh) (addr sz : Nat) (sh : Nat → Sh) : St :=
  let s := loop f c val addr sz sz 0 (St.init sh)
  if s.found then s.flush else s

end Verif.MemRef
