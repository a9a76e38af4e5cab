import Verif.Mapping
/-
Model of what the tool does to the shadow of the stack when the kernel moves a thread elsewhere: signals
and the alternate signal stack (Unix), callbacks, exceptions and `NtContinue` (Windows), and when the
tool's own allocator runs on the application's stack: drmemory/alloc_drmem.c:1207-1338, 1378-1657.

Simplifications, valid for the whole file:
* the shadow is a function from bytes to three states, as in `Verif.Mapping`; addresses do not wrap;
* `-shadowing` is on; `bounds` is `-check_stack_bounds`, which `-check_uninitialized` implies
  (drmemory/options.c:618-626); `rz` is `BEYOND_TOS_REDZONE_SIZE` (drmemory/stack.h:50-54): 128 on 64-bit
  Unix, else 0;
* the stack pointer that `dr_get_mcontext` gives in the event is the new one.
-/

namespace Verif.Transfer
open Verif.Mapping (Sh Shadow setRange)

/-- `MAX_SIGNAL_FRAME_SIZE` (drmemory/alloc_drmem.c:47). -/
def maxFrame : Nat := 1024

/-- `TYPICAL_STACK_MIN_SIZE` (drmemory/stack.h:47). -/
def stackMin : Nat := 32 * 1024

/-! ## Signals -/

/-- The walk in drmemory/alloc_drmem.c:1590-1596: at most `n` bytes, up to the first that is
addressable, become defined.  Also returns where it ended. -/
def walk : Nat → Shadow → Nat → Shadow × Nat
  | 0, sh, sp => (sh, sp)
  | n + 1, sh, sp =>
    if sh sp = .unaddr then walk n (setRange sh sp (sp + 1) .defined) (sp + 1) else (sh, sp)

/-- The alternate stack: its highest address and its size (`sigaltstack`, `sigaltsize`). -/
abbrev Alt := Option (Nat × Nat)

/-- Is this stack pointer on the alternate stack (drmemory/alloc_drmem.c:1584-1586, 1615-1616)? -/
def onAlt (alt : Alt) (sp : Nat) : Option Nat :=
  match alt with
  | none => none
  | some (base, size) => if sp < base ∧ base - sp < size then some base else none

/-- Where the walk stops at the latest (drmemory/alloc_drmem.c:1583-1588). -/
def stopAt (alt : Alt) (sp : Nat) : Nat :=
  match onAlt alt sp with
  | some base => min (sp + maxFrame) base
  | none => sp + maxFrame

/-- drmemory/alloc_drmem.c:1552-1602 `handle_signal_delivery`, called from :1634-1637. -/
def deliver (bounds : Bool) (rz : Nat) (alt : Alt) (sh : Shadow) (sp : Nat) : Shadow :=
  if bounds then
    let sh1 := (walk (stopAt alt sp - sp) sh sp).1
    if 0 < rz then setRange sh1 (sp - rz) sp .undef else sh1
  else sh

/-- drmemory/alloc_drmem.c:1604-1627 `handle_signal_return`, called from :1634-1639. -/
def sigreturn (bounds : Bool) (alt : Alt) (sh : Shadow) (sp newSp : Nat) : Shadow :=
  if bounds then
    if sp < newSp ∧ newSp - sp < maxFrame then setRange sh sp newSp .unaddr
    else
      match onAlt alt sp with
      | some base => setRange sh sp base .unaddr
      | none => sh
  else sh

/-! ## `sigaltstack` -/

/-- The structure passed to the call: `ss_sp`, `ss_flags`, `ss_size`. -/
structure Stk where
  sp : Nat
  flags : Nat
  size : Nat
deriving DecidableEq, Repr

/-- What the tool remembers of the alternate stack (`cls_drmem_t`), and the shadow. -/
structure Sig where
  alt : Alt
  prev : Alt
  sh : Shadow

/-- `SS_DISABLE` of the Linux headers. -/
def ssDisable : Nat := 2

/-- drmemory/alloc_drmem.c:1481-1514 `client_pre_syscall`: `none` if the structure cannot be read. -/
def sigaltPre (bounds : Bool) (s : Sig) (arg : Option Stk) : Sig :=
  match arg with
  | none =>
    { s with
      prev := s.alt }
  | some stk =>
    if stk.flags = ssDisable then
      { s with
        prev := s.alt
        alt := none }
    else
      { prev := s.alt
        alt := some (stk.sp + stk.size, stk.size)
        sh := setRange s.sh stk.sp (stk.sp + stk.size) (if bounds then .defined else .unaddr) }

/-- drmemory/alloc_drmem.c:1526-1535 `client_post_syscall`. -/
def sigaltPost (s : Sig) (ok : Bool) : Sig :=
  if ok then s
  else
    { s with
      alt := s.prev }

/-- The whole call: its argument and whether it succeeds. -/
def sigaltCall (bounds : Bool) (s : Sig) (c : Option Stk × Bool) : Sig :=
  sigaltPost (sigaltPre bounds s c.1) c.2

/-! ## Windows -/

/-- Is this below the end of the stack, if that is known (drmemory/alloc_drmem.c:1226)? -/
def inside (stop : Option Nat) (sp : Nat) : Bool :=
  match stop with
  | none => true
  | some e => decide (sp < e)

/-- The walk in drmemory/alloc_drmem.c:1226-1240, `g` bytes at a time (:1232-1235): `left` is what is
left of `stackMin`, `stop` the end of the stack if it is known. -/
def kiWalk (g : Nat) (stop : Option Nat) : Nat → Shadow → Nat → Shadow × Nat
  | 0, sh, sp => (sh, sp)
  | n + 1, sh, sp =>
    if inside stop sp = true ∧ sh sp = .unaddr then
      kiWalk g stop n (setRange sh sp (sp + g) .defined) (sp + g)
    else (sh, sp)

/-- drmemory/alloc_drmem.c:1207-1257 `handle_Ki`: the shadow, and where the stack was before
(`pre_callback_esp`).  `base` is `StackBase`; `g` is 4 if four bytes share a state (`MAP_4B_TO_1B`), else
1.  In a release build the walk ends after `stackMin` bytes (:1236-1239). -/
def handleKi (bounds : Bool) (g base : Nat) (sh : Shadow) (sp : Nat) : Shadow × Nat :=
  if bounds then
    kiWalk g (if sp < base ∧ base - sp < stackMin then some base else none) (stackMin / g) sh sp
  else (sh, sp)

/-- drmemory/alloc_drmem.c:1266-1291 `handle_cbret`: `pre` is the parent's `pre_callback_esp`. -/
def cbret (bounds : Bool) (sh : Shadow) (sp pre : Nat) : Shadow :=
  if bounds then setRange sh sp pre .unaddr else sh

/-- drmemory/alloc_drmem.c:1378-1396 `adjust_stack_to_context`. -/
def adjust (thresh : Nat) (sh : Shadow) (sp cxt : Nat) : Shadow :=
  if cxt < sp then
    if sp - cxt < thresh then setRange sh cxt sp .undef else sh
  else if cxt - sp < thresh then setRange sh sp cxt .unaddr
  else sh

/-- The general-purpose registers. -/
inductive Reg where
  | ax | cx | dx | bx | sp | bp | si | di | r8 | r9 | r10 | r11 | r12 | r13 | r14 | r15
deriving DecidableEq, Repr

/-- The registers whose shadow is taken from the context by `NtContinue`
(drmemory/alloc_drmem.c:1423-1448). -/
def continueRegs (x64 control integer : Bool) : List Reg :=
  (if control then [.sp] ++ (if x64 then [] else [.bp]) else []) ++
  (if integer then [.ax, .cx, .dx, .bx] ++ (if x64 then [.bp] else []) ++ [.si, .di] else [])

/-- drmemory/alloc_drmem.c:1414-1455 `NtContinue`: the shadow of the registers (`rs`) is read from the
context (`cr`), then the stack is adjusted.  `flags` are the two parts of the context. -/
def ntContinue (x64 : Bool) (thresh : Nat) (rs : Reg → Sh) (cr : Reg → Sh) (sh : Shadow)
    (sp cxt : Nat) (control integer : Bool) : (Reg → Sh) × Shadow :=
  (fun r => if r ∈ continueRegs x64 control integer then cr r else rs r,
   if control then adjust thresh sh sp cxt else sh)

/-! ## The tool's allocator on the application's stack -/

/-- drmemory/alloc_drmem.c:1311-1322 `client_stack_alloc`. -/
def stackAlloc (rz : Nat) (sh : Shadow) (a b : Nat) (dfd : Bool) : Shadow :=
  let sh1 := setRange sh a b (if dfd then .defined else .undef)
  if 0 < rz then setRange sh1 (a - rz) (b - rz) .undef else sh1

/-- drmemory/alloc_drmem.c:1324-1338 `client_stack_dealloc`. -/
def stackDealloc (rz : Nat) (sh : Shadow) (a b : Nat) : Shadow :=
  if 0 < rz then setRange (setRange sh a b .undef) (a - rz) (b - rz) .unaddr
  else setRange sh a b .unaddr

end Verif.Transfer
