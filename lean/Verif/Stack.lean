import Verif.MemRefStack

/-!
# Adjustments of the stack pointer

Model of `handle_esp_adjust`, `check_stack_swap` and `handle_push_addressable`
(drmemory/stack.c) and of the order in which they and the memory reference check run for
an instruction (drmemory/instru.c:1281-1305).  Addresses are natural numbers and do not
wrap; `SP_ADJUST_ACTION_ZERO` (which writes to the application's memory instead of the
shadow) and the generated fast path are not modelled.
-/

namespace Verif.Stack

open Verif.Define (Sh)
open Verif.MemRef (Flags Conf memRef)

/-- `esp_adjust_t`, stack_arch.h:31-41. -/
inductive Adj where
  | absolute | absolutePostpop | negative | positive | retImmed | and
  deriving DecidableEq

/-- `sp_adjust_action_t`, stack.h:60-65, without zeroing. -/
inductive Action where
  | shadow | defined
  deriving DecidableEq

/-- The build and the state of the process: the conditions of the reference check (with
`BEYOND_TOS_REDZONE_SIZE`, stack.h:50-54, as `mem.redzone`), `sizeof(void*)` and
`get_stack_region_bounds` (stack.c:101-115). -/
structure Cfg where
  mem : Conf
  ptr : Nat
  bounds : Nat → Option (Nat × Nat)

/-- `shadow_set_range`, shadow.c:605-655 (its alignment cases are in `Verif.Shadow`). -/
def setRange (sh : Nat → Sh) (lo hi : Int) (v : Sh) : Nat → Sh :=
  fun a => if lo ≤ (a : Int) ∧ (a : Int) < hi then v else sh a

/-- `check_stack_swap`, stack.c:117-160; the adjustment of the threshold is left out, the
theorems hold for every threshold. -/
def checkSwap (c : Cfg) (cur new : Nat) : Bool :=
  match c.bounds cur with
  | some (b, n) => ! decide (b ≤ new ∧ new < b + n)
  | none => true

/-- The shadow of new memory, stack.c:349-350 and 360-361. -/
def fresh : Action → Sh
  | .shadow => .undef
  | .defined => .defined

/-- The update of the shadow, stack.c:344-363. -/
def move (c : Cfg) (postpop : Bool) (act : Action) (xsp delta : Int) (sh : Nat → Sh) : Nat → Sh :=
  if delta ≠ 0 then
    let sp := xsp - c.mem.redzone
    let sh := setRange sh (if delta > 0 then sp else sp + delta)
      (if delta > 0 then sp + delta else sp) (if delta > 0 then .unaddr else fresh act)
    if c.mem.redzone > 0 then
      let sp := xsp + delta + (if postpop then (c.ptr : Int) else 0)
      setRange sh (sp - c.mem.redzone) sp (fresh act)
    else sh
  else sh

/-- `handle_esp_adjust`, stack.c:288-366; `xsp` is the stack pointer before the
instruction and `thresh` is `options.stack_swap_threshold`. -/
def adjust (c : Cfg) (thresh : Nat) (type : Adj) (val : Int) (act : Action) (xsp : Nat)
    (sh : Nat → Sh) : Nat → Sh :=
  match type with
  | .absolute | .absolutePostpop =>
    let delta := val - xsp
    if (delta > thresh ∨ delta < -(thresh : Int)) ∧ checkSwap c xsp val.toNat then sh
    else move c (type = .absolutePostpop) act xsp delta sh
  | .and =>
    let newval := xsp &&& val.toNat
    let delta := (newval : Int) - xsp
    if (delta > thresh ∨ delta < -(thresh : Int)) ∧ checkSwap c xsp newval then sh
    else move c false act xsp delta sh
  | .negative => move c false act xsp (-val) sh
  | .positive => move c false act xsp val sh
  | .retImmed => move c false act ((xsp : Int) + 4) val sh

/-- `PAGE_SIZE`. -/
def pageSize : Nat := 4096

/-- `handle_push_addressable`, stack.c:162-253, with `-check_push`: a push whose byte
`addr` was addressable, at `start`. -/
def pushAddressable (c : Cfg) (addr start : Nat) (sh : Nat → Sh) : Nat → Sh :=
  match c.bounds addr with
  | some (b, _) =>
    let sh := setRange sh (if (addr : Int) - pageSize < b then b else (addr : Int) - pageSize)
      start .unaddr
    if c.mem.redzone > 0 then
      let rz : Int := if (start : Int) - c.mem.redzone < b then start - b else c.mem.redzone
      setRange sh (start - rz) start .undef
    else sh
  | none => sh

/-! ## Instructions -/

/-- The stack pointer and the shadow memory. -/
structure M where
  sp : Nat
  sh : Nat → Sh

/-- The flags of a push: slowpath.c `check_mem_opnd` with `pushpop`. -/
def pushFlags : Flags :=
  { write := true, pushpop := true, checkDef := false, useValues := true, checkAddr := false,
    abort := false, single := 0, movs := none }

/-- The flags of a pop; a return checks that the address is defined. -/
def popFlags (checkDef : Bool) : Flags :=
  { write := false, pushpop := true, checkDef := checkDef, useValues := ! checkDef,
    checkAddr := false, abort := false, single := 0, movs := none }

/-- The flags of other references. -/
def refFlags (write checkDef : Bool) : Flags :=
  { write := write, pushpop := false, checkDef := checkDef, useValues := write,
    checkAddr := false, abort := false, single := 0, movs := none }

/-- An instruction that references memory or changes the stack pointer, with the type
`get_esp_adjust_type` (stack_x86.c:53-101) gives it. -/
inductive Ev where
  /-- `push`, `call`; `val` is the shadow of the value -/
  | push (n : Nat) (val : Nat → Sh)
  /-- `pop`, `ret` -/
  | pop (n : Nat) (checkDef : Bool)
  | sub (n : Int)
  | add (n : Int)
  /-- `mov`, `lea`, `xchg`, `cmov` to the stack pointer -/
  | mov (v : Nat)
  | and (mask : Nat)
  | leave (bp : Nat)
  | retImm (n : Nat)
  | enter (n : Nat) (val : Nat → Sh)
  | ref (write checkDef : Bool) (addr n : Nat) (val : Nat → Sh)

/-- The shadow after an instruction: the references first, then the adjustment, with the
stack pointer from before the instruction (instru.c:1281-1305). -/
def Ev.shadow (c : Cfg) (thresh : Nat) (act : Action) (m : M) : Ev → (Nat → Sh)
  | .push n val => (memRef pushFlags c.mem val (m.sp - n) n m.sh).sh
  | .pop n d => (memRef (popFlags d) c.mem (fun _ => .defined) m.sp n m.sh).sh
  | .sub n => adjust c thresh .negative n act m.sp m.sh
  | .add n => adjust c thresh .positive n act m.sp m.sh
  | .mov v => adjust c thresh .absolute v act m.sp m.sh
  | .and k => adjust c thresh .and k act m.sp m.sh
  | .leave bp =>
    adjust c thresh .absolutePostpop bp act m.sp
      (memRef (popFlags false) c.mem (fun _ => .defined) bp c.ptr m.sh).sh
  | .retImm n =>
    adjust c thresh .retImmed n act m.sp
      (memRef (popFlags true) c.mem (fun _ => .defined) m.sp c.ptr m.sh).sh
  | .enter n val =>
    adjust c thresh .negative n act m.sp
      (memRef pushFlags c.mem val (m.sp - c.ptr) c.ptr m.sh).sh
  | .ref w d a n val => (memRef (refFlags w d) c.mem val a n m.sh).sh

end Verif.Stack
