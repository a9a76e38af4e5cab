import Verif.AllocProps
import Verif.Stack

/-!
# The shadow of the heap

Model of what the calls of the replacement allocator (`Verif.Alloc`) do to the shadow memory:
`client_handle_malloc`, `client_handle_free` and `client_handle_realloc`
(drmemory/alloc_drmem.c), called from `notify_client_alloc`, `replace_free_common` and
`replace_realloc_common` (common/alloc_replace.c), and the shadow effects of system calls
that change mappings (`client_handle_mmap`, `client_handle_munmap`,
`client_handle_mremap`).  Only the option `shadowing` is modelled: no pattern mode, no
delayed frees of the wrapped allocator.  Addresses are natural numbers and do not wrap.
-/

namespace Verif.HeapShadow

open Verif.Define (Sh)
open Verif.MemRef (Conf memRef)
open Verif.Stack (refFlags)
open Verif.Al

/-- `shadow_set_range`, drmemory/shadow.c:605-655; a range whose start is not below its end
is empty.  With one shadow value per four bytes (`map4`) the values of the dwords that
it touches change (`shadow_set_byte`, shadow.c:502-510). -/
def setRange (map4 : Bool) (sh : Nat → Sh) (lo hi : Nat) (v : Sh) : Nat → Sh :=
  fun a =>
    if map4 then if lo < hi ∧ lo / 4 ≤ a / 4 ∧ a / 4 ≤ (hi - 1) / 4 then v else sh a
    else if lo ≤ a ∧ a < hi then v else sh a

/-- `shadow_copy_range`, drmemory/shadow.c:660-730, for ranges on which it works as
documented (`C11_copy_range_partial`; `C52_copy_partial` shows that only such ranges occur). -/
def copyRange (map4 : Bool) (sh : Nat → Sh) (old new size : Nat) : Nat → Sh :=
  fun a =>
    if map4 then
      if 0 < size ∧ new / 4 ≤ a / 4 ∧ a / 4 ≤ (new + size - 1) / 4 then sh (a - new / 4 * 4 + old / 4 * 4)
      else sh a
    else if new ≤ a ∧ a < new + size then sh (old + (a - new)) else sh a

/-- The fields of `malloc_info_t` that matter (common/alloc.h:165-185). -/
structure Info where
  base : Nat
  req : Nat
  zeroed : Bool

/-- `client_handle_malloc`, drmemory/alloc_drmem.c:517-556. -/
def handleMalloc (map4 : Bool) (m : Info) (sh : Nat → Sh) : Nat → Sh :=
  setRange map4 sh m.base (m.base + m.req) (if m.zeroed then .defined else .undef)

/-- `client_handle_free`, drmemory/alloc_drmem.c:770-780. -/
def handleFree (map4 : Bool) (m : Info) (sh : Nat → Sh) : Nat → Sh :=
  setRange map4 sh m.base (m.base + m.req) .unaddr

/-- `ALIGN_FORWARD(x, 4)`. -/
def align4 (x : Nat) : Nat := (x + 3) / 4 * 4

/-- The part of the new block, alloc_drmem.c:575-586. -/
def reallocNew (map4 : Bool) (old new : Info) (sh : Nat → Sh) : Nat → Sh :=
  if new.req > old.req then
    let sh := if new.base ≠ old.base then copyRange map4 sh old.base new.base old.req else sh
    setRange map4 sh (new.base + old.req) (new.base + new.req)
      (if new.zeroed then .defined else .undef)
  else if new.base ≠ old.base then copyRange map4 sh old.base new.base new.req
  else sh

/-- The front of the old block, alloc_drmem.c:588-598. -/
def reallocFront (map4 : Bool) (old new : Info) (sh : Nat → Sh) : Nat → Sh :=
  if new.base > old.base then
    setRange map4 sh old.base
      (if new.base < old.base + old.req then new.base else old.base + old.req) .unaddr
  else sh

/-- The tail of the old block, alloc_drmem.c:600-620. -/
def reallocTail (map4 : Bool) (old new : Info) (sh : Nat → Sh) : Nat → Sh :=
  if new.base + new.req < old.base + old.req then
    let start :=
      if new.base + new.req < old.base then old.base
      else if map4 then align4 (new.base + new.req) else new.base + new.req
    setRange map4 sh start (old.base + old.req) .unaddr
  else sh

/-- `client_handle_realloc`, drmemory/alloc_drmem.c:558-630. -/
def handleRealloc (map4 : Bool) (old new : Info) (sh : Nat → Sh) : Nat → Sh :=
  reallocTail map4 old new (reallocFront map4 old new (reallocNew map4 old new sh))

/-- `chunk_request_size` of the header of a block (common/alloc_replace.c:766-770). -/
def reqOf (s : St) (p : Nat) : Nat :=
  match s.hdr p with
  | none => 0
  | some h => h.req

/-- The shadow after a call of the allocator that went from `s` to `s'` and returned `r`:
`notify_client_alloc` (alloc_replace.c:772-788), `replace_free_common` (1938-2086, the callback
is at 2053-2057), `replace_realloc_common` (2098-2204: 2105-2131 are the first three cases,
the callbacks are at 2163 and 2199, with `header_to_info` before and after).  A store
by the application is a write of one byte that is initialised if `sv`. -/
def callShadow (c : Cfg) (mc : Conf) (s : St) (op : Op) (sv : Bool) (s' : St) (r : Nat)
    (sh : Nat → Sh) : Nat → Sh :=
  match op with
  | .alloc _ _ _ zero => if r = 0 then sh else handleMalloc mc.map4 ⟨r, reqOf s' r, zero⟩ sh
  | .free _ p => if isLive c s p then handleFree mc.map4 ⟨p, reqOf s p, false⟩ sh else sh
  | .realloc _ p size f =>
    if p = 0 then if r = 0 then sh else handleMalloc mc.map4 ⟨r, reqOf s' r, f.zero⟩ sh
    else if size = 0 ∧ f.allowEmpty = false then
      if isLive c s p then handleFree mc.map4 ⟨p, reqOf s p, false⟩ sh else sh
    else if r = 0 then sh
    else handleRealloc mc.map4 ⟨p, reqOf s p, false⟩ ⟨r, reqOf s' r, f.zero⟩ sh
  | .store a _ =>
    (memRef (refFlags true false) mc (fun _ => if sv then .defined else .undef) a 1 sh).sh

/-- What the application does: a call of the allocator or a store (`sv`: whether the value
is initialised), or a read of `n` bytes that checks definedness or not. -/
inductive Ev where
  | op (o : Op) (sv : Bool)
  | read (checkDef : Bool) (a n : Nat)

/-- The state of the allocator and the shadow after an event, and the result of the call. -/
def step (c : Cfg) (mc : Conf) (s : St) (sh : Nat → Sh) : Ev → Option (St × (Nat → Sh) × Nat)
  | .op o sv =>
    match Al.step c s o with
    | none => none
    | some (s', r, _) => some (s', callShadow c mc s o sv s' r sh, r)
  | .read d a n => some (s, (memRef (refFlags false d) mc (fun _ => .defined) a n sh).sh, 0)

/-! ## System calls that change mappings -/

/-- `client_handle_mmap`, drmemory/alloc_drmem.c:1087-1135, on Linux: an anonymous mapping
outside of the heap routines is defined (the kernel zeroes it). -/
def handleMmap (base size : Nat) (anon : Bool) (inHeap : Bool) (sh : Nat → Sh) : Nat → Sh :=
  if anon ∧ inHeap then sh else setRange false sh base (base + size) .defined

/-- `client_handle_munmap`, drmemory/alloc_drmem.c:1137-1157. -/
def handleMunmap (base size : Nat) (sh : Nat → Sh) : Nat → Sh :=
  setRange false sh base (base + size) .unaddr

/-- `client_handle_mremap`, drmemory/alloc_drmem.c:1182-1203. -/
def handleMremap (oldBase oldSize newBase newSize : Nat) (image : Bool) (sh : Nat → Sh) : Nat → Sh :=
  let sh := copyRange false sh oldBase newBase (if newSize < oldSize then newSize else oldSize)
  if newSize < oldSize then setRange false sh (oldBase + newSize) (oldBase + oldSize) .unaddr
  else setRange false sh (newBase + oldSize) (newBase + newSize) (if image then .defined else .undef)

end Verif.HeapShadow
