/-
The checks of GDI usage (Windows): drmemory/gdicheck.c and the part of drmemory/syscall_wingdi.c
that drives them.

Simplifications, all of them:
* the two hashtables (gdicheck.c:55-61) are functions from handles; the NULL that a lookup returns
  for a missing key is `none` (no key is ever stored with the value NULL: gdicheck.c:212, 364-367
  store only the handle of a DC that is in the table);
* the callstack kept with a DC is left out, as is the text of the reports: a report is its kind
  with the handles and threads that it names;
* each entry point is one step.  The tables have locks, but an entry that was looked up is used
  without one (gdicheck.c:227, 278, 305);
* system call numbers are resolved: an event is the call itself.  The handlers after a call run
  only if it succeeded (syscall_wingdi.c:253-258), those before it run always.
-/
namespace Verif.GdiCheck

/-- GDI_HANDLE_STOCK_MASK (wininc/ntgdihdl.h:31), obj_is_stock (gdicheck.c:167-171). -/
def stock (h : Nat) : Bool := h &&& 0x00800000 != 0

/-- The type of a handle, GDI_HANDLE_TYPE_MASK (wininc/ntgdihdl.h:29). -/
def typ (h : Nat) : Nat := h &&& 0x007f0000

/-- GDI_OBJECT_TYPE_DC, obj_is_DC (gdicheck.c:173-177). -/
def isDC (h : Nat) : Bool := typ h == 0x00010000

/-- GDI_OBJECT_TYPE_BITMAP, obj_is_bitmap (gdicheck.c:179-183). -/
def isBitmap (h : Nat) : Bool := typ h == 0x00050000

/-- obj_is_drawing_object (gdicheck.c:185-193): brush, DirectDraw object, pen, extended pen. -/
def isDrawing (h : Nat) : Bool :=
  typ h == 0x00100000 || typ h == 0x00200000 || typ h == 0x00300000 || typ h == 0x00500000

/-- per_dc_t (gdicheck.c:45-53).  The three flags are GDI_DC_ALLOC_GET, GDI_DC_ALLOC_CREATE and
GDI_DC_ALLOC_DUP_NULL (gdicheck.h:26-31); `count` is non_stock_selected, a 32-bit unsigned. -/
structure Dc where
  thread : Nat
  get : Bool
  create : Bool
  dup : Bool
  exited : Bool
  count : Nat
deriving DecidableEq, Repr

/-- The reports (gdicheck.c:233-253, 283-287, 321-341, 347-351, 369-373). -/
inductive Report where
  | mismatch (hdc : Nat)
  | otherThread (hdc cur owner : Nat) (exited : Bool)
  | inside (hdc : Nat)
  | deleting (obj : Nat)
  | exitedOwner (hdc owner : Nat)
  | twoThreads (owner cur : Nat)
  | sameBitmap (obj hdc cur : Nat)
deriving DecidableEq, Repr

/-- dc_table and selected_table (gdicheck.c:55-61), and paintDC of each thread
(syscall_wingdi.c:207-210). -/
structure St where
  dcs : Nat → Option Dc
  sel : Nat → Option Nat
  paint : Nat → Nat

/-- gdicheck_init (gdicheck.c:75-87). -/
def St.init : St := { dcs := fun _ => none, sel := fun _ => none, paint := fun _ => 0 }

/-- Assignment at one point. -/
def upd {α : Type} (f : Nat → α) (k : Nat) (v : α) : Nat → α := fun x => if x = k then v else f x

/-- non_stock_selected--, on 32 bits. -/
def dec (n : Nat) : Nat := (n + 0xffffffff) % 0x100000000

/-- non_stock_selected++, on 32 bits. -/
def inc (n : Nat) : Nat := (n + 1) % 0x100000000

/-- gdicheck_thread_exit (gdicheck.c:103-122). -/
def threadExit (t : Nat) (st : St) : St :=
  { st with
    dcs := fun h => (st.dcs h).map (fun d => if d.thread = t then { d with exited := true } else d) }

/-- gdicheck_dc_alloc (gdicheck.c:195-222): an entry that exists is kept. -/
def dcAlloc (t : Nat) (get create dup : Bool) (hdc : Nat) (st : St) : St :=
  if hdc = 0 then st else
  match st.dcs hdc with
  | some _ => st
  | none =>
    { st with
      dcs := upd st.dcs hdc (some { thread := t, get := get, create := create, dup := dup, exited := false,
                                    count := 0 }) }

/-- The three checks of gdicheck_dc_free (gdicheck.c:234-253). -/
def freeReps (t : Nat) (create : Bool) (hdc : Nat) (d : Dc) : List Report :=
  (if (d.get && create) || (d.create && !create) then [.mismatch hdc] else []) ++
  (if d.get && d.thread != t then [.otherThread hdc t d.thread d.exited] else []) ++
  (if d.count > 0 then [.inside hdc] else [])

/-- gdicheck_dc_free (gdicheck.c:224-257): selected_table is left alone. -/
def dcFree (t : Nat) (create : Bool) (hdc : Nat) (st : St) : St × List Report :=
  match st.dcs hdc with
  | none => (st, [])
  | some d => ({ st with dcs := upd st.dcs hdc none }, freeReps t create hdc d)

/-- non_stock_selected of a DC decremented if the DC is in the table (gdicheck.c:296-297). -/
def decAt (dcs : Nat → Option Dc) (hdc : Nat) : Nat → Option Dc :=
  match dcs hdc with
  | none => dcs
  | some d => upd dcs hdc (some { d with count := dec d.count })

/-- gdicheck_obj_free (gdicheck.c:259-298). -/
def objFree (t : Nat) (h : Nat) (st : St) : St × List Report :=
  if h = 0 then (st, [])
  else if isDC h then dcFree t true h st
  else if stock h then (st, [])
  else
    match st.sel h with
    | none => (st, [])
    | some hdc =>
      ({ st with
         sel := upd st.sel h none
         dcs := decAt st.dcs hdc },
       if isDrawing h then [.deleting h] else [])

/-- The checks of the thread in gdicheck_dc_select_obj (gdicheck.c:320-342). -/
def useReps (multi : Bool) (t hdc : Nat) (d : Dc) : List Report :=
  if d.dup && d.exited then [.exitedOwner hdc d.thread]
  else if multi && !d.exited && d.thread != t then [.twoThreads d.thread t]
  else []

/-- The check of bitmaps (gdicheck.c:345-351, 369-373). -/
def bitmapReps (hdc new : Nat) : Option Nat → List Report
  | none => []
  | some cur => if isBitmap new && cur != hdc then [.sameBitmap new hdc cur] else []

/-- HGDI_ERROR. -/
def hgdiError : Nat := 0xffffffff

/-- The prior object goes (gdicheck.c:353-360). -/
def dropPrior (prior : Nat) (d : Dc) (sel : Nat → Option Nat) : Dc × (Nat → Option Nat) :=
  if stock prior then (d, sel)
  else ((if d.count > 0 then { d with count := dec d.count } else d), upd sel prior none)

/-- gdicheck_dc_select_obj (gdicheck.c:300-381). -/
def selectObj (multi : Bool) (t hdc prior new : Nat) (st : St) : St × List Report :=
  match st.dcs hdc with
  | none => (st, [])
  | some d =>
    if prior = 0 ∨ prior = hgdiError then (st, useReps multi t hdc d ++ bitmapReps hdc new (st.sel new))
    else
      let p := dropPrior prior d st.sel
      if stock new then
        ({ st with
           dcs := upd st.dcs hdc (some p.1)
           sel := p.2 }, useReps multi t hdc d)
      else
        ({ st with
           dcs := upd st.dcs hdc (some { p.1 with count := inc p.1.count })
           sel := upd p.2 new (some hdc) },
         useReps multi t hdc d ++ bitmapReps hdc new (p.2 new))

/-! ## The world: GDI -/

/-- What a DC has exactly one of, and SelectObject exchanges. -/
inductive Slot where
  | bitmap | brush | pen | font
deriving DecidableEq, Repr

/-- The slot that an object goes to, from its type (wininc/ntgdihdl.h:57-84). -/
def slotOf (h : Nat) : Option Slot :=
  if typ h = 0x00050000 then some .bitmap
  else if typ h = 0x00100000 then some .brush
  else if typ h = 0x00300000 ∨ typ h = 0x00500000 then some .pen
  else if typ h = 0x000a0000 then some .font
  else none

/-- GDI_OBJECT_TYPE_REGION: SelectObject copies a region and returns its complexity (1 to 3), not a
handle. -/
def isRegion (h : Nat) : Bool := typ h == 0x00040000

/-- The stock objects that a new DC holds: the default bitmap, WHITE_BRUSH, BLACK_PEN,
SYSTEM_FONT. -/
def defaults : Slot → Nat
  | .bitmap => 0x0185000f
  | .brush => 0x01900010
  | .pen => 0x01b00017
  | .font => 0x018a0021

/-- A live DC: who got or created it, by which of the two, whether it is the copy of NULL
(CreateCompatibleDC(NULL)), whether it belongs to a window or a class (CS_OWNDC, CS_CLASSDC), so that
ReleaseDC and EndPaint leave it as it is, and what is selected. -/
structure Real where
  owner : Nat
  get : Bool
  dup : Bool
  priv : Bool
  slots : Slot → Nat

/-- The live DCs, the threads that have exited, and the DCs of BeginPaint per thread, the innermost
first. -/
structure World where
  dc : Nat → Option Real
  dead : Nat → Bool
  painting : Nat → List Nat

/-- Nothing yet. -/
def World.init : World := { dc := fun _ => none, dead := fun _ => false, painting := fun _ => [] }

/-- The calls: a DC is got or created; a live DC is handed out again (GetDC for a window with its own
DC, GetDCforBitmap with `get` false); BeginPaint and EndPaint; ReleaseDC; DeleteObject and DeleteDC;
SelectObject with its result (`none`: it failed); a thread exits.  `ok` tells whether the call did
what it was asked to. -/
inductive Ev where
  | alloc (t : Nat) (get dup priv : Bool) (hdc : Nat)
  | again (t : Nat) (get : Bool) (hdc : Nat)
  | beginPaint (t hdc : Nat) (priv : Bool)
  | endPaint (t hdc : Nat)
  | release (t hdc : Nat) (ok : Bool)
  | delete (t h : Nat) (ok : Bool)
  | select (t hdc new : Nat) (res : Option Nat)
  | exit (t : Nat)
deriving DecidableEq, Repr

/-- What the tool does at an event: syscall_check_gdi (syscall_wingdi.c:181-241) and the wrapper of
SelectObject (gdicheck.c:400-421). -/
def tool (multi : Bool) (st : St) : Ev → St × List Report
  | .alloc t get dup _ hdc => (dcAlloc t get (!get) dup hdc st, [])
  | .again t get hdc => (dcAlloc t get false false hdc st, [])
  | .beginPaint t hdc _ =>
    let s := dcAlloc t true false false hdc st
    ({ s with paint := upd s.paint t hdc }, [])
  | .endPaint t _ => dcFree t false (st.paint t) { st with paint := upd st.paint t 0 }
  | .release t hdc _ => dcFree t false hdc st
  | .delete t h _ => objFree t h st
  | .select t hdc new res => selectObj multi t hdc (res.getD 0) new st
  | .exit t => (threadExit t st, [])

/-- A new DC. -/
def newDc (t : Nat) (get dup priv : Bool) : Real :=
  { owner := t, get := get, dup := dup, priv := priv, slots := defaults }

/-- The object `new` in its slot. -/
def put (d : Real) (s : Slot) (new : Nat) : Real :=
  { d with slots := fun x => if x = s then new else d.slots x }

/-- What GDI does.  A deleted object stays in the slots where it was. -/
def gdi (w : World) : Ev → World
  | .alloc t get dup priv hdc =>
    if hdc = 0 then w else { w with dc := upd w.dc hdc (some (newDc t get dup priv)) }
  | .again _ _ _ => w
  | .beginPaint t hdc priv =>
    { w with
      dc := match w.dc hdc with
        | some _ => w.dc
        | none => upd w.dc hdc (some (newDc t true false priv))
      painting := upd w.painting t (hdc :: w.painting t) }
  | .endPaint t hdc =>
    { w with
      dc := match w.dc hdc with
        | some d => if d.priv then w.dc else upd w.dc hdc none
        | none => w.dc
      painting := upd w.painting t ((w.painting t).tail) }
  | .release _ hdc ok =>
    match w.dc hdc with
    | some d => if ok && !d.priv then { w with dc := upd w.dc hdc none } else w
    | none => w
  | .delete _ h ok => if isDC h && ok then { w with dc := upd w.dc h none } else w
  | .select _ hdc new res =>
    match w.dc hdc, slotOf new, res with
    | some d, some s, some _ => { w with dc := upd w.dc hdc (some (put d s new)) }
    | _, _, _ => w
  | .exit t => { w with dead := upd w.dead t true }

/-- What GDI can do: a new DC has a handle that is not in use, and a living owner; a handle that is
handed out again is in use; EndPaint is called for the innermost BeginPaint; SelectObject succeeds on a
live DC only and returns what it replaces, for a region a small number. -/
def enabled (w : World) : Ev → Prop
  | .alloc t _ _ _ hdc => w.dead t = false ∧ w.dc hdc = none
  | .again _ _ hdc => w.dc hdc ≠ none
  | .beginPaint t hdc _ => hdc ≠ 0 ∧ w.dead t = false ∧ (w.dc hdc = none ∨ ∃ d, w.dc hdc = some d ∧ d.priv = true)
  | .endPaint t hdc => (w.painting t).head? = some hdc
  | .select _ hdc new (some p) => ∃ d, w.dc hdc = some d ∧
      ((∃ s, slotOf new = some s ∧ p = d.slots s) ∨ (isRegion new = true ∧ 1 ≤ p ∧ p ≤ 3))
  | _ => True

/-- A run from the beginning: the world, the tool, and all reports. -/
inductive Run (multi : Bool) : List Ev → World → St → List Report → Prop
  | nil : Run multi [] World.init St.init []
  | snoc {es w st rs} (e : Ev) : Run multi es w st rs → enabled w e →
      Run multi (es ++ [e]) (gdi w e) (tool multi st e).1 (rs ++ (tool multi st e).2)

end Verif.GdiCheck
