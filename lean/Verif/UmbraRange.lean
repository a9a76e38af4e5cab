/-!
# Umbra range operations (umbra/umbra_64.c, umbra/umbra_private.h)

The shadow memory of one map.  Shadow bytes are numbered by a *shadow index*: the shadow of
application address `a` starts at index `scale a`; `Umbra64Props.lean` proves that the real 64-bit
shadow address is `scale a` plus a constant on every 16 TB window and that windows do not collide.
`ex k` says whether the shadow block of application block `k` has been allocated
(the shadow bitmap, umbra/umbra_64.c:768-812), `mem` holds the bytes.

Simplifications: one thread (locks dropped); `dr_raw_mem_alloc` at the wanted address succeeds;
all addresses lie in segments the layout accepts (`umbra_add_app_segment` succeeds);
`value_size = 1`.
-/
namespace Verif.Umbra

/-- The parts of `umbra_map_t` used by the range operations: application block size
(umbra/umbra_64.c:856-901), scale as a fraction `m/g` (`g` application bytes have `m` shadow bytes;
umbra/umbra.h scale enum, umbra/umbra.c:52-69), default value and the create-on-touch flag. -/
structure Cfg where
  B : Nat
  m : Nat
  g : Nat
  dflt : UInt8
  onTouch : Bool

/-- Shadow blocks present and their bytes. -/
structure St where
  ex : Nat → Bool
  mem : Nat → UInt8

/-- Status codes returned (framework/drmf.h `drmf_status_t`). -/
inductive Err where
  | invalidParameter | invalidSize | featureNotAvailable | error
  deriving DecidableEq, Repr

/-- Result of an operation that can fail. -/
abbrev Res (α : Type) := Except Err α

/-- Size of the address space, 2^64. -/
def top : Nat := 2 ^ 64

/-- `umbra_map_scale_app_to_shadow` (umbra/umbra.c:52-60): shift down or up.  Down scales have
`m = 1` and `g = 2^shift`, up scales `g = 1` and `m = 2^shift`. -/
def scale (c : Cfg) (n : Nat) : Nat := n * c.m / c.g

/-- The control part of `APP_RANGE_LOOP` (umbra/umbra_private.h:105-122): the list of
(`start`, `iter_size`) given to the loop body, from block base `blk` on.  `e` is the closed end
`app_src_end`. -/
def piecesGo (B a e : Nat) : Nat → Nat → List (Nat × Nat)
  | 0, _ => []
  | f + 1, blk =>
    if blk < e then
      let blkEnd := blk + (B - 1)
      let start := if a > blk then a else blk
      let en := if e < blkEnd then e else blkEnd
      (start, en - start + 1) ::
        piecesGo B a e f (if blkEnd + 1 ≥ top then e else blkEnd + 1)
    else []

/-- `APP_RANGE_LOOP` from its first block, `ALIGN_BACKWARD(app_addr, app_block_size)`
(umbra/umbra_private.h:107-108).  `n + 1` rounds are more than the loop needs
(`pieces_tiles` shows none is lost). -/
def pieces (B a n : Nat) : List (Nat × Nat) :=
  piecesGo B a (a + (n - 1)) (n + 1) (a / B * B)

/-- `POINTER_OVERFLOW_ON_ADD(app_addr, app_size-1)` (umbra/umbra_64.c:948 and others);
for size 0 the subtraction wraps and the sum overflows unless the address is 0. -/
def overflows (a n : Nat) : Bool :=
  if n = 0 then decide (0 < a) else decide (a + (n - 1) ≥ top)

/-- C `memset` on shadow bytes. -/
def memset (mem : Nat → UInt8) (i n : Nat) (v : UInt8) : Nat → UInt8 :=
  fun t => if i ≤ t ∧ t < i + n then v else mem t

/-- C `memmove` into shadow bytes from a source function. -/
def memput (mem : Nat → UInt8) (i n : Nat) (src : Nat → UInt8) : Nat → UInt8 :=
  fun t => if i ≤ t ∧ t < i + n then src (t - i) else mem t

/-- Mark a block as allocated (umbra/umbra_64.c:957-975).  Fresh memory is zero-filled. -/
def allocBlock (c : Cfg) (k : Nat) (s : St) : St :=
  if s.ex k then s
  else { ex := fun j => if j = k then true else s.ex j,
         mem := memset s.mem (scale c (k * c.B)) (scale c c.B) 0 }

/-- The create-on-touch step shared by the operations (e.g. umbra/umbra_64.c:1021-1031);
`create` is the call made for a missing block. -/
def touchWith (c : Cfg) (create : Nat → Nat → UInt8 → St → Res St) (start : Nat) (s : St) :
    Res St :=
  if s.ex (start / c.B) then pure s
  else if ¬ c.onTouch then .error .invalidParameter
  else create (start / c.B * c.B) c.B c.dflt s

/-- `umbra_shadow_set_range_arch` (umbra/umbra_64.c:1085-1125); `create` is the call made for a
missing block.  Returns the state and `*shadow_size`. -/
def setRangeWith (c : Cfg) (create : Nat → Nat → UInt8 → St → Res St)
    (a n : Nat) (v : UInt8) (s : St) : Res (St × Nat) :=
  if overflows a n then .error .invalidSize
  else (pieces c.B a n).foldlM (init := (s, 0)) fun (s, sz) (start, iter) => do
    let s ← touchWith c create start s
    pure ({ s with mem := memset s.mem (scale c start) (scale c iter) v }, sz + scale c iter)

/-- `umbra_create_shadow_memory_arch` (umbra/umbra_64.c:934-985).  The inner
`umbra_shadow_set_range_arch` runs after the block was allocated, so its own create call is not
reached. -/
def create (c : Cfg) (a n : Nat) (v : UInt8) (s : St) : Res St :=
  if v = 255 then .error .featureNotAvailable
  else if overflows a n then .error .invalidSize
  else (pieces c.B a n).foldlM (init := s) fun s (start, iter) => do
    let s := allocBlock c (start / c.B) s
    match setRangeWith c (fun _ _ _ _ => .error .error) start iter v s with
    | .ok (s, _) => pure s
    | .error _ => .error .error

/-- `umbra_shadow_set_range_arch` (umbra/umbra_64.c:1085-1125). -/
def setRange (c : Cfg) (a n : Nat) (v : UInt8) (s : St) : Res (St × Nat) :=
  setRangeWith c (create c) a n v s

/-- Create-on-touch with the real create function (e.g. umbra/umbra_64.c:1021-1031). -/
def touch (c : Cfg) (start : Nat) (s : St) : Res St := touchWith c (create c) start s

/-- `umbra_read_shadow_memory_arch` (umbra/umbra_64.c:999-1040), with `bufsz` the incoming
`*shadow_size`; returns the bytes put into `buffer`. -/
def read (c : Cfg) (a n bufsz : Nat) (s : St) : Res (St × List UInt8) :=
  if bufsz < scale c n then .error .invalidSize
  else if overflows a n then .error .invalidSize
  else (pieces c.B a n).foldlM (init := (s, [])) fun (s, out) (start, iter) => do
    let s ← touch c start s
    pure (s, out ++ (List.range (scale c iter)).map fun i => s.mem (scale c start + i))

/-- `umbra_write_shadow_memory_arch` (umbra/umbra_64.c:1042-1083).  The buffer is a function of
the state because `umbra_shadow_copy_range_arch` passes a pointer into live shadow memory. -/
def write (c : Cfg) (a n bufsz : Nat) (buf : St → Nat → UInt8) (s : St) : Res (St × Nat) :=
  if bufsz < scale c n then .error .invalidSize
  else if overflows a n then .error .invalidSize
  else (pieces c.B a n).foldlM (init := (s, 0)) fun (s, done) (start, iter) => do
    let s ← touch c start s
    pure ({ s with mem := memput s.mem (scale c start) (scale c iter)
                            (fun i => buf s (done + i)) },
          done + scale c iter)

/-- `umbra_shadow_copy_range_arch` (umbra/umbra_64.c:1127-1202).  `app_dst` is advanced by the
loop, and the advanced value is used for the overlap tail.  A failing inner write is propagated
unchanged (the C code returns `DRMF_ERROR_INVALID_PARAMETER`).  Returns the state and
`*shadow_size_out`. -/
def copy (c : Cfg) (src dst n : Nat) (s : St) : Res (St × Nat) :=
  if overflows src n ∨ overflows dst n then .error .invalidSize
  else do
    let (s, tail, sz) ←
      if src < dst ∧ src + (n - 1) ≥ dst then do
        let tailSz := src + (n - 1) - dst + 1
        let (s, t) ← read c dst tailSz (scale c tailSz) s
        pure (s, some (tailSz, t), dst - src)
      else pure (s, none, n)
    let (s, d, tot) ←
      (pieces c.B src sz).foldlM (init := (s, dst, 0)) fun (s, d, tot) (start, iter) => do
        let s ← touch c start s
        let (s, w) ← write c d iter (scale c iter)
          (fun s i => s.mem (scale c start + i)) s
        pure (s, d + iter, tot + w)
    match tail with
    | none => pure (s, tot)
    | some (tailSz, t) =>
      let (s, w) ← write c (d + (d - src)) tailSz (scale c tailSz) (fun _ i => t.getD i 0) s
      pure (s, tot + w)

/-- `umbra_handle_fault` once it has found the application address `app` of the faulting shadow
address (umbra/umbra_64.c:1584-1594): create the shadow of the eight bytes from there. -/
def handleFault (c : Cfg) (app : Nat) (s : St) : Res St := create c app 8 c.dflt s

end Verif.Umbra
