/-!
# Umbra address translation on 64-bit Linux

Addresses are naturals below `2^64`; every wrapping operation of the C code is written with an
explicit `% W`.
-/
namespace Verif.Umbra64

/-- One past the largest address. -/
def W : Nat := 2 ^ 64

/-- `umbra_map_scale_t` (umbra/umbra.h:92-98). -/
inductive Scale | down8 | down4 | down2 | same | up2
  deriving DecidableEq, Repr

/-- `map->mask + 1` = `segment_mask | seg_index_mask` + 1 with `NUM_SEG_BITS` = 40 and
`NUM_SEGMENTS` = 16 (umbra/umbra_64.c:245, 263-283, 872). -/
def unit : Nat := 2 ^ 44

/-- `map_disp[]`, UNIX branch (umbra/umbra_64.c:314-338); `alt` says that
`umbra_address_space_init` found the alternative PIE segment in use (747-757). -/
def baseDisp (alt : Bool) : Scale → Nat
  | .down8 => 0x0000900000000000
  | .down4 => 0x0000440000000000
  | .down2 => 0x0000220000000000
  | .same => 0x0000120000000000
  | .up2 => if alt then 0x58 * 2 ^ 36 else 0x48 * 2 ^ 36

/-- `umbra_map_scale_shadow_to_app` (umbra/umbra.c:61-69). -/
def unscale (sc : Scale) (v : Nat) : Nat :=
  match sc with
  | .down8 => v * 8 % W
  | .down4 => v * 4 % W
  | .down2 => v * 2 % W
  | .same => v
  | .up2 => v / 2

/-- `map->disp` of map number `idx` (umbra/umbra_64.c:881-890). -/
def disp (alt : Bool) (sc : Scale) (idx : Nat) : Nat :=
  if idx > 0 then (baseDisp alt sc + unscale sc (idx * 2 * 16 * 2 ^ 40)) % W else baseDisp alt sc

/-- A map: its scale and its displacement (umbra/umbra_private.h:45-76, the two fields that
matter here). -/
structure Map where
  sc : Scale
  disp : Nat

/-- The map created with index `idx`. -/
def mkMap (alt : Bool) (sc : Scale) (idx : Nat) : Map := ⟨sc, disp alt sc idx⟩

/-- `umbra_xl8_app_to_shadow` (umbra/umbra_64.c:434-464). -/
def toShadow (m : Map) (pc : Nat) : Nat :=
  let addr := (pc % unit + m.disp) % W
  let addr := if pc ≠ 0 ∧ addr = m.disp then (addr + unit) % W else addr
  match m.sc with
  | .down8 => addr / 8
  | .down4 => addr / 4
  | .down2 => addr / 2
  | .same => addr
  | .up2 => addr * 2 % W

/-- The translation inserted inline into the application's code, which lacks the special case
(umbra/umbra_64.c:1285-1341). -/
def toShadowInline (m : Map) (pc : Nat) : Nat :=
  let addr := (pc % unit + m.disp) % W
  match m.sc with
  | .down8 => addr / 8
  | .down4 => addr / 4
  | .down2 => addr / 2
  | .same => addr
  | .up2 => addr * 2 % W

/-- `umbra_xl8_shadow_to_app` (umbra/umbra_64.c:469-493). -/
def toApp (m : Map) (pc : Nat) : Nat :=
  let addr := match m.sc with
    | .down8 => pc * 8 % W
    | .down4 => pc * 4 % W
    | .down2 => pc * 2 % W
    | .same => pc
    | .up2 => pc / 2
  (addr + W - m.disp) % W

/-- `segment_overlap` (umbra/umbra_64.c:498-506); the assertion is not modelled. -/
def segOverlap (b1 e1 b2 e2 : Nat) : Bool :=
  if e1 = 0 ∨ e2 = 0 then false else !(decide (b1 ≥ e2) || decide (b2 ≥ e1))

/-- The shadow and reserve ranges of a segment for one map. -/
structure Ranges where
  shB : Nat
  shE : Nat
  rsB : Nat
  rsE : Nat

/-- `app_segment_t` (umbra/umbra_64.c:295-312) without the bitmaps.  `sh k = none` stands for
`map[k] == NULL`. -/
structure Seg where
  base : Nat
  stop : Nat
  used : Bool
  sh : Nat → Option Ranges

/-- The ranges computed at the start of `umbra_add_shadow_segment`
(umbra/umbra_64.c:513-531). -/
def ranges (m : Map) (b e : Nat) : Ranges :=
  let s := toShadow m b
  let t := toShadow m e
  ⟨s, t, toShadow m s, toShadow m t⟩

/-- The conflict tests of the new segment's ranges against one used segment, for one map with
`map[map_idx] != NULL` (umbra/umbra_64.c:547-620); `self` says that this is the new segment's own
entry.  The three C loops over `map_idx` each return false at the first conflict, so together they
return false iff some test of some map fires. -/
def clash (self : Bool) (n : Seg) (r : Ranges) (o : Seg) (ro : Ranges) : Bool :=
  segOverlap n.base n.stop ro.shB ro.shE || segOverlap n.base n.stop ro.rsB ro.rsE ||
  segOverlap r.shB r.shE o.base o.stop || (!self && segOverlap r.shB r.shE ro.shB ro.shE) ||
  segOverlap r.shB r.shE ro.rsB ro.rsE ||
  segOverlap r.rsB r.rsE o.base o.stop || segOverlap r.rsB r.rsE ro.shB ro.shE

/-- One iteration of the conflict loop (umbra/umbra_64.c:536-620); true means conflict. -/
def clashSeg (self : Bool) (n : Seg) (r : Ranges) (o : Seg) : Bool :=
  o.used && ((!self && segOverlap n.base n.stop o.base o.stop) ||
    [0, 1].any fun k => match o.sh k with
      | none => false
      | some ro => clash self n r o ro)

/-- Store the ranges of map `k` in segment `n` (umbra/umbra_64.c:513-531). -/
def Seg.put (n : Seg) (k : Nat) (r : Ranges) : Seg :=
  { n with sh := fun k' => if k' = k then some r else n.sh k' }

/-- `umbra_add_shadow_segment` for map number `k` and `app_segments[i]`
(umbra/umbra_64.c:508-628): the updated table and the result. -/
def addShadow (m : Map) (k i : Nat) (segs : List Seg) : List Seg × Bool :=
  match segs[i]? with
  | none => (segs, false)
  | some n =>
    let r := ranges m n.base n.stop
    let segs' := segs.set i (n.put k r)
    (segs', !(List.range segs'.length).any fun j =>
      match segs'[j]? with
      | none => false
      | some o => clashSeg (j == i) (n.put k r) r o)

/-- The segment loop of `umbra_map_arch_init` from index `i` on, `n` iterations left
(umbra/umbra_64.c:891-900). -/
def archInit (m : Map) (k : Nat) : Nat → Nat → List Seg → List Seg × Bool
  | 0, _, segs => (segs, true)
  | n + 1, i, segs =>
    match segs[i]? with
    | none => (segs, true)
    | some s =>
      if s.used then
        match addShadow m k i segs with
        | (segs', true) => archInit m k n (i + 1) segs'
        | (segs', false) => (segs', false)
      else archInit m k n (i + 1) segs

/-- The application address whose shadow `umbra_handle_fault` creates, for the first segment of
`segs` whose shadow range of map `k` contains the target (umbra/umbra_64.c:1571-1597; the inner
loop over the maps is fixed to one map). -/
def faultAddr (m : Map) (k target : Nat) : List Seg → Option Nat
  | [] => none
  | s :: rest =>
    match s.sh k with
    | some r =>
      if target ≥ r.shB ∧ target < r.shE then
        some ((s.base + unscale m.sc (target - r.shB)) % W)
      else faultAddr m k target rest
    | none => faultAddr m k target rest

end Verif.Umbra64
