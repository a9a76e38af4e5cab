import Verif.Walk

/-!
# Whether a return address can belong to the caller of a frame (common/callstack.c)

`check_retaddr_targets_frame` for 64-bit x86: the walk of `Walk` takes it as an arbitrary function.
Modules, the addresses of the tools and the symbols are parameters.  Memory can be read by page; a
fault is `none` and is caught by `DR_TRY_EXCEPT`.
-/
namespace Verif.Target

open Verif.Walk (back)

/-- What the function looks at (common/callstack.c:1206-1226, 1312-1313). -/
structure Env where
  /-- pages that can be read -/
  ok : Nat → Bool
  /-- the byte at an address -/
  byte : Nat → UInt8
  /-- `module_lookup`: start of the module, and `abort_fp_walk` of its name -/
  mod : Nat → Option (Nat × Bool)
  /-- in `libdr_base`..`libdr_end` or `libtoolbase`..`libtoolend` -/
  tool : Nat → Bool
  /-- `funcoffs` after `lookup_func_and_line`; 0 if there are no symbols -/
  offs : Nat → Nat
  /-- `FP_DO_NOT_VERIFY_CROSS_MOD_IND` -/
  noInd : Bool := false
  /-- `FP_VERIFY_CALL_TARGET` -/
  verify : Bool := false
  /-- `FP_VERIFY_CROSS_MODULE_TARGET` -/
  cross : Bool := false

/-- `pc + k` on a 64-bit pointer (common/callstack.c:1249, 1254, 1256, 1320-1330). -/
def fwd (pc k : Nat) : Nat := (pc + k) % 2 ^ 64

/-- `*a` (common/callstack.c:1248, 1255-1256, 1319-1336). -/
def get (e : Env) (a : Nat) : Option Nat :=
  if e.ok (a / 4096) then some (e.byte a).toNat else none

/-- The four bytes at `a` as an unsigned number: `*(int*)a` compared with `ENDBR64`
(common/callstack.c:1253). -/
def u32 (e : Env) (a : Nat) : Option Nat := do
  let b0 ← get e a
  let b1 ← get e (fwd a 1)
  let b2 ← get e (fwd a 2)
  let b3 ← get e (fwd a 3)
  pure (b0 + 256 * (b1 + 256 * (b2 + 256 * b3)))

/-- An `int` added to a pointer (common/callstack.c:1249, 1320, 1323-1324, 1329-1330). -/
def sext (v : Nat) : Nat := if v < 2 ^ 31 then v else v + (2 ^ 64 - 2 ^ 32)

/-- `*(app_pc*)a` (common/callstack.c:1325, 1333). -/
def ptr (e : Env) (a : Nat) : Option Nat := do
  let lo ← u32 e a
  let hi ← u32 e (fwd a 4)
  pure (lo + 2 ^ 32 * hi)

/-- The check that a call from another module is indirect (common/callstack.c:1246-1259): the new
value of `pc`, and `res`. -/
def indirect (e : Env) (pc : Nat) : Option (Nat × Bool) := do
  let op ← get e (back pc 5)
  if op = 0xe8 then
    let d ← u32 e (back pc 4)
    let pc := fwd pc (sext d)
    let i ← u32 e pc
    let pc := if i = 0xfa1e0ff3 then fwd pc 4 else pc
    let op ← get e pc
    if op ≠ 0xff then pure (pc, false)
    else
      let m ← get e (fwd pc 1)
      pure (pc, !(m >>> 3 != 0x14 && m != 0x25))
  else pure (pc, true)

/-- `call_target` (common/callstack.c:1314-1346); 0 is `NULL`. -/
def callTarget (e : Env) (pc : Nat) : Option Nat := do
  let op ← get e (back pc 5)
  if op = 0xe8 then
    let d ← u32 e (back pc 4)
    let pc := fwd pc (sext d)
    let op ← get e pc
    if op = 0xff then
      let m ← get e (fwd pc 1)
      if m = 0x25 then
        let d ← u32 e (fwd pc 2)
        ptr e (fwd pc (sext d))
      else pure pc
    else pure pc
  else
    let op6 ← get e (back pc 6)
    if op6 = 0xff ∧ op = 0x15 then
      let d ← u32 e (back pc 4)
      let t ← ptr e (fwd pc (sext d))
      let j ← get e t
      if j = 0xeb ∨ j = 0xe9 then pure 0 else pure t
    else pure 0

/-- From the test for further checks to the end (common/callstack.c:1305-1362). -/
def final (e : Env) (frame pc : Nat) : Bool :=
  if !(e.verify || e.cross) then true
  else
    match callTarget e pc with
    | none => false
    | some t => if t = 0 then true else e.offs frame != 0 && t == back frame (e.offs frame)

/-- `check_retaddr_targets_frame` (common/callstack.c:1201-1363). -/
def check (e : Env) (frame ra : Nat) (fpWalk : Bool) : Bool :=
  if e.noInd && !(e.verify || e.cross) then true
  else
    match e.mod frame with
    | none => true
    | some (fs, abort) =>
      if e.tool frame then true
      else if e.cross || !e.noInd then
        match e.mod ra with
        | none => if e.cross then true else final e frame ra
        | some (rs, _) =>
          if fs = rs then
            if e.cross then true else final e frame ra
          else if fpWalk && abort then false
          else if !e.noInd then
            match indirect e ra with
            | none => false
            | some (pc, res) => if !res || !e.cross then res else final e frame pc
          else final e frame ra
      else final e frame ra

end Verif.Target
