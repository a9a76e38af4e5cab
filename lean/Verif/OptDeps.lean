/-!
# Options that depend on each other

The second half of `options_init`, drmemory/options.c:405-697: after the options have been read,
options that stand for a mode change others, and combinations that make no sense are rejected.
-/

namespace Verif.OptDeps

/-- The options that the dependent options read or write (optionsx.h:131-926). -/
structure Opts where
  nativeParent : Bool
  leaksOnly : Bool
  perturbOnly : Bool
  handleLeaksOnly : Bool
  light : Bool
  unaddrOnly : Bool
  pattern : Nat
  shadowing : Bool
  checkUninit : Bool
  stackBounds : Bool
  stackAccess : Bool
  alignment : Bool
  analyzeUnknown : Bool
  countLeaks : Bool
  leaksOnDestroy : Bool
  checkDelete : Bool
  checkGdi : Bool
  checkHandleLeaks : Bool
  trackAllocs : Bool
  trackHeap : Bool
  perturb : Bool
  showThreads : Bool
  replaceMalloc : Bool
  replaceRealloc : Bool
  sizeInRedzone : Bool
  redzone : Nat
  persistCode : Bool
  quiet : Bool
  resultsToStderr : Bool
  summary : Bool
  spillSlots : Nat
  nativeUntil : Nat
  /-- not an option: `usage_error` (options.c:193-198) was called, the tool has stopped and the
  other fields mean nothing -/
  bad : Bool
deriving DecidableEq

/-- `option_specified` for the options above that are looked at. -/
structure Spec where
  checkGdi : Bool
  checkHandleLeaks : Bool
  countLeaks : Bool
  checkLeaks : Bool
  checkDelete : Bool
  pattern : Bool

/-- The platform. -/
structure Arch where
  win : Bool
  x64 : Bool

/-- `DEFAULT_PATTERN`, pattern.h:35. -/
def defaultPattern : Nat := 0xf1fd

/-- `if (c) usage_error(..)`. -/
def usageIf (c : Bool) (o : Opts) : Opts := { o with bad := o.bad || c }

/-- `option_disable_memory_checks`, options.c:322-330. -/
def disable (o : Opts) : Opts :=
  { o with spillSlots := 0, shadowing := false, checkUninit := false, pattern := 0 }

/-- `-native_parent`, options.c:412-423. -/
def doNative (o : Opts) : Opts :=
  if o.nativeParent then
    { o with leaksOnly := true, countLeaks := false, trackAllocs := false, light := false, pattern := 0 }
  else o

/-- The Windows part of options.c:427-441. -/
def doOnlyWin (s : Spec) (o : Opts) : Opts :=
  let o := if s.checkGdi then usageIf (o.perturbOnly && o.checkGdi) o else { o with checkGdi := false }
  if s.checkHandleLeaks then usageIf (o.checkHandleLeaks && o.perturbOnly) o
  else { o with checkHandleLeaks := false }

/-- `-leaks_only` and `-perturb_only`, options.c:425-442. -/
def doOnly (a : Arch) (s : Spec) (o : Opts) : Opts :=
  if o.leaksOnly || o.perturbOnly then
    if a.win then doOnlyWin s (disable o) else disable o
  else o

/-- `-handle_leaks_only`, options.c:443-458. -/
def doHandle (a : Arch) (s : Spec) (o : Opts) : Opts :=
  if a.win && o.handleLeaksOnly then
    { disable o with
      trackAllocs := false, leaksOnly := false, countLeaks := false, checkHandleLeaks := true,
      checkGdi := if s.checkGdi then o.checkGdi else false }
  else o

/-- The second part of `-perturb_only`, options.c:459-465. -/
def doPerturb (o : Opts) : Opts :=
  let o := if o.perturbOnly then { o with perturb := true, trackAllocs := false, showThreads := false } else o
  if o.trackAllocs then o else { o with trackHeap := false }

/-- `-light`, options.c:494-504. -/
def doLight (a : Arch) (s : Spec) (o : Opts) : Opts :=
  if o.light then
    { o with
      checkUninit := false
      countLeaks := if s.countLeaks || s.checkLeaks then o.countLeaks else false
      pattern := if s.pattern then o.pattern else defaultPattern
      checkHandleLeaks := if a.win && !s.checkHandleLeaks then false else o.checkHandleLeaks }
  else o

/-- `-unaddr_only`, options.c:505-518. -/
def doUnaddr (a : Arch) (s : Spec) (o : Opts) : Opts :=
  if o.unaddrOnly then
    { o with
      pattern := if s.pattern then o.pattern else defaultPattern
      countLeaks := if s.countLeaks then o.countLeaks else false
      checkDelete := if s.checkDelete then o.checkDelete else false
      checkHandleLeaks := if a.win && !s.checkHandleLeaks then false else o.checkHandleLeaks
      checkGdi := if a.win && !s.checkGdi then false else o.checkGdi }
  else o

/-- Pattern mode, options.c:519-550; `pattern |= pattern << 16` is on 32 bits. -/
def doPattern (a : Arch) (o : Opts) : Opts :=
  if o.pattern ≠ 0 then
    usageIf (a.win && o.handleLeaksOnly) <| usageIf o.leaksOnly
      { usageIf (o.pattern / 2 ^ 16 ≠ 0) (usageIf (o.redzone = 0 ∨ o.redzone % (if a.x64 then 8 else 4) ≠ 0) o) with
        shadowing := false, sizeInRedzone := false, pattern := o.pattern ||| (o.pattern <<< 16) % 2 ^ 32,
        analyzeUnknown := false, checkUninit := false, stackBounds := false, stackAccess := false, alignment := false }
  else usageIf (o.redzone % (if a.x64 then 16 else 8) ≠ 0) o

/-- The replacement allocator, options.c:602-610. -/
def doReplace (o : Opts) : Opts :=
  if o.replaceMalloc then
    { o with replaceRealloc := false, sizeInRedzone := false,
             redzone := if o.pattern = 0 then o.redzone * 2 else o.redzone }
  else o

/-- Leaks and output, options.c:611-618. -/
def doQuiet (o : Opts) : Opts :=
  let o := if o.countLeaks then o else { o with leaksOnDestroy := false }
  if o.quiet then { o with resultsToStderr := false, summary := false } else o

/-- The checks that come with uninitialised reads, options.c:619-630. -/
def doUninit (o : Opts) : Opts :=
  if o.checkUninit then
    { usageIf (o.stackBounds || o.stackAccess || o.alignment) o with stackBounds := true, stackAccess := true, alignment := true }
  else o

/-- `-persist_code`, options.c:688-690, with `persistence_supported`, options.h:93-98. -/
def doPersist (o : Opts) : Opts := usageIf (o.persistCode && !(!o.checkUninit || !o.shadowing)) o

/-- The dependent options, options.c:405-697, without the fuzzer (551-600), `-visual_studio` and
`-brief` (631-687), which set no option above. -/
def resolve (a : Arch) (s : Spec) (o : Opts) : Opts :=
  doPersist <| doUninit <| doQuiet <| doReplace <| doPattern a <| doUnaddr a s <| doLight a s <| doPerturb <|
    doHandle a s <| doOnly a s <| doNative o

/-- `go_native`, options.c:695-697. -/
def goNative (o : Opts) : Bool := o.nativeUntil > 0 || o.nativeParent

/-- `INSTRUMENT_MEMREFS`, options.h:83. -/
def instrumentMemrefs (o : Opts) : Bool := o.shadowing || o.pattern ≠ 0

/-- `CHECK_UNINITS`, options.h:87. -/
def checkUninits (o : Opts) : Bool := o.shadowing && o.checkUninit

end Verif.OptDeps
