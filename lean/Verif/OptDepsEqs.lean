import Verif.OptDeps

/-!
# Dependent options: each stage, option by option
-/

namespace Verif.OptDeps

variable (a : Arch) (s : Spec) (o : Opts)

@[simp] theorem doNative_nativeParent : (doNative o).nativeParent = o.nativeParent := by
  unfold doNative; split <;> rfl
@[simp] theorem doNative_leaksOnly : (doNative o).leaksOnly = if o.nativeParent = true then true else o.leaksOnly := by
  unfold doNative; split <;> rfl
@[simp] theorem doNative_perturbOnly : (doNative o).perturbOnly = o.perturbOnly := by
  unfold doNative; split <;> rfl
@[simp] theorem doNative_handleLeaksOnly : (doNative o).handleLeaksOnly = o.handleLeaksOnly := by
  unfold doNative; split <;> rfl
@[simp] theorem doNative_light : (doNative o).light = if o.nativeParent = true then false else o.light := by
  unfold doNative; split <;> rfl
@[simp] theorem doNative_unaddrOnly : (doNative o).unaddrOnly = o.unaddrOnly := by
  unfold doNative; split <;> rfl
@[simp] theorem doNative_pattern : (doNative o).pattern = if o.nativeParent = true then 0 else o.pattern := by
  unfold doNative; split <;> rfl
@[simp] theorem doNative_shadowing : (doNative o).shadowing = o.shadowing := by
  unfold doNative; split <;> rfl
@[simp] theorem doNative_checkUninit : (doNative o).checkUninit = o.checkUninit := by
  unfold doNative; split <;> rfl
@[simp] theorem doNative_stackBounds : (doNative o).stackBounds = o.stackBounds := by
  unfold doNative; split <;> rfl
@[simp] theorem doNative_stackAccess : (doNative o).stackAccess = o.stackAccess := by
  unfold doNative; split <;> rfl
@[simp] theorem doNative_alignment : (doNative o).alignment = o.alignment := by
  unfold doNative; split <;> rfl
@[simp] theorem doNative_analyzeUnknown : (doNative o).analyzeUnknown = o.analyzeUnknown := by
  unfold doNative; split <;> rfl
@[simp] theorem doNative_countLeaks : (doNative o).countLeaks = if o.nativeParent = true then false else o.countLeaks := by
  unfold doNative; split <;> rfl
@[simp] theorem doNative_leaksOnDestroy : (doNative o).leaksOnDestroy = o.leaksOnDestroy := by
  unfold doNative; split <;> rfl
@[simp] theorem doNative_checkDelete : (doNative o).checkDelete = o.checkDelete := by
  unfold doNative; split <;> rfl
@[simp] theorem doNative_checkGdi : (doNative o).checkGdi = o.checkGdi := by
  unfold doNative; split <;> rfl
@[simp] theorem doNative_checkHandleLeaks : (doNative o).checkHandleLeaks = o.checkHandleLeaks := by
  unfold doNative; split <;> rfl
@[simp] theorem doNative_trackAllocs : (doNative o).trackAllocs = if o.nativeParent = true then false else o.trackAllocs := by
  unfold doNative; split <;> rfl
@[simp] theorem doNative_trackHeap : (doNative o).trackHeap = o.trackHeap := by
  unfold doNative; split <;> rfl
@[simp] theorem doNative_perturb : (doNative o).perturb = o.perturb := by
  unfold doNative; split <;> rfl
@[simp] theorem doNative_showThreads : (doNative o).showThreads = o.showThreads := by
  unfold doNative; split <;> rfl
@[simp] theorem doNative_replaceMalloc : (doNative o).replaceMalloc = o.replaceMalloc := by
  unfold doNative; split <;> rfl
@[simp] theorem doNative_replaceRealloc : (doNative o).replaceRealloc = o.replaceRealloc := by
  unfold doNative; split <;> rfl
@[simp] theorem doNative_sizeInRedzone : (doNative o).sizeInRedzone = o.sizeInRedzone := by
  unfold doNative; split <;> rfl
@[simp] theorem doNative_redzone : (doNative o).redzone = o.redzone := by
  unfold doNative; split <;> rfl
@[simp] theorem doNative_persistCode : (doNative o).persistCode = o.persistCode := by
  unfold doNative; split <;> rfl
@[simp] theorem doNative_quiet : (doNative o).quiet = o.quiet := by
  unfold doNative; split <;> rfl
@[simp] theorem doNative_resultsToStderr : (doNative o).resultsToStderr = o.resultsToStderr := by
  unfold doNative; split <;> rfl
@[simp] theorem doNative_summary : (doNative o).summary = o.summary := by
  unfold doNative; split <;> rfl
@[simp] theorem doNative_spillSlots : (doNative o).spillSlots = o.spillSlots := by
  unfold doNative; split <;> rfl
@[simp] theorem doNative_nativeUntil : (doNative o).nativeUntil = o.nativeUntil := by
  unfold doNative; split <;> rfl
@[simp] theorem doNative_bad : (doNative o).bad = o.bad := by
  unfold doNative; split <;> rfl
@[simp] theorem doOnlyWin_nativeParent : (doOnlyWin s o).nativeParent = o.nativeParent := by
  unfold doOnlyWin usageIf; cases s.checkGdi <;> cases s.checkHandleLeaks <;> simp
@[simp] theorem doOnlyWin_leaksOnly : (doOnlyWin s o).leaksOnly = o.leaksOnly := by
  unfold doOnlyWin usageIf; cases s.checkGdi <;> cases s.checkHandleLeaks <;> simp
@[simp] theorem doOnlyWin_perturbOnly : (doOnlyWin s o).perturbOnly = o.perturbOnly := by
  unfold doOnlyWin usageIf; cases s.checkGdi <;> cases s.checkHandleLeaks <;> simp
@[simp] theorem doOnlyWin_handleLeaksOnly : (doOnlyWin s o).handleLeaksOnly = o.handleLeaksOnly := by
  unfold doOnlyWin usageIf; cases s.checkGdi <;> cases s.checkHandleLeaks <;> simp
@[simp] theorem doOnlyWin_light : (doOnlyWin s o).light = o.light := by
  unfold doOnlyWin usageIf; cases s.checkGdi <;> cases s.checkHandleLeaks <;> simp
@[simp] theorem doOnlyWin_unaddrOnly : (doOnlyWin s o).unaddrOnly = o.unaddrOnly := by
  unfold doOnlyWin usageIf; cases s.checkGdi <;> cases s.checkHandleLeaks <;> simp
@[simp] theorem doOnlyWin_pattern : (doOnlyWin s o).pattern = o.pattern := by
  unfold doOnlyWin usageIf; cases s.checkGdi <;> cases s.checkHandleLeaks <;> simp
@[simp] theorem doOnlyWin_shadowing : (doOnlyWin s o).shadowing = o.shadowing := by
  unfold doOnlyWin usageIf; cases s.checkGdi <;> cases s.checkHandleLeaks <;> simp
@[simp] theorem doOnlyWin_checkUninit : (doOnlyWin s o).checkUninit = o.checkUninit := by
  unfold doOnlyWin usageIf; cases s.checkGdi <;> cases s.checkHandleLeaks <;> simp
@[simp] theorem doOnlyWin_stackBounds : (doOnlyWin s o).stackBounds = o.stackBounds := by
  unfold doOnlyWin usageIf; cases s.checkGdi <;> cases s.checkHandleLeaks <;> simp
@[simp] theorem doOnlyWin_stackAccess : (doOnlyWin s o).stackAccess = o.stackAccess := by
  unfold doOnlyWin usageIf; cases s.checkGdi <;> cases s.checkHandleLeaks <;> simp
@[simp] theorem doOnlyWin_alignment : (doOnlyWin s o).alignment = o.alignment := by
  unfold doOnlyWin usageIf; cases s.checkGdi <;> cases s.checkHandleLeaks <;> simp
@[simp] theorem doOnlyWin_analyzeUnknown : (doOnlyWin s o).analyzeUnknown = o.analyzeUnknown := by
  unfold doOnlyWin usageIf; cases s.checkGdi <;> cases s.checkHandleLeaks <;> simp
@[simp] theorem doOnlyWin_countLeaks : (doOnlyWin s o).countLeaks = o.countLeaks := by
  unfold doOnlyWin usageIf; cases s.checkGdi <;> cases s.checkHandleLeaks <;> simp
@[simp] theorem doOnlyWin_leaksOnDestroy : (doOnlyWin s o).leaksOnDestroy = o.leaksOnDestroy := by
  unfold doOnlyWin usageIf; cases s.checkGdi <;> cases s.checkHandleLeaks <;> simp
@[simp] theorem doOnlyWin_checkDelete : (doOnlyWin s o).checkDelete = o.checkDelete := by
  unfold doOnlyWin usageIf; cases s.checkGdi <;> cases s.checkHandleLeaks <;> simp
@[simp] theorem doOnlyWin_checkGdi : (doOnlyWin s o).checkGdi = (if s.checkGdi then o.checkGdi else false) := by
  unfold doOnlyWin usageIf; cases s.checkGdi <;> cases s.checkHandleLeaks <;> simp
@[simp] theorem doOnlyWin_checkHandleLeaks : (doOnlyWin s o).checkHandleLeaks = (if s.checkHandleLeaks then o.checkHandleLeaks else false) := by
  unfold doOnlyWin usageIf; cases s.checkGdi <;> cases s.checkHandleLeaks <;> simp
@[simp] theorem doOnlyWin_trackAllocs : (doOnlyWin s o).trackAllocs = o.trackAllocs := by
  unfold doOnlyWin usageIf; cases s.checkGdi <;> cases s.checkHandleLeaks <;> simp
@[simp] theorem doOnlyWin_trackHeap : (doOnlyWin s o).trackHeap = o.trackHeap := by
  unfold doOnlyWin usageIf; cases s.checkGdi <;> cases s.checkHandleLeaks <;> simp
@[simp] theorem doOnlyWin_perturb : (doOnlyWin s o).perturb = o.perturb := by
  unfold doOnlyWin usageIf; cases s.checkGdi <;> cases s.checkHandleLeaks <;> simp
@[simp] theorem doOnlyWin_showThreads : (doOnlyWin s o).showThreads = o.showThreads := by
  unfold doOnlyWin usageIf; cases s.checkGdi <;> cases s.checkHandleLeaks <;> simp
@[simp] theorem doOnlyWin_replaceMalloc : (doOnlyWin s o).replaceMalloc = o.replaceMalloc := by
  unfold doOnlyWin usageIf; cases s.checkGdi <;> cases s.checkHandleLeaks <;> simp
@[simp] theorem doOnlyWin_replaceRealloc : (doOnlyWin s o).replaceRealloc = o.replaceRealloc := by
  unfold doOnlyWin usageIf; cases s.checkGdi <;> cases s.checkHandleLeaks <;> simp
@[simp] theorem doOnlyWin_sizeInRedzone : (doOnlyWin s o).sizeInRedzone = o.sizeInRedzone := by
  unfold doOnlyWin usageIf; cases s.checkGdi <;> cases s.checkHandleLeaks <;> simp
@[simp] theorem doOnlyWin_redzone : (doOnlyWin s o).redzone = o.redzone := by
  unfold doOnlyWin usageIf; cases s.checkGdi <;> cases s.checkHandleLeaks <;> simp
@[simp] theorem doOnlyWin_persistCode : (doOnlyWin s o).persistCode = o.persistCode := by
  unfold doOnlyWin usageIf; cases s.checkGdi <;> cases s.checkHandleLeaks <;> simp
@[simp] theorem doOnlyWin_quiet : (doOnlyWin s o).quiet = o.quiet := by
  unfold doOnlyWin usageIf; cases s.checkGdi <;> cases s.checkHandleLeaks <;> simp
@[simp] theorem doOnlyWin_resultsToStderr : (doOnlyWin s o).resultsToStderr = o.resultsToStderr := by
  unfold doOnlyWin usageIf; cases s.checkGdi <;> cases s.checkHandleLeaks <;> simp
@[simp] theorem doOnlyWin_summary : (doOnlyWin s o).summary = o.summary := by
  unfold doOnlyWin usageIf; cases s.checkGdi <;> cases s.checkHandleLeaks <;> simp
@[simp] theorem doOnlyWin_spillSlots : (doOnlyWin s o).spillSlots = o.spillSlots := by
  unfold doOnlyWin usageIf; cases s.checkGdi <;> cases s.checkHandleLeaks <;> simp
@[simp] theorem doOnlyWin_nativeUntil : (doOnlyWin s o).nativeUntil = o.nativeUntil := by
  unfold doOnlyWin usageIf; cases s.checkGdi <;> cases s.checkHandleLeaks <;> simp
@[simp] theorem doOnlyWin_bad : (doOnlyWin s o).bad = ((o.bad || (s.checkGdi && (o.perturbOnly && o.checkGdi))) || (s.checkHandleLeaks && (o.checkHandleLeaks && o.perturbOnly))) := by
  unfold doOnlyWin usageIf; cases s.checkGdi <;> cases s.checkHandleLeaks <;> simp
@[simp] theorem doOnly_nativeParent : (doOnly a s o).nativeParent = o.nativeParent := by
  unfold doOnly disable; cases a.win <;> cases (o.leaksOnly || o.perturbOnly) <;> simp
@[simp] theorem doOnly_leaksOnly : (doOnly a s o).leaksOnly = o.leaksOnly := by
  unfold doOnly disable; cases a.win <;> cases (o.leaksOnly || o.perturbOnly) <;> simp
@[simp] theorem doOnly_perturbOnly : (doOnly a s o).perturbOnly = o.perturbOnly := by
  unfold doOnly disable; cases a.win <;> cases (o.leaksOnly || o.perturbOnly) <;> simp
@[simp] theorem doOnly_handleLeaksOnly : (doOnly a s o).handleLeaksOnly = o.handleLeaksOnly := by
  unfold doOnly disable; cases a.win <;> cases (o.leaksOnly || o.perturbOnly) <;> simp
@[simp] theorem doOnly_light : (doOnly a s o).light = o.light := by
  unfold doOnly disable; cases a.win <;> cases (o.leaksOnly || o.perturbOnly) <;> simp
@[simp] theorem doOnly_unaddrOnly : (doOnly a s o).unaddrOnly = o.unaddrOnly := by
  unfold doOnly disable; cases a.win <;> cases (o.leaksOnly || o.perturbOnly) <;> simp
@[simp] theorem doOnly_pattern : (doOnly a s o).pattern = if (o.leaksOnly || o.perturbOnly) = true then 0 else o.pattern := by
  unfold doOnly disable; cases a.win <;> cases (o.leaksOnly || o.perturbOnly) <;> simp
@[simp] theorem doOnly_shadowing : (doOnly a s o).shadowing = if (o.leaksOnly || o.perturbOnly) = true then false else o.shadowing := by
  unfold doOnly disable; cases a.win <;> cases (o.leaksOnly || o.perturbOnly) <;> simp
@[simp] theorem doOnly_checkUninit : (doOnly a s o).checkUninit = if (o.leaksOnly || o.perturbOnly) = true then false else o.checkUninit := by
  unfold doOnly disable; cases a.win <;> cases (o.leaksOnly || o.perturbOnly) <;> simp
@[simp] theorem doOnly_stackBounds : (doOnly a s o).stackBounds = o.stackBounds := by
  unfold doOnly disable; cases a.win <;> cases (o.leaksOnly || o.perturbOnly) <;> simp
@[simp] theorem doOnly_stackAccess : (doOnly a s o).stackAccess = o.stackAccess := by
  unfold doOnly disable; cases a.win <;> cases (o.leaksOnly || o.perturbOnly) <;> simp
@[simp] theorem doOnly_alignment : (doOnly a s o).alignment = o.alignment := by
  unfold doOnly disable; cases a.win <;> cases (o.leaksOnly || o.perturbOnly) <;> simp
@[simp] theorem doOnly_analyzeUnknown : (doOnly a s o).analyzeUnknown = o.analyzeUnknown := by
  unfold doOnly disable; cases a.win <;> cases (o.leaksOnly || o.perturbOnly) <;> simp
@[simp] theorem doOnly_countLeaks : (doOnly a s o).countLeaks = o.countLeaks := by
  unfold doOnly disable; cases a.win <;> cases (o.leaksOnly || o.perturbOnly) <;> simp
@[simp] theorem doOnly_leaksOnDestroy : (doOnly a s o).leaksOnDestroy = o.leaksOnDestroy := by
  unfold doOnly disable; cases a.win <;> cases (o.leaksOnly || o.perturbOnly) <;> simp
@[simp] theorem doOnly_checkDelete : (doOnly a s o).checkDelete = o.checkDelete := by
  unfold doOnly disable; cases a.win <;> cases (o.leaksOnly || o.perturbOnly) <;> simp
@[simp] theorem doOnly_checkGdi : (doOnly a s o).checkGdi = if (o.leaksOnly || o.perturbOnly) = true then (if a.win then (if s.checkGdi then o.checkGdi else false) else o.checkGdi) else o.checkGdi := by
  unfold doOnly disable; cases a.win <;> cases (o.leaksOnly || o.perturbOnly) <;> simp
@[simp] theorem doOnly_checkHandleLeaks : (doOnly a s o).checkHandleLeaks = if (o.leaksOnly || o.perturbOnly) = true then (if a.win then (if s.checkHandleLeaks then o.checkHandleLeaks else false) else o.checkHandleLeaks) else o.checkHandleLeaks := by
  unfold doOnly disable; cases a.win <;> cases (o.leaksOnly || o.perturbOnly) <;> simp
@[simp] theorem doOnly_trackAllocs : (doOnly a s o).trackAllocs = o.trackAllocs := by
  unfold doOnly disable; cases a.win <;> cases (o.leaksOnly || o.perturbOnly) <;> simp
@[simp] theorem doOnly_trackHeap : (doOnly a s o).trackHeap = o.trackHeap := by
  unfold doOnly disable; cases a.win <;> cases (o.leaksOnly || o.perturbOnly) <;> simp
@[simp] theorem doOnly_perturb : (doOnly a s o).perturb = o.perturb := by
  unfold doOnly disable; cases a.win <;> cases (o.leaksOnly || o.perturbOnly) <;> simp
@[simp] theorem doOnly_showThreads : (doOnly a s o).showThreads = o.showThreads := by
  unfold doOnly disable; cases a.win <;> cases (o.leaksOnly || o.perturbOnly) <;> simp
@[simp] theorem doOnly_replaceMalloc : (doOnly a s o).replaceMalloc = o.replaceMalloc := by
  unfold doOnly disable; cases a.win <;> cases (o.leaksOnly || o.perturbOnly) <;> simp
@[simp] theorem doOnly_replaceRealloc : (doOnly a s o).replaceRealloc = o.replaceRealloc := by
  unfold doOnly disable; cases a.win <;> cases (o.leaksOnly || o.perturbOnly) <;> simp
@[simp] theorem doOnly_sizeInRedzone : (doOnly a s o).sizeInRedzone = o.sizeInRedzone := by
  unfold doOnly disable; cases a.win <;> cases (o.leaksOnly || o.perturbOnly) <;> simp
@[simp] theorem doOnly_redzone : (doOnly a s o).redzone = o.redzone := by
  unfold doOnly disable; cases a.win <;> cases (o.leaksOnly || o.perturbOnly) <;> simp
@[simp] theorem doOnly_persistCode : (doOnly a s o).persistCode = o.persistCode := by
  unfold doOnly disable; cases a.win <;> cases (o.leaksOnly || o.perturbOnly) <;> simp
@[simp] theorem doOnly_quiet : (doOnly a s o).quiet = o.quiet := by
  unfold doOnly disable; cases a.win <;> cases (o.leaksOnly || o.perturbOnly) <;> simp
@[simp] theorem doOnly_resultsToStderr : (doOnly a s o).resultsToStderr = o.resultsToStderr := by
  unfold doOnly disable; cases a.win <;> cases (o.leaksOnly || o.perturbOnly) <;> simp
@[simp] theorem doOnly_summary : (doOnly a s o).summary = o.summary := by
  unfold doOnly disable; cases a.win <;> cases (o.leaksOnly || o.perturbOnly) <;> simp
@[simp] theorem doOnly_spillSlots : (doOnly a s o).spillSlots = if (o.leaksOnly || o.perturbOnly) = true then 0 else o.spillSlots := by
  unfold doOnly disable; cases a.win <;> cases (o.leaksOnly || o.perturbOnly) <;> simp
@[simp] theorem doOnly_nativeUntil : (doOnly a s o).nativeUntil = o.nativeUntil := by
  unfold doOnly disable; cases a.win <;> cases (o.leaksOnly || o.perturbOnly) <;> simp
@[simp] theorem doOnly_bad : (doOnly a s o).bad = if (o.leaksOnly || o.perturbOnly) = true then (o.bad || (a.win && (s.checkGdi && (o.perturbOnly && o.checkGdi))) || (a.win && (s.checkHandleLeaks && (o.checkHandleLeaks && o.perturbOnly)))) else o.bad := by
  unfold doOnly disable; cases a.win <;> cases (o.leaksOnly || o.perturbOnly) <;> simp
@[simp] theorem doHandle_nativeParent : (doHandle a s o).nativeParent = o.nativeParent := by
  unfold doHandle disable; split <;> rfl
@[simp] theorem doHandle_leaksOnly : (doHandle a s o).leaksOnly = if (a.win && o.handleLeaksOnly) = true then false else o.leaksOnly := by
  unfold doHandle disable; split <;> rfl
@[simp] theorem doHandle_perturbOnly : (doHandle a s o).perturbOnly = o.perturbOnly := by
  unfold doHandle disable; split <;> rfl
@[simp] theorem doHandle_handleLeaksOnly : (doHandle a s o).handleLeaksOnly = o.handleLeaksOnly := by
  unfold doHandle disable; split <;> rfl
@[simp] theorem doHandle_light : (doHandle a s o).light = o.light := by
  unfold doHandle disable; split <;> rfl
@[simp] theorem doHandle_unaddrOnly : (doHandle a s o).unaddrOnly = o.unaddrOnly := by
  unfold doHandle disable; split <;> rfl
@[simp] theorem doHandle_pattern : (doHandle a s o).pattern = if (a.win && o.handleLeaksOnly) = true then 0 else o.pattern := by
  unfold doHandle disable; split <;> rfl
@[simp] theorem doHandle_shadowing : (doHandle a s o).shadowing = if (a.win && o.handleLeaksOnly) = true then false else o.shadowing := by
  unfold doHandle disable; split <;> rfl
@[simp] theorem doHandle_checkUninit : (doHandle a s o).checkUninit = if (a.win && o.handleLeaksOnly) = true then false else o.checkUninit := by
  unfold doHandle disable; split <;> rfl
@[simp] theorem doHandle_stackBounds : (doHandle a s o).stackBounds = o.stackBounds := by
  unfold doHandle disable; split <;> rfl
@[simp] theorem doHandle_stackAccess : (doHandle a s o).stackAccess = o.stackAccess := by
  unfold doHandle disable; split <;> rfl
@[simp] theorem doHandle_alignment : (doHandle a s o).alignment = o.alignment := by
  unfold doHandle disable; split <;> rfl
@[simp] theorem doHandle_analyzeUnknown : (doHandle a s o).analyzeUnknown = o.analyzeUnknown := by
  unfold doHandle disable; split <;> rfl
@[simp] theorem doHandle_countLeaks : (doHandle a s o).countLeaks = if (a.win && o.handleLeaksOnly) = true then false else o.countLeaks := by
  unfold doHandle disable; split <;> rfl
@[simp] theorem doHandle_leaksOnDestroy : (doHandle a s o).leaksOnDestroy = o.leaksOnDestroy := by
  unfold doHandle disable; split <;> rfl
@[simp] theorem doHandle_checkDelete : (doHandle a s o).checkDelete = o.checkDelete := by
  unfold doHandle disable; split <;> rfl
@[simp] theorem doHandle_checkGdi : (doHandle a s o).checkGdi = if (a.win && o.handleLeaksOnly) = true then (if s.checkGdi then o.checkGdi else false) else o.checkGdi := by
  unfold doHandle disable; split <;> rfl
@[simp] theorem doHandle_checkHandleLeaks : (doHandle a s o).checkHandleLeaks = if (a.win && o.handleLeaksOnly) = true then true else o.checkHandleLeaks := by
  unfold doHandle disable; split <;> rfl
@[simp] theorem doHandle_trackAllocs : (doHandle a s o).trackAllocs = if (a.win && o.handleLeaksOnly) = true then false else o.trackAllocs := by
  unfold doHandle disable; split <;> rfl
@[simp] theorem doHandle_trackHeap : (doHandle a s o).trackHeap = o.trackHeap := by
  unfold doHandle disable; split <;> rfl
@[simp] theorem doHandle_perturb : (doHandle a s o).perturb = o.perturb := by
  unfold doHandle disable; split <;> rfl
@[simp] theorem doHandle_showThreads : (doHandle a s o).showThreads = o.showThreads := by
  unfold doHandle disable; split <;> rfl
@[simp] theorem doHandle_replaceMalloc : (doHandle a s o).replaceMalloc = o.replaceMalloc := by
  unfold doHandle disable; split <;> rfl
@[simp] theorem doHandle_replaceRealloc : (doHandle a s o).replaceRealloc = o.replaceRealloc := by
  unfold doHandle disable; split <;> rfl
@[simp] theorem doHandle_sizeInRedzone : (doHandle a s o).sizeInRedzone = o.sizeInRedzone := by
  unfold doHandle disable; split <;> rfl
@[simp] theorem doHandle_redzone : (doHandle a s o).redzone = o.redzone := by
  unfold doHandle disable; split <;> rfl
@[simp] theorem doHandle_persistCode : (doHandle a s o).persistCode = o.persistCode := by
  unfold doHandle disable; split <;> rfl
@[simp] theorem doHandle_quiet : (doHandle a s o).quiet = o.quiet := by
  unfold doHandle disable; split <;> rfl
@[simp] theorem doHandle_resultsToStderr : (doHandle a s o).resultsToStderr = o.resultsToStderr := by
  unfold doHandle disable; split <;> rfl
@[simp] theorem doHandle_summary : (doHandle a s o).summary = o.summary := by
  unfold doHandle disable; split <;> rfl
@[simp] theorem doHandle_spillSlots : (doHandle a s o).spillSlots = if (a.win && o.handleLeaksOnly) = true then 0 else o.spillSlots := by
  unfold doHandle disable; split <;> rfl
@[simp] theorem doHandle_nativeUntil : (doHandle a s o).nativeUntil = o.nativeUntil := by
  unfold doHandle disable; split <;> rfl
@[simp] theorem doHandle_bad : (doHandle a s o).bad = o.bad := by
  unfold doHandle disable; split <;> rfl
@[simp] theorem doPerturb_nativeParent : (doPerturb o).nativeParent = o.nativeParent := by
  unfold doPerturb; cases h0 : o.perturbOnly <;> cases h : o.trackAllocs <;> simp [h0, h]
@[simp] theorem doPerturb_leaksOnly : (doPerturb o).leaksOnly = o.leaksOnly := by
  unfold doPerturb; cases h0 : o.perturbOnly <;> cases h : o.trackAllocs <;> simp [h0, h]
@[simp] theorem doPerturb_perturbOnly : (doPerturb o).perturbOnly = o.perturbOnly := by
  unfold doPerturb; cases h0 : o.perturbOnly <;> cases h : o.trackAllocs <;> simp [h0, h]
@[simp] theorem doPerturb_handleLeaksOnly : (doPerturb o).handleLeaksOnly = o.handleLeaksOnly := by
  unfold doPerturb; cases h0 : o.perturbOnly <;> cases h : o.trackAllocs <;> simp [h0, h]
@[simp] theorem doPerturb_light : (doPerturb o).light = o.light := by
  unfold doPerturb; cases h0 : o.perturbOnly <;> cases h : o.trackAllocs <;> simp [h0, h]
@[simp] theorem doPerturb_unaddrOnly : (doPerturb o).unaddrOnly = o.unaddrOnly := by
  unfold doPerturb; cases h0 : o.perturbOnly <;> cases h : o.trackAllocs <;> simp [h0, h]
@[simp] theorem doPerturb_pattern : (doPerturb o).pattern = o.pattern := by
  unfold doPerturb; cases h0 : o.perturbOnly <;> cases h : o.trackAllocs <;> simp [h0, h]
@[simp] theorem doPerturb_shadowing : (doPerturb o).shadowing = o.shadowing := by
  unfold doPerturb; cases h0 : o.perturbOnly <;> cases h : o.trackAllocs <;> simp [h0, h]
@[simp] theorem doPerturb_checkUninit : (doPerturb o).checkUninit = o.checkUninit := by
  unfold doPerturb; cases h0 : o.perturbOnly <;> cases h : o.trackAllocs <;> simp [h0, h]
@[simp] theorem doPerturb_stackBounds : (doPerturb o).stackBounds = o.stackBounds := by
  unfold doPerturb; cases h0 : o.perturbOnly <;> cases h : o.trackAllocs <;> simp [h0, h]
@[simp] theorem doPerturb_stackAccess : (doPerturb o).stackAccess = o.stackAccess := by
  unfold doPerturb; cases h0 : o.perturbOnly <;> cases h : o.trackAllocs <;> simp [h0, h]
@[simp] theorem doPerturb_alignment : (doPerturb o).alignment = o.alignment := by
  unfold doPerturb; cases h0 : o.perturbOnly <;> cases h : o.trackAllocs <;> simp [h0, h]
@[simp] theorem doPerturb_analyzeUnknown : (doPerturb o).analyzeUnknown = o.analyzeUnknown := by
  unfold doPerturb; cases h0 : o.perturbOnly <;> cases h : o.trackAllocs <;> simp [h0, h]
@[simp] theorem doPerturb_countLeaks : (doPerturb o).countLeaks = o.countLeaks := by
  unfold doPerturb; cases h0 : o.perturbOnly <;> cases h : o.trackAllocs <;> simp [h0, h]
@[simp] theorem doPerturb_leaksOnDestroy : (doPerturb o).leaksOnDestroy = o.leaksOnDestroy := by
  unfold doPerturb; cases h0 : o.perturbOnly <;> cases h : o.trackAllocs <;> simp [h0, h]
@[simp] theorem doPerturb_checkDelete : (doPerturb o).checkDelete = o.checkDelete := by
  unfold doPerturb; cases h0 : o.perturbOnly <;> cases h : o.trackAllocs <;> simp [h0, h]
@[simp] theorem doPerturb_checkGdi : (doPerturb o).checkGdi = o.checkGdi := by
  unfold doPerturb; cases h0 : o.perturbOnly <;> cases h : o.trackAllocs <;> simp [h0, h]
@[simp] theorem doPerturb_checkHandleLeaks : (doPerturb o).checkHandleLeaks = o.checkHandleLeaks := by
  unfold doPerturb; cases h0 : o.perturbOnly <;> cases h : o.trackAllocs <;> simp [h0, h]
@[simp] theorem doPerturb_trackAllocs : (doPerturb o).trackAllocs = if o.perturbOnly = true then false else o.trackAllocs := by
  unfold doPerturb; cases h0 : o.perturbOnly <;> cases h : o.trackAllocs <;> simp [h0, h]
@[simp] theorem doPerturb_trackHeap : (doPerturb o).trackHeap = (if o.perturbOnly then false else if o.trackAllocs then o.trackHeap else false) := by
  unfold doPerturb; cases h0 : o.perturbOnly <;> cases h : o.trackAllocs <;> simp [h0, h]
@[simp] theorem doPerturb_perturb : (doPerturb o).perturb = if o.perturbOnly = true then true else o.perturb := by
  unfold doPerturb; cases h0 : o.perturbOnly <;> cases h : o.trackAllocs <;> simp [h0, h]
@[simp] theorem doPerturb_showThreads : (doPerturb o).showThreads = if o.perturbOnly = true then false else o.showThreads := by
  unfold doPerturb; cases h0 : o.perturbOnly <;> cases h : o.trackAllocs <;> simp [h0, h]
@[simp] theorem doPerturb_replaceMalloc : (doPerturb o).replaceMalloc = o.replaceMalloc := by
  unfold doPerturb; cases h0 : o.perturbOnly <;> cases h : o.trackAllocs <;> simp [h0, h]
@[simp] theorem doPerturb_replaceRealloc : (doPerturb o).replaceRealloc = o.replaceRealloc := by
  unfold doPerturb; cases h0 : o.perturbOnly <;> cases h : o.trackAllocs <;> simp [h0, h]
@[simp] theorem doPerturb_sizeInRedzone : (doPerturb o).sizeInRedzone = o.sizeInRedzone := by
  unfold doPerturb; cases h0 : o.perturbOnly <;> cases h : o.trackAllocs <;> simp [h0, h]
@[simp] theorem doPerturb_redzone : (doPerturb o).redzone = o.redzone := by
  unfold doPerturb; cases h0 : o.perturbOnly <;> cases h : o.trackAllocs <;> simp [h0, h]
@[simp] theorem doPerturb_persistCode : (doPerturb o).persistCode = o.persistCode := by
  unfold doPerturb; cases h0 : o.perturbOnly <;> cases h : o.trackAllocs <;> simp [h0, h]
@[simp] theorem doPerturb_quiet : (doPerturb o).quiet = o.quiet := by
  unfold doPerturb; cases h0 : o.perturbOnly <;> cases h : o.trackAllocs <;> simp [h0, h]
@[simp] theorem doPerturb_resultsToStderr : (doPerturb o).resultsToStderr = o.resultsToStderr := by
  unfold doPerturb; cases h0 : o.perturbOnly <;> cases h : o.trackAllocs <;> simp [h0, h]
@[simp] theorem doPerturb_summary : (doPerturb o).summary = o.summary := by
  unfold doPerturb; cases h0 : o.perturbOnly <;> cases h : o.trackAllocs <;> simp [h0, h]
@[simp] theorem doPerturb_spillSlots : (doPerturb o).spillSlots = o.spillSlots := by
  unfold doPerturb; cases h0 : o.perturbOnly <;> cases h : o.trackAllocs <;> simp [h0, h]
@[simp] theorem doPerturb_nativeUntil : (doPerturb o).nativeUntil = o.nativeUntil := by
  unfold doPerturb; cases h0 : o.perturbOnly <;> cases h : o.trackAllocs <;> simp [h0, h]
@[simp] theorem doPerturb_bad : (doPerturb o).bad = o.bad := by
  unfold doPerturb; cases h0 : o.perturbOnly <;> cases h : o.trackAllocs <;> simp [h0, h]
@[simp] theorem doLight_nativeParent : (doLight a s o).nativeParent = o.nativeParent := by
  unfold doLight; split <;> rfl
@[simp] theorem doLight_leaksOnly : (doLight a s o).leaksOnly = o.leaksOnly := by
  unfold doLight; split <;> rfl
@[simp] theorem doLight_perturbOnly : (doLight a s o).perturbOnly = o.perturbOnly := by
  unfold doLight; split <;> rfl
@[simp] theorem doLight_handleLeaksOnly : (doLight a s o).handleLeaksOnly = o.handleLeaksOnly := by
  unfold doLight; split <;> rfl
@[simp] theorem doLight_light : (doLight a s o).light = o.light := by
  unfold doLight; split <;> rfl
@[simp] theorem doLight_unaddrOnly : (doLight a s o).unaddrOnly = o.unaddrOnly := by
  unfold doLight; split <;> rfl
@[simp] theorem doLight_pattern : (doLight a s o).pattern = if o.light = true then (if s.pattern then o.pattern else defaultPattern) else o.pattern := by
  unfold doLight; split <;> rfl
@[simp] theorem doLight_shadowing : (doLight a s o).shadowing = o.shadowing := by
  unfold doLight; split <;> rfl
@[simp] theorem doLight_checkUninit : (doLight a s o).checkUninit = if o.light = true then false else o.checkUninit := by
  unfold doLight; split <;> rfl
@[simp] theorem doLight_stackBounds : (doLight a s o).stackBounds = o.stackBounds := by
  unfold doLight; split <;> rfl
@[simp] theorem doLight_stackAccess : (doLight a s o).stackAccess = o.stackAccess := by
  unfold doLight; split <;> rfl
@[simp] theorem doLight_alignment : (doLight a s o).alignment = o.alignment := by
  unfold doLight; split <;> rfl
@[simp] theorem doLight_analyzeUnknown : (doLight a s o).analyzeUnknown = o.analyzeUnknown := by
  unfold doLight; split <;> rfl
@[simp] theorem doLight_countLeaks : (doLight a s o).countLeaks = if o.light = true then (if s.countLeaks || s.checkLeaks then o.countLeaks else false) else o.countLeaks := by
  unfold doLight; split <;> rfl
@[simp] theorem doLight_leaksOnDestroy : (doLight a s o).leaksOnDestroy = o.leaksOnDestroy := by
  unfold doLight; split <;> rfl
@[simp] theorem doLight_checkDelete : (doLight a s o).checkDelete = o.checkDelete := by
  unfold doLight; split <;> rfl
@[simp] theorem doLight_checkGdi : (doLight a s o).checkGdi = o.checkGdi := by
  unfold doLight; split <;> rfl
@[simp] theorem doLight_checkHandleLeaks : (doLight a s o).checkHandleLeaks = if o.light = true then (if a.win && !s.checkHandleLeaks then false else o.checkHandleLeaks) else o.checkHandleLeaks := by
  unfold doLight; split <;> rfl
@[simp] theorem doLight_trackAllocs : (doLight a s o).trackAllocs = o.trackAllocs := by
  unfold doLight; split <;> rfl
@[simp] theorem doLight_trackHeap : (doLight a s o).trackHeap = o.trackHeap := by
  unfold doLight; split <;> rfl
@[simp] theorem doLight_perturb : (doLight a s o).perturb = o.perturb := by
  unfold doLight; split <;> rfl
@[simp] theorem doLight_showThreads : (doLight a s o).showThreads = o.showThreads := by
  unfold doLight; split <;> rfl
@[simp] theorem doLight_replaceMalloc : (doLight a s o).replaceMalloc = o.replaceMalloc := by
  unfold doLight; split <;> rfl
@[simp] theorem doLight_replaceRealloc : (doLight a s o).replaceRealloc = o.replaceRealloc := by
  unfold doLight; split <;> rfl
@[simp] theorem doLight_sizeInRedzone : (doLight a s o).sizeInRedzone = o.sizeInRedzone := by
  unfold doLight; split <;> rfl
@[simp] theorem doLight_redzone : (doLight a s o).redzone = o.redzone := by
  unfold doLight; split <;> rfl
@[simp] theorem doLight_persistCode : (doLight a s o).persistCode = o.persistCode := by
  unfold doLight; split <;> rfl
@[simp] theorem doLight_quiet : (doLight a s o).quiet = o.quiet := by
  unfold doLight; split <;> rfl
@[simp] theorem doLight_resultsToStderr : (doLight a s o).resultsToStderr = o.resultsToStderr := by
  unfold doLight; split <;> rfl
@[simp] theorem doLight_summary : (doLight a s o).summary = o.summary := by
  unfold doLight; split <;> rfl
@[simp] theorem doLight_spillSlots : (doLight a s o).spillSlots = o.spillSlots := by
  unfold doLight; split <;> rfl
@[simp] theorem doLight_nativeUntil : (doLight a s o).nativeUntil = o.nativeUntil := by
  unfold doLight; split <;> rfl
@[simp] theorem doLight_bad : (doLight a s o).bad = o.bad := by
  unfold doLight; split <;> rfl
@[simp] theorem doUnaddr_nativeParent : (doUnaddr a s o).nativeParent = o.nativeParent := by
  unfold doUnaddr; split <;> rfl
@[simp] theorem doUnaddr_leaksOnly : (doUnaddr a s o).leaksOnly = o.leaksOnly := by
  unfold doUnaddr; split <;> rfl
@[simp] theorem doUnaddr_perturbOnly : (doUnaddr a s o).perturbOnly = o.perturbOnly := by
  unfold doUnaddr; split <;> rfl
@[simp] theorem doUnaddr_handleLeaksOnly : (doUnaddr a s o).handleLeaksOnly = o.handleLeaksOnly := by
  unfold doUnaddr; split <;> rfl
@[simp] theorem doUnaddr_light : (doUnaddr a s o).light = o.light := by
  unfold doUnaddr; split <;> rfl
@[simp] theorem doUnaddr_unaddrOnly : (doUnaddr a s o).unaddrOnly = o.unaddrOnly := by
  unfold doUnaddr; split <;> rfl
@[simp] theorem doUnaddr_pattern : (doUnaddr a s o).pattern = if o.unaddrOnly = true then (if s.pattern then o.pattern else defaultPattern) else o.pattern := by
  unfold doUnaddr; split <;> rfl
@[simp] theorem doUnaddr_shadowing : (doUnaddr a s o).shadowing = o.shadowing := by
  unfold doUnaddr; split <;> rfl
@[simp] theorem doUnaddr_checkUninit : (doUnaddr a s o).checkUninit = o.checkUninit := by
  unfold doUnaddr; split <;> rfl
@[simp] theorem doUnaddr_stackBounds : (doUnaddr a s o).stackBounds = o.stackBounds := by
  unfold doUnaddr; split <;> rfl
@[simp] theorem doUnaddr_stackAccess : (doUnaddr a s o).stackAccess = o.stackAccess := by
  unfold doUnaddr; split <;> rfl
@[simp] theorem doUnaddr_alignment : (doUnaddr a s o).alignment = o.alignment := by
  unfold doUnaddr; split <;> rfl
@[simp] theorem doUnaddr_analyzeUnknown : (doUnaddr a s o).analyzeUnknown = o.analyzeUnknown := by
  unfold doUnaddr; split <;> rfl
@[simp] theorem doUnaddr_countLeaks : (doUnaddr a s o).countLeaks = if o.unaddrOnly = true then (if s.countLeaks then o.countLeaks else false) else o.countLeaks := by
  unfold doUnaddr; split <;> rfl
@[simp] theorem doUnaddr_leaksOnDestroy : (doUnaddr a s o).leaksOnDestroy = o.leaksOnDestroy := by
  unfold doUnaddr; split <;> rfl
@[simp] theorem doUnaddr_checkDelete : (doUnaddr a s o).checkDelete = if o.unaddrOnly = true then (if s.checkDelete then o.checkDelete else false) else o.checkDelete := by
  unfold doUnaddr; split <;> rfl
@[simp] theorem doUnaddr_checkGdi : (doUnaddr a s o).checkGdi = if o.unaddrOnly = true then (if a.win && !s.checkGdi then false else o.checkGdi) else o.checkGdi := by
  unfold doUnaddr; split <;> rfl
@[simp] theorem doUnaddr_checkHandleLeaks : (doUnaddr a s o).checkHandleLeaks = if o.unaddrOnly = true then (if a.win && !s.checkHandleLeaks then false else o.checkHandleLeaks) else o.checkHandleLeaks := by
  unfold doUnaddr; split <;> rfl
@[simp] theorem doUnaddr_trackAllocs : (doUnaddr a s o).trackAllocs = o.trackAllocs := by
  unfold doUnaddr; split <;> rfl
@[simp] theorem doUnaddr_trackHeap : (doUnaddr a s o).trackHeap = o.trackHeap := by
  unfold doUnaddr; split <;> rfl
@[simp] theorem doUnaddr_perturb : (doUnaddr a s o).perturb = o.perturb := by
  unfold doUnaddr; split <;> rfl
@[simp] theorem doUnaddr_showThreads : (doUnaddr a s o).showThreads = o.showThreads := by
  unfold doUnaddr; split <;> rfl
@[simp] theorem doUnaddr_replaceMalloc : (doUnaddr a s o).replaceMalloc = o.replaceMalloc := by
  unfold doUnaddr; split <;> rfl
@[simp] theorem doUnaddr_replaceRealloc : (doUnaddr a s o).replaceRealloc = o.replaceRealloc := by
  unfold doUnaddr; split <;> rfl
@[simp] theorem doUnaddr_sizeInRedzone : (doUnaddr a s o).sizeInRedzone = o.sizeInRedzone := by
  unfold doUnaddr; split <;> rfl
@[simp] theorem doUnaddr_redzone : (doUnaddr a s o).redzone = o.redzone := by
  unfold doUnaddr; split <;> rfl
@[simp] theorem doUnaddr_persistCode : (doUnaddr a s o).persistCode = o.persistCode := by
  unfold doUnaddr; split <;> rfl
@[simp] theorem doUnaddr_quiet : (doUnaddr a s o).quiet = o.quiet := by
  unfold doUnaddr; split <;> rfl
@[simp] theorem doUnaddr_resultsToStderr : (doUnaddr a s o).resultsToStderr = o.resultsToStderr := by
  unfold doUnaddr; split <;> rfl
@[simp] theorem doUnaddr_summary : (doUnaddr a s o).summary = o.summary := by
  unfold doUnaddr; split <;> rfl
@[simp] theorem doUnaddr_spillSlots : (doUnaddr a s o).spillSlots = o.spillSlots := by
  unfold doUnaddr; split <;> rfl
@[simp] theorem doUnaddr_nativeUntil : (doUnaddr a s o).nativeUntil = o.nativeUntil := by
  unfold doUnaddr; split <;> rfl
@[simp] theorem doUnaddr_bad : (doUnaddr a s o).bad = o.bad := by
  unfold doUnaddr; split <;> rfl
@[simp] theorem doPattern_nativeParent : (doPattern a o).nativeParent = o.nativeParent := by
  unfold doPattern; split <;> rfl
@[simp] theorem doPattern_leaksOnly : (doPattern a o).leaksOnly = o.leaksOnly := by
  unfold doPattern; split <;> rfl
@[simp] theorem doPattern_perturbOnly : (doPattern a o).perturbOnly = o.perturbOnly := by
  unfold doPattern; split <;> rfl
@[simp] theorem doPattern_handleLeaksOnly : (doPattern a o).handleLeaksOnly = o.handleLeaksOnly := by
  unfold doPattern; split <;> rfl
@[simp] theorem doPattern_light : (doPattern a o).light = o.light := by
  unfold doPattern; split <;> rfl
@[simp] theorem doPattern_unaddrOnly : (doPattern a o).unaddrOnly = o.unaddrOnly := by
  unfold doPattern; split <;> rfl
@[simp] theorem doPattern_pattern : (doPattern a o).pattern = if o.pattern ≠ 0 then (o.pattern ||| (o.pattern <<< 16) % 2 ^ 32) else o.pattern := by
  unfold doPattern; split <;> rfl
@[simp] theorem doPattern_shadowing : (doPattern a o).shadowing = if o.pattern ≠ 0 then false else o.shadowing := by
  unfold doPattern; split <;> rfl
@[simp] theorem doPattern_checkUninit : (doPattern a o).checkUninit = if o.pattern ≠ 0 then false else o.checkUninit := by
  unfold doPattern; split <;> rfl
@[simp] theorem doPattern_stackBounds : (doPattern a o).stackBounds = if o.pattern ≠ 0 then false else o.stackBounds := by
  unfold doPattern; split <;> rfl
@[simp] theorem doPattern_stackAccess : (doPattern a o).stackAccess = if o.pattern ≠ 0 then false else o.stackAccess := by
  unfold doPattern; split <;> rfl
@[simp] theorem doPattern_alignment : (doPattern a o).alignment = if o.pattern ≠ 0 then false else o.alignment := by
  unfold doPattern; split <;> rfl
@[simp] theorem doPattern_analyzeUnknown : (doPattern a o).analyzeUnknown = if o.pattern ≠ 0 then false else o.analyzeUnknown := by
  unfold doPattern; split <;> rfl
@[simp] theorem doPattern_countLeaks : (doPattern a o).countLeaks = o.countLeaks := by
  unfold doPattern; split <;> rfl
@[simp] theorem doPattern_leaksOnDestroy : (doPattern a o).leaksOnDestroy = o.leaksOnDestroy := by
  unfold doPattern; split <;> rfl
@[simp] theorem doPattern_checkDelete : (doPattern a o).checkDelete = o.checkDelete := by
  unfold doPattern; split <;> rfl
@[simp] theorem doPattern_checkGdi : (doPattern a o).checkGdi = o.checkGdi := by
  unfold doPattern; split <;> rfl
@[simp] theorem doPattern_checkHandleLeaks : (doPattern a o).checkHandleLeaks = o.checkHandleLeaks := by
  unfold doPattern; split <;> rfl
@[simp] theorem doPattern_trackAllocs : (doPattern a o).trackAllocs = o.trackAllocs := by
  unfold doPattern; split <;> rfl
@[simp] theorem doPattern_trackHeap : (doPattern a o).trackHeap = o.trackHeap := by
  unfold doPattern; split <;> rfl
@[simp] theorem doPattern_perturb : (doPattern a o).perturb = o.perturb := by
  unfold doPattern; split <;> rfl
@[simp] theorem doPattern_showThreads : (doPattern a o).showThreads = o.showThreads := by
  unfold doPattern; split <;> rfl
@[simp] theorem doPattern_replaceMalloc : (doPattern a o).replaceMalloc = o.replaceMalloc := by
  unfold doPattern; split <;> rfl
@[simp] theorem doPattern_replaceRealloc : (doPattern a o).replaceRealloc = o.replaceRealloc := by
  unfold doPattern; split <;> rfl
@[simp] theorem doPattern_sizeInRedzone : (doPattern a o).sizeInRedzone = if o.pattern ≠ 0 then false else o.sizeInRedzone := by
  unfold doPattern; split <;> rfl
@[simp] theorem doPattern_redzone : (doPattern a o).redzone = o.redzone := by
  unfold doPattern; split <;> rfl
@[simp] theorem doPattern_persistCode : (doPattern a o).persistCode = o.persistCode := by
  unfold doPattern; split <;> rfl
@[simp] theorem doPattern_quiet : (doPattern a o).quiet = o.quiet := by
  unfold doPattern; split <;> rfl
@[simp] theorem doPattern_resultsToStderr : (doPattern a o).resultsToStderr = o.resultsToStderr := by
  unfold doPattern; split <;> rfl
@[simp] theorem doPattern_summary : (doPattern a o).summary = o.summary := by
  unfold doPattern; split <;> rfl
@[simp] theorem doPattern_spillSlots : (doPattern a o).spillSlots = o.spillSlots := by
  unfold doPattern; split <;> rfl
@[simp] theorem doPattern_nativeUntil : (doPattern a o).nativeUntil = o.nativeUntil := by
  unfold doPattern; split <;> rfl
@[simp] theorem doPattern_bad : (doPattern a o).bad = if o.pattern ≠ 0 then (o.bad || decide (o.redzone = 0 ∨ o.redzone % (if a.x64 then 8 else 4) ≠ 0) || decide (o.pattern / 2 ^ 16 ≠ 0) || o.leaksOnly || (a.win && o.handleLeaksOnly)) else (o.bad || decide (o.redzone % (if a.x64 then 16 else 8) ≠ 0)) := by
  unfold doPattern; split <;> rfl
@[simp] theorem doReplace_nativeParent : (doReplace o).nativeParent = o.nativeParent := by
  unfold doReplace; split <;> rfl
@[simp] theorem doReplace_leaksOnly : (doReplace o).leaksOnly = o.leaksOnly := by
  unfold doReplace; split <;> rfl
@[simp] theorem doReplace_perturbOnly : (doReplace o).perturbOnly = o.perturbOnly := by
  unfold doReplace; split <;> rfl
@[simp] theorem doReplace_handleLeaksOnly : (doReplace o).handleLeaksOnly = o.handleLeaksOnly := by
  unfold doReplace; split <;> rfl
@[simp] theorem doReplace_light : (doReplace o).light = o.light := by
  unfold doReplace; split <;> rfl
@[simp] theorem doReplace_unaddrOnly : (doReplace o).unaddrOnly = o.unaddrOnly := by
  unfold doReplace; split <;> rfl
@[simp] theorem doReplace_pattern : (doReplace o).pattern = o.pattern := by
  unfold doReplace; split <;> rfl
@[simp] theorem doReplace_shadowing : (doReplace o).shadowing = o.shadowing := by
  unfold doReplace; split <;> rfl
@[simp] theorem doReplace_checkUninit : (doReplace o).checkUninit = o.checkUninit := by
  unfold doReplace; split <;> rfl
@[simp] theorem doReplace_stackBounds : (doReplace o).stackBounds = o.stackBounds := by
  unfold doReplace; split <;> rfl
@[simp] theorem doReplace_stackAccess : (doReplace o).stackAccess = o.stackAccess := by
  unfold doReplace; split <;> rfl
@[simp] theorem doReplace_alignment : (doReplace o).alignment = o.alignment := by
  unfold doReplace; split <;> rfl
@[simp] theorem doReplace_analyzeUnknown : (doReplace o).analyzeUnknown = o.analyzeUnknown := by
  unfold doReplace; split <;> rfl
@[simp] theorem doReplace_countLeaks : (doReplace o).countLeaks = o.countLeaks := by
  unfold doReplace; split <;> rfl
@[simp] theorem doReplace_leaksOnDestroy : (doReplace o).leaksOnDestroy = o.leaksOnDestroy := by
  unfold doReplace; split <;> rfl
@[simp] theorem doReplace_checkDelete : (doReplace o).checkDelete = o.checkDelete := by
  unfold doReplace; split <;> rfl
@[simp] theorem doReplace_checkGdi : (doReplace o).checkGdi = o.checkGdi := by
  unfold doReplace; split <;> rfl
@[simp] theorem doReplace_checkHandleLeaks : (doReplace o).checkHandleLeaks = o.checkHandleLeaks := by
  unfold doReplace; split <;> rfl
@[simp] theorem doReplace_trackAllocs : (doReplace o).trackAllocs = o.trackAllocs := by
  unfold doReplace; split <;> rfl
@[simp] theorem doReplace_trackHeap : (doReplace o).trackHeap = o.trackHeap := by
  unfold doReplace; split <;> rfl
@[simp] theorem doReplace_perturb : (doReplace o).perturb = o.perturb := by
  unfold doReplace; split <;> rfl
@[simp] theorem doReplace_showThreads : (doReplace o).showThreads = o.showThreads := by
  unfold doReplace; split <;> rfl
@[simp] theorem doReplace_replaceMalloc : (doReplace o).replaceMalloc = o.replaceMalloc := by
  unfold doReplace; split <;> rfl
@[simp] theorem doReplace_replaceRealloc : (doReplace o).replaceRealloc = if o.replaceMalloc = true then false else o.replaceRealloc := by
  unfold doReplace; split <;> rfl
@[simp] theorem doReplace_sizeInRedzone : (doReplace o).sizeInRedzone = if o.replaceMalloc = true then false else o.sizeInRedzone := by
  unfold doReplace; split <;> rfl
@[simp] theorem doReplace_redzone : (doReplace o).redzone = if o.replaceMalloc = true then (if o.pattern = 0 then o.redzone * 2 else o.redzone) else o.redzone := by
  unfold doReplace; split <;> rfl
@[simp] theorem doReplace_persistCode : (doReplace o).persistCode = o.persistCode := by
  unfold doReplace; split <;> rfl
@[simp] theorem doReplace_quiet : (doReplace o).quiet = o.quiet := by
  unfold doReplace; split <;> rfl
@[simp] theorem doReplace_resultsToStderr : (doReplace o).resultsToStderr = o.resultsToStderr := by
  unfold doReplace; split <;> rfl
@[simp] theorem doReplace_summary : (doReplace o).summary = o.summary := by
  unfold doReplace; split <;> rfl
@[simp] theorem doReplace_spillSlots : (doReplace o).spillSlots = o.spillSlots := by
  unfold doReplace; split <;> rfl
@[simp] theorem doReplace_nativeUntil : (doReplace o).nativeUntil = o.nativeUntil := by
  unfold doReplace; split <;> rfl
@[simp] theorem doReplace_bad : (doReplace o).bad = o.bad := by
  unfold doReplace; split <;> rfl
@[simp] theorem doUninit_nativeParent : (doUninit o).nativeParent = o.nativeParent := by
  unfold doUninit usageIf; split <;> rfl
@[simp] theorem doUninit_leaksOnly : (doUninit o).leaksOnly = o.leaksOnly := by
  unfold doUninit usageIf; split <;> rfl
@[simp] theorem doUninit_perturbOnly : (doUninit o).perturbOnly = o.perturbOnly := by
  unfold doUninit usageIf; split <;> rfl
@[simp] theorem doUninit_handleLeaksOnly : (doUninit o).handleLeaksOnly = o.handleLeaksOnly := by
  unfold doUninit usageIf; split <;> rfl
@[simp] theorem doUninit_light : (doUninit o).light = o.light := by
  unfold doUninit usageIf; split <;> rfl
@[simp] theorem doUninit_unaddrOnly : (doUninit o).unaddrOnly = o.unaddrOnly := by
  unfold doUninit usageIf; split <;> rfl
@[simp] theorem doUninit_pattern : (doUninit o).pattern = o.pattern := by
  unfold doUninit usageIf; split <;> rfl
@[simp] theorem doUninit_shadowing : (doUninit o).shadowing = o.shadowing := by
  unfold doUninit usageIf; split <;> rfl
@[simp] theorem doUninit_checkUninit : (doUninit o).checkUninit = o.checkUninit := by
  unfold doUninit usageIf; split <;> rfl
@[simp] theorem doUninit_stackBounds : (doUninit o).stackBounds = if o.checkUninit = true then true else o.stackBounds := by
  unfold doUninit usageIf; split <;> rfl
@[simp] theorem doUninit_stackAccess : (doUninit o).stackAccess = if o.checkUninit = true then true else o.stackAccess := by
  unfold doUninit usageIf; split <;> rfl
@[simp] theorem doUninit_alignment : (doUninit o).alignment = if o.checkUninit = true then true else o.alignment := by
  unfold doUninit usageIf; split <;> rfl
@[simp] theorem doUninit_analyzeUnknown : (doUninit o).analyzeUnknown = o.analyzeUnknown := by
  unfold doUninit usageIf; split <;> rfl
@[simp] theorem doUninit_countLeaks : (doUninit o).countLeaks = o.countLeaks := by
  unfold doUninit usageIf; split <;> rfl
@[simp] theorem doUninit_leaksOnDestroy : (doUninit o).leaksOnDestroy = o.leaksOnDestroy := by
  unfold doUninit usageIf; split <;> rfl
@[simp] theorem doUninit_checkDelete : (doUninit o).checkDelete = o.checkDelete := by
  unfold doUninit usageIf; split <;> rfl
@[simp] theorem doUninit_checkGdi : (doUninit o).checkGdi = o.checkGdi := by
  unfold doUninit usageIf; split <;> rfl
@[simp] theorem doUninit_checkHandleLeaks : (doUninit o).checkHandleLeaks = o.checkHandleLeaks := by
  unfold doUninit usageIf; split <;> rfl
@[simp] theorem doUninit_trackAllocs : (doUninit o).trackAllocs = o.trackAllocs := by
  unfold doUninit usageIf; split <;> rfl
@[simp] theorem doUninit_trackHeap : (doUninit o).trackHeap = o.trackHeap := by
  unfold doUninit usageIf; split <;> rfl
@[simp] theorem doUninit_perturb : (doUninit o).perturb = o.perturb := by
  unfold doUninit usageIf; split <;> rfl
@[simp] theorem doUninit_showThreads : (doUninit o).showThreads = o.showThreads := by
  unfold doUninit usageIf; split <;> rfl
@[simp] theorem doUninit_replaceMalloc : (doUninit o).replaceMalloc = o.replaceMalloc := by
  unfold doUninit usageIf; split <;> rfl
@[simp] theorem doUninit_replaceRealloc : (doUninit o).replaceRealloc = o.replaceRealloc := by
  unfold doUninit usageIf; split <;> rfl
@[simp] theorem doUninit_sizeInRedzone : (doUninit o).sizeInRedzone = o.sizeInRedzone := by
  unfold doUninit usageIf; split <;> rfl
@[simp] theorem doUninit_redzone : (doUninit o).redzone = o.redzone := by
  unfold doUninit usageIf; split <;> rfl
@[simp] theorem doUninit_persistCode : (doUninit o).persistCode = o.persistCode := by
  unfold doUninit usageIf; split <;> rfl
@[simp] theorem doUninit_quiet : (doUninit o).quiet = o.quiet := by
  unfold doUninit usageIf; split <;> rfl
@[simp] theorem doUninit_resultsToStderr : (doUninit o).resultsToStderr = o.resultsToStderr := by
  unfold doUninit usageIf; split <;> rfl
@[simp] theorem doUninit_summary : (doUninit o).summary = o.summary := by
  unfold doUninit usageIf; split <;> rfl
@[simp] theorem doUninit_spillSlots : (doUninit o).spillSlots = o.spillSlots := by
  unfold doUninit usageIf; split <;> rfl
@[simp] theorem doUninit_nativeUntil : (doUninit o).nativeUntil = o.nativeUntil := by
  unfold doUninit usageIf; split <;> rfl
@[simp] theorem doUninit_bad : (doUninit o).bad = if o.checkUninit = true then (o.bad || (o.stackBounds || o.stackAccess || o.alignment)) else o.bad := by
  unfold doUninit usageIf; split <;> rfl
@[simp] theorem doQuiet_nativeParent : (doQuiet o).nativeParent = o.nativeParent := by
  unfold doQuiet; cases h : o.countLeaks <;> cases h' : o.quiet <;> simp [h, h']
@[simp] theorem doPersist_nativeParent : (doPersist o).nativeParent = o.nativeParent := by
  rfl
@[simp] theorem doQuiet_leaksOnly : (doQuiet o).leaksOnly = o.leaksOnly := by
  unfold doQuiet; cases h : o.countLeaks <;> cases h' : o.quiet <;> simp [h, h']
@[simp] theorem doPersist_leaksOnly : (doPersist o).leaksOnly = o.leaksOnly := by
  rfl
@[simp] theorem doQuiet_perturbOnly : (doQuiet o).perturbOnly = o.perturbOnly := by
  unfold doQuiet; cases h : o.countLeaks <;> cases h' : o.quiet <;> simp [h, h']
@[simp] theorem doPersist_perturbOnly : (doPersist o).perturbOnly = o.perturbOnly := by
  rfl
@[simp] theorem doQuiet_handleLeaksOnly : (doQuiet o).handleLeaksOnly = o.handleLeaksOnly := by
  unfold doQuiet; cases h : o.countLeaks <;> cases h' : o.quiet <;> simp [h, h']
@[simp] theorem doPersist_handleLeaksOnly : (doPersist o).handleLeaksOnly = o.handleLeaksOnly := by
  rfl
@[simp] theorem doQuiet_light : (doQuiet o).light = o.light := by
  unfold doQuiet; cases h : o.countLeaks <;> cases h' : o.quiet <;> simp [h, h']
@[simp] theorem doPersist_light : (doPersist o).light = o.light := by
  rfl
@[simp] theorem doQuiet_unaddrOnly : (doQuiet o).unaddrOnly = o.unaddrOnly := by
  unfold doQuiet; cases h : o.countLeaks <;> cases h' : o.quiet <;> simp [h, h']
@[simp] theorem doPersist_unaddrOnly : (doPersist o).unaddrOnly = o.unaddrOnly := by
  rfl
@[simp] theorem doQuiet_pattern : (doQuiet o).pattern = o.pattern := by
  unfold doQuiet; cases h : o.countLeaks <;> cases h' : o.quiet <;> simp [h, h']
@[simp] theorem doPersist_pattern : (doPersist o).pattern = o.pattern := by
  rfl
@[simp] theorem doQuiet_shadowing : (doQuiet o).shadowing = o.shadowing := by
  unfold doQuiet; cases h : o.countLeaks <;> cases h' : o.quiet <;> simp [h, h']
@[simp] theorem doPersist_shadowing : (doPersist o).shadowing = o.shadowing := by
  rfl
@[simp] theorem doQuiet_checkUninit : (doQuiet o).checkUninit = o.checkUninit := by
  unfold doQuiet; cases h : o.countLeaks <;> cases h' : o.quiet <;> simp [h, h']
@[simp] theorem doPersist_checkUninit : (doPersist o).checkUninit = o.checkUninit := by
  rfl
@[simp] theorem doQuiet_stackBounds : (doQuiet o).stackBounds = o.stackBounds := by
  unfold doQuiet; cases h : o.countLeaks <;> cases h' : o.quiet <;> simp [h, h']
@[simp] theorem doPersist_stackBounds : (doPersist o).stackBounds = o.stackBounds := by
  rfl
@[simp] theorem doQuiet_stackAccess : (doQuiet o).stackAccess = o.stackAccess := by
  unfold doQuiet; cases h : o.countLeaks <;> cases h' : o.quiet <;> simp [h, h']
@[simp] theorem doPersist_stackAccess : (doPersist o).stackAccess = o.stackAccess := by
  rfl
@[simp] theorem doQuiet_alignment : (doQuiet o).alignment = o.alignment := by
  unfold doQuiet; cases h : o.countLeaks <;> cases h' : o.quiet <;> simp [h, h']
@[simp] theorem doPersist_alignment : (doPersist o).alignment = o.alignment := by
  rfl
@[simp] theorem doQuiet_analyzeUnknown : (doQuiet o).analyzeUnknown = o.analyzeUnknown := by
  unfold doQuiet; cases h : o.countLeaks <;> cases h' : o.quiet <;> simp [h, h']
@[simp] theorem doPersist_analyzeUnknown : (doPersist o).analyzeUnknown = o.analyzeUnknown := by
  rfl
@[simp] theorem doQuiet_countLeaks : (doQuiet o).countLeaks = o.countLeaks := by
  unfold doQuiet; cases h : o.countLeaks <;> cases h' : o.quiet <;> simp [h, h']
@[simp] theorem doPersist_countLeaks : (doPersist o).countLeaks = o.countLeaks := by
  rfl
@[simp] theorem doQuiet_leaksOnDestroy : (doQuiet o).leaksOnDestroy = (o.countLeaks && o.leaksOnDestroy) := by
  unfold doQuiet; cases h : o.countLeaks <;> cases h' : o.quiet <;> simp [h, h']
@[simp] theorem doPersist_leaksOnDestroy : (doPersist o).leaksOnDestroy = o.leaksOnDestroy := by
  rfl
@[simp] theorem doQuiet_checkDelete : (doQuiet o).checkDelete = o.checkDelete := by
  unfold doQuiet; cases h : o.countLeaks <;> cases h' : o.quiet <;> simp [h, h']
@[simp] theorem doPersist_checkDelete : (doPersist o).checkDelete = o.checkDelete := by
  rfl
@[simp] theorem doQuiet_checkGdi : (doQuiet o).checkGdi = o.checkGdi := by
  unfold doQuiet; cases h : o.countLeaks <;> cases h' : o.quiet <;> simp [h, h']
@[simp] theorem doPersist_checkGdi : (doPersist o).checkGdi = o.checkGdi := by
  rfl
@[simp] theorem doQuiet_checkHandleLeaks : (doQuiet o).checkHandleLeaks = o.checkHandleLeaks := by
  unfold doQuiet; cases h : o.countLeaks <;> cases h' : o.quiet <;> simp [h, h']
@[simp] theorem doPersist_checkHandleLeaks : (doPersist o).checkHandleLeaks = o.checkHandleLeaks := by
  rfl
@[simp] theorem doQuiet_trackAllocs : (doQuiet o).trackAllocs = o.trackAllocs := by
  unfold doQuiet; cases h : o.countLeaks <;> cases h' : o.quiet <;> simp [h, h']
@[simp] theorem doPersist_trackAllocs : (doPersist o).trackAllocs = o.trackAllocs := by
  rfl
@[simp] theorem doQuiet_trackHeap : (doQuiet o).trackHeap = o.trackHeap := by
  unfold doQuiet; cases h : o.countLeaks <;> cases h' : o.quiet <;> simp [h, h']
@[simp] theorem doPersist_trackHeap : (doPersist o).trackHeap = o.trackHeap := by
  rfl
@[simp] theorem doQuiet_perturb : (doQuiet o).perturb = o.perturb := by
  unfold doQuiet; cases h : o.countLeaks <;> cases h' : o.quiet <;> simp [h, h']
@[simp] theorem doPersist_perturb : (doPersist o).perturb = o.perturb := by
  rfl
@[simp] theorem doQuiet_showThreads : (doQuiet o).showThreads = o.showThreads := by
  unfold doQuiet; cases h : o.countLeaks <;> cases h' : o.quiet <;> simp [h, h']
@[simp] theorem doPersist_showThreads : (doPersist o).showThreads = o.showThreads := by
  rfl
@[simp] theorem doQuiet_replaceMalloc : (doQuiet o).replaceMalloc = o.replaceMalloc := by
  unfold doQuiet; cases h : o.countLeaks <;> cases h' : o.quiet <;> simp [h, h']
@[simp] theorem doPersist_replaceMalloc : (doPersist o).replaceMalloc = o.replaceMalloc := by
  rfl
@[simp] theorem doQuiet_replaceRealloc : (doQuiet o).replaceRealloc = o.replaceRealloc := by
  unfold doQuiet; cases h : o.countLeaks <;> cases h' : o.quiet <;> simp [h, h']
@[simp] theorem doPersist_replaceRealloc : (doPersist o).replaceRealloc = o.replaceRealloc := by
  rfl
@[simp] theorem doQuiet_sizeInRedzone : (doQuiet o).sizeInRedzone = o.sizeInRedzone := by
  unfold doQuiet; cases h : o.countLeaks <;> cases h' : o.quiet <;> simp [h, h']
@[simp] theorem doPersist_sizeInRedzone : (doPersist o).sizeInRedzone = o.sizeInRedzone := by
  rfl
@[simp] theorem doQuiet_redzone : (doQuiet o).redzone = o.redzone := by
  unfold doQuiet; cases h : o.countLeaks <;> cases h' : o.quiet <;> simp [h, h']
@[simp] theorem doPersist_redzone : (doPersist o).redzone = o.redzone := by
  rfl
@[simp] theorem doQuiet_persistCode : (doQuiet o).persistCode = o.persistCode := by
  unfold doQuiet; cases h : o.countLeaks <;> cases h' : o.quiet <;> simp [h, h']
@[simp] theorem doPersist_persistCode : (doPersist o).persistCode = o.persistCode := by
  rfl
@[simp] theorem doQuiet_quiet : (doQuiet o).quiet = o.quiet := by
  unfold doQuiet; cases h : o.countLeaks <;> cases h' : o.quiet <;> simp [h, h']
@[simp] theorem doPersist_quiet : (doPersist o).quiet = o.quiet := by
  rfl
@[simp] theorem doQuiet_resultsToStderr : (doQuiet o).resultsToStderr = (!o.quiet && o.resultsToStderr) := by
  unfold doQuiet; cases h : o.countLeaks <;> cases h' : o.quiet <;> simp [h, h']
@[simp] theorem doPersist_resultsToStderr : (doPersist o).resultsToStderr = o.resultsToStderr := by
  rfl
@[simp] theorem doQuiet_summary : (doQuiet o).summary = (!o.quiet && o.summary) := by
  unfold doQuiet; cases h : o.countLeaks <;> cases h' : o.quiet <;> simp [h, h']
@[simp] theorem doPersist_summary : (doPersist o).summary = o.summary := by
  rfl
@[simp] theorem doQuiet_spillSlots : (doQuiet o).spillSlots = o.spillSlots := by
  unfold doQuiet; cases h : o.countLeaks <;> cases h' : o.quiet <;> simp [h, h']
@[simp] theorem doPersist_spillSlots : (doPersist o).spillSlots = o.spillSlots := by
  rfl
@[simp] theorem doQuiet_nativeUntil : (doQuiet o).nativeUntil = o.nativeUntil := by
  unfold doQuiet; cases h : o.countLeaks <;> cases h' : o.quiet <;> simp [h, h']
@[simp] theorem doPersist_nativeUntil : (doPersist o).nativeUntil = o.nativeUntil := by
  rfl
@[simp] theorem doQuiet_bad : (doQuiet o).bad = o.bad := by
  unfold doQuiet; cases h : o.countLeaks <;> cases h' : o.quiet <;> simp [h, h']
@[simp] theorem doPersist_bad : (doPersist o).bad = (o.bad || (o.persistCode && !(!o.checkUninit || !o.shadowing))) := by
  rfl

end Verif.OptDeps
