import Verif.OptDepsEqs

/-!
# Dependent options: theorems
-/

namespace Verif.OptDeps

/-- The combination is not rejected. -/
def Accepted (a : Arch) (s : Spec) (o : Opts) : Prop := (resolve a s o).bad = false

/-! ## Modes -/

/-- C54: whatever the options are, the tool ends up with shadow memory or with patterns or with
neither, never with both; with patterns none of the checks that need shadow memory is on; and the
checks that come with uninitialised reads are on together. -/
theorem C54_mode (a : Arch) (s : Spec) (o : Opts) (h : Accepted a s o) :
    ((resolve a s o).pattern ≠ 0 → (resolve a s o).shadowing = false ∧ (resolve a s o).checkUninit = false ∧
      (resolve a s o).stackBounds = false ∧ (resolve a s o).stackAccess = false ∧ (resolve a s o).alignment = false ∧
      (resolve a s o).analyzeUnknown = false ∧ (resolve a s o).leaksOnly = false) ∧
    ((resolve a s o).checkUninit = true → (resolve a s o).stackBounds = true ∧ (resolve a s o).stackAccess = true ∧
      (resolve a s o).alignment = true) := by
  unfold Accepted resolve at *
  generalize doUnaddr a s (doLight a s (doPerturb (doHandle a s (doOnly a s (doNative o))))) = f at *
  simp at *
  by_cases hp : f.pattern = 0
  · simp [hp]
    intro hu
    simp [hu]
  · simp [hp] at *
    simp [h]

/-- Without one of the options that stand for a mode, all checks stay as they were given. -/
theorem C54_full (a : Arch) (s : Spec) (o : Opts) (h0 : o.nativeParent = false) (h1 : o.leaksOnly = false)
    (h2 : o.perturbOnly = false) (h3 : o.handleLeaksOnly = false) (h4 : o.light = false) (h5 : o.unaddrOnly = false)
    (h6 : o.pattern = 0) :
    (resolve a s o).shadowing = o.shadowing ∧ (resolve a s o).checkUninit = o.checkUninit ∧
    (resolve a s o).pattern = 0 ∧ (resolve a s o).countLeaks = o.countLeaks ∧
    (resolve a s o).checkDelete = o.checkDelete ∧ (resolve a s o).checkGdi = o.checkGdi ∧
    (resolve a s o).checkHandleLeaks = o.checkHandleLeaks ∧ (resolve a s o).trackAllocs = o.trackAllocs ∧
    (resolve a s o).trackHeap = (o.trackAllocs && o.trackHeap) ∧
    (resolve a s o).analyzeUnknown = o.analyzeUnknown := by
  unfold resolve
  simp [h0, h1, h2, h3, h4, h5, h6]

/-- C54: `-leaks_only`, and on Windows `-handle_leaks_only`, turn all checks of memory references
off, if the combination is accepted at all; so does `-perturb_only` without `-light` and
`-unaddr_only` (see `C54_perturb_light`). -/
theorem C54_only_partial (a : Arch) (s : Spec) (o : Opts) (h : Accepted a s o)
    (hm : o.leaksOnly = true ∨ (a.win = true ∧ o.handleLeaksOnly = true) ∨
      (o.perturbOnly = true ∧ o.light = false ∧ o.unaddrOnly = false)) :
    instrumentMemrefs (resolve a s o) = false ∧ checkUninits (resolve a s o) = false := by
  unfold Accepted instrumentMemrefs checkUninits resolve at *
  simp at *
  grind

/-- C54: `-handle_leaks_only` and `-perturb_only` also turn the tracking of allocations off, and without
it the heap is not tracked either. -/
theorem C54_track (a : Arch) (s : Spec) (o : Opts) :
    ((a.win = true ∧ o.handleLeaksOnly = true) ∨ o.perturbOnly = true → (resolve a s o).trackAllocs = false) ∧
    ((resolve a s o).trackAllocs = false → (resolve a s o).trackHeap = false) := by
  unfold resolve
  simp
  grind

/-- C54: `-light` never checks for uninitialised reads, and looks for leaks only when an option about
leaks was given. -/
theorem C54_light (a : Arch) (s : Spec) (o : Opts) (hl : o.light = true) :
    checkUninits (resolve a s o) = false ∧ (resolve a s o).checkUninit = false ∧
    (s.countLeaks = false → s.checkLeaks = false → (resolve a s o).countLeaks = false) := by
  unfold checkUninits resolve
  simp [hl]
  grind

/-- C54: `-unaddr_only` checks neither for uninitialised reads nor for leaks or mismatches, unless
these, or a pattern, were asked for (see `C54_unaddr_pattern`). -/
theorem C54_unaddr_partial (a : Arch) (s : Spec) (o : Opts) (hl : o.unaddrOnly = true) (hp : s.pattern = false) :
    checkUninits (resolve a s o) = false ∧ (resolve a s o).checkUninit = false ∧
    (s.countLeaks = false → (resolve a s o).countLeaks = false) ∧
    (s.checkDelete = false → (resolve a s o).checkDelete = false) := by
  unfold checkUninits resolve
  simp [hl, hp, defaultPattern]
  grind

/-- C54: options that were given are not overridden by a mode that only changes defaults. -/
theorem C54_explicit (a : Arch) (s : Spec) (o : Opts) :
    (s.checkGdi = true → (resolve a s o).checkGdi = o.checkGdi) ∧
    (s.checkDelete = true → (resolve a s o).checkDelete = o.checkDelete) ∧
    (s.checkHandleLeaks = true → ¬ (a.win = true ∧ o.handleLeaksOnly = true) →
      (resolve a s o).checkHandleLeaks = o.checkHandleLeaks) ∧
    (s.countLeaks = true → o.nativeParent = false → ¬ (a.win = true ∧ o.handleLeaksOnly = true) →
      (resolve a s o).countLeaks = o.countLeaks) := by
  unfold resolve
  simp
  grind

/-- C54: with `-light`, asking for the details of leaks keeps the leak check. -/
theorem C54_light_leaks (a : Arch) (s : Spec) (o : Opts) (h : s.checkLeaks = true) (h0 : o.nativeParent = false)
    (h1 : ¬ (a.win = true ∧ o.handleLeaksOnly = true)) (h2 : o.unaddrOnly = false) :
    (resolve a s o).countLeaks = o.countLeaks := by
  unfold resolve
  simp [h, h0, h2]
  grind

/-- C54: what is rejected: the options that refine the mode without uninitialised reads, in the mode
with them, and stored code in that mode. -/
theorem C54_contradiction (a : Arch) (s : Spec) (o : Opts) (h : Accepted a s o) :
    ((resolve a s o).checkUninit = true → o.stackBounds = false ∧ o.stackAccess = false ∧ o.alignment = false) ∧
    (o.persistCode = true → checkUninits (resolve a s o) = false) := by
  unfold Accepted checkUninits resolve at *
  simp at *
  grind

/-- C54: `-quiet` wins over options that print. -/
theorem C54_quiet (a : Arch) (s : Spec) (o : Opts) (h : o.quiet = true) :
    (resolve a s o).resultsToStderr = false ∧ (resolve a s o).summary = false := by
  unfold resolve
  simp [h]

/-! ## Values -/

theorem double (p : Nat) (h : p < 2 ^ 16) : p ||| (p <<< 16) % 2 ^ 32 = p * 65537 := by
  have h1 : (p <<< 16) % 2 ^ 32 = p <<< 16 := by
    rw [Nat.shiftLeft_eq]
    apply Nat.mod_eq_of_lt
    omega
  rw [h1, Nat.or_comm, ← Nat.shiftLeft_add_eq_or_of_lt h, Nat.shiftLeft_eq]
  omega

/-- C54: the pattern is the two-byte value that was given, or the default one for the light modes,
twice. -/
theorem C54_pattern (a : Arch) (s : Spec) (o : Opts) (h : Accepted a s o) (hp : (resolve a s o).pattern ≠ 0) :
    ∃ p, 0 < p ∧ p < 2 ^ 16 ∧ (resolve a s o).pattern = p * 65537 ∧
      (s.pattern = true → p = o.pattern) ∧
      (s.pattern = false → o.light = true ∨ o.unaddrOnly = true → p = 0xf1fd) := by
  unfold Accepted resolve at *
  have hf : (doUnaddr a s (doLight a s (doPerturb (doHandle a s (doOnly a s (doNative o)))))).pattern ≠ 0 := by
    intro h0
    apply hp
    simp at h0 ⊢
    grind
  have hlt : (doUnaddr a s (doLight a s (doPerturb (doHandle a s (doOnly a s (doNative o)))))).pattern < 2 ^ 16 := by
    generalize doUnaddr a s (doLight a s (doPerturb (doHandle a s (doOnly a s (doNative o))))) = f at *
    simp [hf] at h
    omega
  have hq : s.pattern = true →
      (doUnaddr a s (doLight a s (doPerturb (doHandle a s (doOnly a s (doNative o)))))).pattern = o.pattern := by
    intro hs
    simp [hs] at hf ⊢
    grind
  have hd : s.pattern = false → o.light = true ∨ o.unaddrOnly = true →
      (doUnaddr a s (doLight a s (doPerturb (doHandle a s (doOnly a s (doNative o)))))).pattern = 0xf1fd := by
    intro hs hl
    simp [hs, defaultPattern] at hf ⊢
    grind
  refine ⟨_, by omega, hlt, ?_, hq, hd⟩
  generalize doUnaddr a s (doLight a s (doPerturb (doHandle a s (doOnly a s (doNative o))))) = f at *
  simp [hf]
  exact double _ hlt

/-- C54: red zones: with shadow memory what was given, doubled for the replacement allocator where two
blocks share one, and aligned as the allocator needs it; with patterns what was given, not empty and
aligned to a pointer. -/
theorem C54_redzone (a : Arch) (s : Spec) (o : Opts) (h : Accepted a s o) :
    ((resolve a s o).pattern = 0 → (resolve a s o).redzone = o.redzone * (if o.replaceMalloc then 2 else 1) ∧
      o.redzone % (if a.x64 then 16 else 8) = 0) ∧
    ((resolve a s o).pattern ≠ 0 → (resolve a s o).redzone = o.redzone ∧ 0 < o.redzone ∧
      o.redzone % (if a.x64 then 8 else 4) = 0) := by
  unfold Accepted resolve at *
  have hr : (doUnaddr a s (doLight a s (doPerturb (doHandle a s (doOnly a s (doNative o)))))).redzone = o.redzone := by simp
  have hm : (doUnaddr a s (doLight a s (doPerturb (doHandle a s (doOnly a s (doNative o)))))).replaceMalloc =
      o.replaceMalloc := by simp
  generalize doUnaddr a s (doLight a s (doPerturb (doHandle a s (doOnly a s (doNative o))))) = f at *
  by_cases hf : f.pattern = 0
  · simp [hf, hr, hm] at h ⊢
    have h2 := h.1
    refine ⟨?_, ?_⟩
    · split <;> simp
    · split at h2
      · exact h2.1.2
      · exact h2.2
  · simp [hf, hr, hm] at h ⊢
    have h2 := h.1.1.1.2
    omega

/-! ## Combinations -/

/-- C54: `-native_parent` can be added to the options of the children, with the exception of
`-unaddr_only` (see `C54_native_unaddr`) and of red zones that only pattern mode accepts. -/
theorem C54_native_partial (a : Arch) (s : Spec) (o : Opts) (h : Accepted a s o) (hu : o.unaddrOnly = false)
    (hr : o.redzone % (if a.x64 then 16 else 8) = 0) : Accepted a s { o with nativeParent := true } ∧
    instrumentMemrefs (resolve a s { o with nativeParent := true }) = false := by
  unfold Accepted instrumentMemrefs resolve at *
  simp [hu, hr] at h ⊢
  grind

/-- The default options of the 64-bit tool on Linux, optionsx.h:131-926. -/
def defaults : Opts :=
  { nativeParent := false, leaksOnly := false, perturbOnly := false, handleLeaksOnly := false, light := false,
    unaddrOnly := false, pattern := 0, shadowing := true, checkUninit := true, stackBounds := false,
    stackAccess := false, alignment := false, analyzeUnknown := true, countLeaks := true, leaksOnDestroy := true,
    checkDelete := true, checkGdi := true, checkHandleLeaks := true, trackAllocs := true, trackHeap := true,
    perturb := false, showThreads := true, replaceMalloc := true, replaceRealloc := true, sizeInRedzone := true,
    redzone := 16, persistCode := false, quiet := false, resultsToStderr := true, summary := true, spillSlots := 6,
    nativeUntil := 0, bad := false }

/-- No option was given. -/
def none : Spec :=
  { checkGdi := false, checkHandleLeaks := false, countLeaks := false, checkLeaks := false, checkDelete := false,
    pattern := false }

def linux64 : Arch := { win := false, x64 := true }

/-- The default options check everything, with red zones of 32 bytes shared by two blocks. -/
example : Accepted linux64 none defaults ∧ checkUninits (resolve linux64 none defaults) = true ∧
    (resolve linux64 none defaults).redzone = 32 := by unfold Accepted; decide +kernel

/-- `-light`: patterns, no leaks. -/
example : Accepted linux64 none { defaults with light := true } ∧
    (resolve linux64 none { defaults with light := true }).pattern = 0xf1fdf1fd ∧
    (resolve linux64 none { defaults with light := true }).countLeaks = false := by unfold Accepted; decide +kernel

example : Accepted linux64 none { defaults with leaksOnly := true } ∧
    Accepted linux64 none { defaults with light := true, nativeParent := true } := by unfold Accepted; decide +kernel

/-- C54: `-perturb_only -light` is accepted, and memory references are checked although `-perturb_only`
"disables all memory checking"; no allocation is tracked at the same time. -/
theorem C54_perturb_light : let o := { defaults with perturbOnly := true, light := true }
    Accepted linux64 none o ∧ instrumentMemrefs (resolve linux64 none o) = true ∧
    (resolve linux64 none o).trackAllocs = false := by unfold Accepted; decide +kernel

/-- C54: `-native_parent -unaddr_only` is rejected although `-unaddr_only` is not: only `-light` and
`-pattern` are taken back for the parent. -/
theorem C54_native_unaddr : Accepted linux64 none { defaults with unaddrOnly := true } ∧
    ¬ Accepted linux64 none { defaults with unaddrOnly := true, nativeParent := true } := by
  unfold Accepted; decide +kernel

/-- C54: `-leaks_only -pattern 0xf1fd` is accepted, the pattern is ignored; `-leaks_only -light` is
rejected because "-leaks_only cannot be used with pattern mode". -/
theorem C54_leaks_pattern : Accepted linux64 { none with pattern := true } { defaults with leaksOnly := true, pattern := 0xf1fd } ∧
    (resolve linux64 { none with pattern := true } { defaults with leaksOnly := true, pattern := 0xf1fd }).pattern = 0 ∧
    ¬ Accepted linux64 none { defaults with leaksOnly := true, light := true } := by
  unfold Accepted; decide +kernel

/-- C54: `-unaddr_only -pattern 0` checks for uninitialised reads. -/
theorem C54_unaddr_pattern : let o := { defaults with unaddrOnly := true }
    Accepted linux64 { none with pattern := true } o ∧ checkUninits (resolve linux64 { none with pattern := true } o) = true := by
  unfold Accepted; decide +kernel

/-- C54: `-light -redzone_size 8` is accepted by the 64-bit tool, whose allocator asserts a multiple of 16;
`-redzone_size 8` alone is not. -/
theorem C54_redzone_light : Accepted linux64 none { defaults with light := true, redzone := 8 } ∧
    ¬ Accepted linux64 none { defaults with redzone := 8 } := by
  unfold Accepted; decide +kernel

end Verif.OptDeps
