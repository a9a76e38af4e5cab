import Verif.FuzzDriver

/-!
# The fuzzing driver without a corpus (C71)

Which bytes and which shadow every iteration of a pass runs on, when a pass ends,
which calls are fuzzed, and that nothing is written outside the buffer, used when
null, released twice or kept.
-/

namespace Verif.FuzzDriver

/-- What the driver relies on in a mutator library: values have the size of the seed,
which nothing changes. -/
structure Lib.Ok {M : Type} (L : Lib M) (size : M → Nat) : Prop where
  start : ∀ b, size (L.start b) = b.length
  next : ∀ m v m', L.next m = some (v, m') → v.length = size m ∧ size m' = size m
  feedback : ∀ m n, size (L.feedback m n) = size m
  current : ∀ m, (L.current m).length = size m

/-! ## The specification -/

/-- The bytes an iteration runs on, from the bytes found and the mutator. -/
def putVal {M : Type} (L : Lib M) (c : Cfg) (m : M) (b : List Byte) : List Byte :=
  match c.singleton with
  | some v => v.take b.length ++ List.replicate (b.length - v.length) 0
  | none =>
    match L.next m with
    | none => b
    | some (v, _) => splice b c.offset v

/-- The mutator after it gave a value. -/
def stepM {M : Type} (L : Lib M) (c : Cfg) (m : M) : M :=
  match c.singleton with
  | some _ => m
  | none =>
    match L.next m with
    | none => m
    | some (_, m') => m'

/-- Whether the iteration of this number gets a new value: not the first one, when it
is to be run on the input itself. -/
def mutates (c : Cfg) (k : Nat) : Bool := !(k == 0 && (c.iters == 0 || c.coverage))

/-- The mutator and the number of blocks after iteration `k` has returned: it has been
told of the new blocks, unless this was the first iteration. -/
def told {M : Type} (L : Lib M) (c : Cfg) (k : Nat) (mn : M × Nat) (bbs : Option Nat) : M × Nat :=
  match bbs with
  | none => mn
  | some n =>
    if c.coverage then
      (if k > 0 ∧ n - mn.2 > 0 then L.feedback mn.1 (n - mn.2) else mn.1, n)
    else mn

/-- Whether iteration `k` (from 0) is followed by another, the mutator being `m`
then. -/
def goes {M : Type} (L : Lib M) (c : Cfg) (k : Nat) (m : M) : Bool :=
  c.singleton.isNone && (decide (c.iters < 0) || decide ((k : Int) + 1 < c.iters)) && L.hasNext m

/-- The mutator and the block count before iteration `k` of a pass. -/
def machAt {M : Type} (L : Lib M) (c : Cfg) (m0 : M) (n0 : Nat) (effs : Nat → Eff) : Nat → M × Nat
  | 0 => (m0, n0)
  | k + 1 =>
    let mn := machAt L c m0 n0 effs k
    told L c k ((if mutates c k then stepM L c mn.1 else mn.1), mn.2) (effs k).bbs

/-- The bytes that are in the buffer before iteration `k` changes them: those of the
call, and then what the target left. -/
def foundAt (b0 : List Byte) (effs : Nat → Eff) : Nat → List Byte
  | 0 => b0
  | k + 1 => after (effs k).bytes b0

/-- The bytes iteration `k` of a pass runs on. -/
def bytesAt {M : Type} (L : Lib M) (c : Cfg) (m0 : M) (n0 : Nat) (b0 : List Byte) (effs : Nat → Eff)
    (k : Nat) : List Byte :=
  if mutates c k then putVal L c (machAt L c m0 n0 effs k).1 (foundAt b0 effs k)
  else foundAt b0 effs k

/-- The shadow every iteration is to start with: that of the call, with a replaced
buffer all defined. -/
def shSpec (c : Cfg) (sh : Sh) (n : Nat) : Sh :=
  if c.replace then { sh with buf := List.replicate n 0 } else sh

/-! ## Single functions -/

theorem set_th {M : Type} (s : St M) (t : Nat) (x : T M) : (s.set t x).th t = x := by
  simp [St.set]

theorem set_th_ne {M : Type} (s : St M) (t u : Nat) (x : T M) (h : u ≠ t) :
    (s.set t x).th u = s.th u := by simp [St.set, h]

theorem windowLen_le (c : Cfg) (n : Nat) (h : c.offset < n) : c.offset + windowLen c n ≤ n := by
  unfold windowLen; split <;> omega

theorem window_length (c : Cfg) (b : List Byte) (h : c.offset < b.length) :
    (window c b).length = windowLen c b.length := by
  have := windowLen_le c b.length h
  simp [window]; omega

theorem splice_length (b : List Byte) (off : Nat) (v : List Byte) (h : off + v.length ≤ b.length) :
    (splice b off v).length = b.length := by
  simp [splice]; omega

theorem applySingleton_length (v b : List Byte) : (applySingleton v b).length = b.length := by
  simp [applySingleton]; omega

theorem after_length (f : Nat → Byte) (b : List Byte) : (after f b).length = b.length := by
  simp [after]

theorem putVal_length {M : Type} {L : Lib M} {size : M → Nat} (hL : L.Ok size) (c : Cfg) (m : M)
    (b : List Byte) (ho : c.offset < b.length) (hm : size m = windowLen c b.length) :
    (putVal L c m b).length = b.length := by
  unfold putVal
  split
  · exact applySingleton_length _ _
  · split
    · rfl
    · rename_i v m' h
      have := (hL.next m v m' h).1
      have := windowLen_le c b.length ho
      exact splice_length _ _ _ (by omega)

theorem stepM_size {M : Type} {L : Lib M} {size : M → Nat} (hL : L.Ok size) (c : Cfg) (m : M) :
    size (stepM L c m) = size m := by
  unfold stepM
  split
  · rfl
  · split
    · rfl
    · rename_i v m' h
      exact (hL.next m v m' h).2

theorem mutNext_eq {M : Type} {L : Lib M} {size : M → Nat} (hL : L.Ok size) (c : Cfg) (x : T M)
    (m : M) (b : List Byte) (hb : x.buf = some b) (hm : x.mutr = some m) (ho : c.offset < b.length)
    (hs : size m = windowLen c b.length) :
    mutNext L c x = .ok { x with buf := some (putVal L c m b), mutr := some (stepM L c m) } := by
  have hw := windowLen_le c b.length ho
  unfold mutNext putVal stepM
  cases x
  simp only at hb hm
  subst hb; subst hm
  simp only
  cases c.singleton with
  | some v => rfl
  | none =>
    simp only
    cases h : L.next m with
    | none => rfl
    | some p =>
      have := (hL.next m p.1 p.2 h).1
      simp only
      rw [if_pos (by omega)]

/-- What a thread's state is during iteration `k` of a pass. -/
structure IsMid {M : Type} (c : Cfg) (sh : Sh) (x : T M) (k : Nat) (m : M) (b : List Byte)
    (n : Nat) : Prop where
  rep : x.rep = decide (0 < k)
  idx : x.idx = k
  skip : x.skip = 0
  mutr : x.mutr = some m
  bbs : x.bbs = n
  buf : x.buf = some b
  it : c.iters = 0 → k = 0
  saved : c.uninit = true → x.saved =
    some ⟨sh.regs, sh.frame, if c.replace then none else some sh.buf⟩

/-- A thread's state outside a pass. -/
structure Idle {M : Type} (x : T M) : Prop where
  rep : x.rep = false
  idx : x.idx = 0
  mutr : x.mutr = none
  buf : x.buf = none
  saved : x.saved = none

theorem shadowRestore_mid {M : Type} (c : Cfg) (sh : Sh) (x : T M) (k : Nat) (m : M)
    (b : List Byte) (n : Nat) (h : IsMid c sh x k m b n) :
    shadowRestore c x = { x with sh := if c.uninit then shSpec c sh b.length else x.sh } := by
  unfold shadowRestore
  cases hu : c.uninit with
  | false => simp
  | true =>
    have := h.saved hu
    rw [if_pos rfl, this, if_pos rfl]
    unfold shSpec allDefined
    cases hr : c.replace <;> simp [h.buf]

theorem shadowInit_eq {M : Type} (c : Cfg) (x : T M) (b : List Byte) (hb : x.buf = some b) :
    shadowInit c x (!c.replace) =
      { x with saved := if c.uninit then some ⟨x.sh.regs, x.sh.frame,
                  if c.replace then none else some x.sh.buf⟩ else x.saved,
               sh := if c.uninit then shSpec c x.sh b.length else x.sh } := by
  unfold shadowInit shSpec allDefined
  cases x
  simp only at hb
  subst hb
  cases hu : c.uninit <;> cases hr : c.replace <;> simp

/-- The first iteration of a pass. -/
theorem startPass_eq {M : Type} {L : Lib M} {size : M → Nat} (hL : L.Ok size) (c : Cfg) (s : St M)
    (t : Nat) (b : List Byte) (hb : (s.th t).buf = some b) (hm : (s.th t).mutr = none)
    (ho : c.offset < b.length) :
    startPass L c s t = .ok { s.set t { s.th t with
        saved := if c.uninit then some ⟨(s.th t).sh.regs, (s.th t).sh.frame,
          if c.replace then none else some (s.th t).sh.buf⟩ else (s.th t).saved,
        sh := if c.uninit then shSpec c (s.th t).sh b.length else (s.th t).sh,
        mutr := some (if mutates c 0 then stepM L c (L.start (window c b))
                      else L.start (window c b)),
        buf := some (if mutates c 0 then putVal L c (L.start (window c b)) b else b) } with
      started := s.started + 1 } := by
  have hsz : size (L.start (window c b)) = windowLen c b.length := by
    rw [hL.start, window_length c b ho]
  unfold startPass mutInit
  rw [shadowInit_eq c _ b hb]
  simp only [set_th, hb, mutExit, hm]
  by_cases hc : c.iters = 0 ∨ c.coverage = true
  · have hmu : mutates c 0 = false := by
      unfold mutates; rcases hc with h | h <;> simp [h]
    rw [if_pos hc]
    simp [hmu, St.set]
    funext u
    by_cases hu : u = t
    · subst hu; simp
    · simp [hu]
  · have hmu : mutates c 0 = true := by
      unfold mutates
      have h1 : c.iters ≠ 0 := fun h => hc (Or.inl h)
      have h2 : c.coverage = false := by
        cases h : c.coverage with
        | false => rfl
        | true => exact absurd (Or.inr h) hc
      simp [h1, h2]
    rw [if_neg hc]
    have := mutNext_eq hL c ({ s.th t with
        saved := if c.uninit then some ⟨(s.th t).sh.regs, (s.th t).sh.frame,
          if c.replace then none else some (s.th t).sh.buf⟩ else (s.th t).saved,
        sh := if c.uninit then shSpec c (s.th t).sh b.length else (s.th t).sh,
        mutr := some (L.start (window c b)), buf := some b } : T M)
      (L.start (window c b)) b rfl rfl ho hsz
    have e : ∀ x y : T M, x = y → mutNext L c x = mutNext L c y := fun _ _ h => by rw [h]
    simp only [hmu, if_true]
    rw [e _ _ (show _ = ({ s.th t with
        saved := if c.uninit then some ⟨(s.th t).sh.regs, (s.th t).sh.frame,
          if c.replace then none else some (s.th t).sh.buf⟩ else (s.th t).saved,
        sh := if c.uninit then shSpec c (s.th t).sh b.length else (s.th t).sh,
        mutr := some (L.start (window c b)), buf := some b } : T M) by
          simp)]
    rw [this]
    simp [St.set]
    funext u
    by_cases hu : u = t
    · subst hu; simp
    · simp [hu]

theorem set_set {M : Type} (s : St M) (t : Nat) (x y : T M) : (s.set t x).set t y = s.set t y := by
  simp only [St.set]
  congr 1
  funext u
  by_cases h : u = t <;> simp [h]

theorem feedback_eq {M : Type} (L : Lib M) (c : Cfg) (x : T M) (k : Nat) (m : M) (n : Nat)
    (bbs : Option Nat) (hr : x.rep = decide (0 < k)) (hm : x.mutr = some m) (hb : x.bbs = n) :
    feedback L c x bbs =
      { x with mutr := some (told L c k (m, n) bbs).1, bbs := (told L c k (m, n) bbs).2 } := by
  cases x
  simp only at hr hm hb
  subst hr; subst hm; subst hb
  unfold feedback told
  cases bbs with
  | none => rfl
  | some n' =>
    simp only
    cases c.coverage with
    | false => rfl
    | true =>
      simp only [if_true, decide_eq_true_eq, gt_iff_lt]
      split <;> rfl

theorem told_size {M : Type} {L : Lib M} {size : M → Nat} (hL : L.Ok size) (c : Cfg) (k : Nat)
    (mn : M × Nat) (bbs : Option Nat) : size (told L c k mn bbs).1 = size mn.1 := by
  unfold told
  split
  · rfl
  · split
    · split
      · exact hL.feedback _ _
      · rfl
    · rfl

theorem again_eq {M : Type} (L : Lib M) (c : Cfg) (x : T M) (k : Nat) (m : M)
    (hi : x.idx = k + 1) (hr : x.rep = decide (0 < k)) (h0 : c.iters = 0 → k = 0) :
    again L c x m = goes L c k m := by
  unfold again goes
  cases c.singleton with
  | some v => simp
  | none =>
    simp only [hi, hr, Option.isNone_none, Bool.true_and]
    by_cases h1 : c.iters > 0
    · have h2 : ¬ c.iters < 0 := by omega
      simp [h1, h2]
    · by_cases h2 : c.iters < 0
      · simp [h1, h2]
      · have h3 : c.iters = 0 := by omega
        have := h0 h3
        subst this
        simp [h3]

/-- The target returns from iteration `k` of a pass, and is to be run again. -/
theorem done_again {M : Type} {L : Lib M} {size : M → Nat} (hL : L.Ok size) (c : Cfg)
    (hc : c.corpus = none) (s : St M) (t : Nat) (e : Eff) (sh : Sh) (k : Nat) (m : M)
    (b : List Byte) (n : Nat) (hbusy : s.busy t = true) (hen : s.enabled = true)
    (how : s.owner = some t) (h : IsMid c sh (s.th t) k m b n) (ho : c.offset < b.length)
    (hs : size m = windowLen c b.length)
    (hg : goes L c k (told L c k (m, n) e.bbs).1 = true) :
    ∃ y, step L c s (.done t e) = .ok (s.set t y,
        [(t, ⟨true, putVal L c (told L c k (m, n) e.bbs).1 (after e.bytes b),
          if c.uninit then shSpec c sh b.length else e.sh⟩)]) ∧
      IsMid c sh y (k + 1) (stepM L c (told L c k (m, n) e.bbs).1)
        (putVal L c (told L c k (m, n) e.bbs).1 (after e.bytes b)) (told L c k (m, n) e.bbs).2 := by
  have hit : c.iters ≠ 0 := by
    intro h0
    have hk := h.it h0
    subst hk
    simp [goes, h0] at hg
  have hfb := feedback_eq L c (ran (s.th t) e) k m n e.bbs (by simp [ran, h.rep])
    (by simp [ran, h.mutr]) (by simp [ran, h.bbs])
  generalize hmn : told L c k (m, n) e.bbs = mn at hg hfb
  have hsz : size mn.1 = windowLen c b.length := by rw [← hmn, told_size hL]; exact hs
  have hag := again_eq L c ({ ran (s.th t) e with mutr := some mn.1, bbs := mn.2, idx := k + 1 } : T M)
    k mn.1 rfl (by simp [ran, h.rep]) h.it
  have hpost : post L c (s.set t (ran (s.th t) e)) t e.bbs =
      .ok (s.set t { ran (s.th t) e with mutr := some mn.1, bbs := mn.2, idx := k + 1, rep := true },
        true) := by
    unfold post
    simp only [set_th]
    rw [if_neg (by simp [St.set, hen, how]), if_neg (by simp [ran, h.skip]), hc]
    simp only [postPlain, set_th, hfb]
    have hidx : (ran (s.th t) e).idx + 1 = k + 1 := by simp [ran, h.idx]
    simp only [hidx, hag, hg, if_true, set_set]
  have hmid : IsMid c sh ({ ran (s.th t) e with
      mutr := some mn.1, bbs := mn.2, idx := k + 1, rep := true } : T M) (k + 1) mn.1
      (after e.bytes b) mn.2 :=
    { rep := by simp
      idx := rfl
      skip := by simp [ran, h.skip]
      mutr := rfl
      bbs := rfl
      buf := by simp [ran, h.buf]
      it := fun h0 => absurd h0 hit
      saved := fun hu => by simpa [ran] using h.saved hu }
  have hres := shadowRestore_mid c sh _ (k + 1) mn.1 (after e.bytes b) mn.2 hmid
  have hnx := mutNext_eq hL c (shadowRestore c ({ ran (s.th t) e with
      mutr := some mn.1, bbs := mn.2, idx := k + 1, rep := true } : T M)) mn.1 (after e.bytes b)
      (by rw [hres]; exact hmid.buf) (by rw [hres]) (by rw [after_length]; exact ho)
      (by rw [after_length]; exact hsz)
  rw [hres] at hnx
  refine ⟨{ ran (s.th t) e with
      mutr := some (stepM L c mn.1), bbs := mn.2, idx := k + 1, rep := true,
      sh := if c.uninit then shSpec c sh (after e.bytes b).length else (ran (s.th t) e).sh,
      buf := some (putVal L c mn.1 (after e.bytes b)) }, ?_, ?_⟩
  · unfold step
    simp only [hbusy, if_true, hpost]
    unfold pre
    simp only [set_th]
    have hown : (s.set t { ran (s.th t) e with
        mutr := some mn.1, bbs := mn.2, idx := k + 1, rep := true }).owner = some t := how
    have hst : ({ s.set t { ran (s.th t) e with
        mutr := some mn.1, bbs := mn.2, idx := k + 1, rep := true } with
        owner := some t } : St M) = s.set t { ran (s.th t) e with
        mutr := some mn.1, bbs := mn.2, idx := k + 1, rep := true } := by
      rw [← hown]
    simp only [hown, Option.getD_some, hst]
    rw [if_neg (by simp [St.set, hen, ran, h.skip])]
    simp only [if_true, hc]
    rw [hres, hnx]
    simp only [set_set, seen, after_length]
    rfl
  · exact
      { rep := by simp
        idx := rfl
        skip := by simp [ran, h.skip]
        mutr := rfl
        bbs := rfl
        buf := rfl
        it := fun h0 => absurd h0 hit
        saved := fun hu => by simpa [ran] using h.saved hu }

/-- The target returns from the last iteration of a pass. -/
theorem done_stop {M : Type} {L : Lib M} (c : Cfg)
    (hc : c.corpus = none) (s : St M) (t : Nat) (e : Eff) (sh : Sh) (k : Nat) (m : M)
    (b : List Byte) (n : Nat) (hbusy : s.busy t = true) (hen : s.enabled = true)
    (how : s.owner = some t) (h : IsMid c sh (s.th t) k m b n)
    (hg : goes L c k (told L c k (m, n) e.bbs).1 = false) :
    ∃ y, step L c s (.done t e) = .ok ({ (s.set t y).mark t false with
        stopped := s.stopped + 1, frees := s.frees + if c.replace then 1 else 0 }, []) ∧
      Idle y ∧ y.skip = 0 ∧ y.bbs = (told L c k (m, n) e.bbs).2 := by
  have hfb := feedback_eq L c (ran (s.th t) e) k m n e.bbs (by simp [ran, h.rep])
    (by simp [ran, h.mutr]) (by simp [ran, h.bbs])
  generalize hmn : told L c k (m, n) e.bbs = mn at hg hfb
  have hag := again_eq L c ({ ran (s.th t) e with mutr := some mn.1, bbs := mn.2, idx := k + 1 } : T M)
    k mn.1 rfl (by simp [ran, h.rep]) h.it
  refine ⟨{ ran (s.th t) e with
      mutr := none, bbs := mn.2, idx := 0, rep := false, saved := none, buf := none }, ?_, ⟨rfl, rfl, rfl, rfl, rfl⟩, by simp [ran, h.skip], rfl⟩
  unfold step post
  simp only [hbusy, if_true, set_th]
  rw [if_neg (by simp [St.set, hen, how]), if_neg (by simp [ran, h.skip]), hc]
  simp only [postPlain, set_th, hfb]
  have hidx : (ran (s.th t) e).idx + 1 = k + 1 := by simp [ran, h.idx]
  have hbuf : (ran (s.th t) e).buf.isSome = true := by simp [ran, h.buf]
  simp only [hidx, hag, hg, set_set, set_th, mutExit, shadowExit, freeBuffer, hbuf]
  cases hr : c.replace <;> simp [St.set, St.mark] <;> (try (funext u; by_cases hu : u = t <;> simp [hu]))

/-! ## The start of a pass -/

/-- The bytes in the buffer when a pass starts, and whether a larger buffer had to be
allocated for the input file; `none` when the file cannot be loaded. -/
def loaded (c : Cfg) (b : List Byte) : Option (List Byte × Bool) :=
  match c.input with
  | none => some (b, false)
  | some f => load c f b

theorem load_length (c : Cfg) (f : File) (b b' : List Byte) (g : Bool)
    (h : load c f b = some (b', g)) : b.length ≤ b'.length := by
  unfold load at h
  cases f with
  | none => simp at h
  | some d =>
    simp only at h
    split at h
    · split at h
      · simp at h
      · split at h
        · simp only [Option.some.injEq, Prod.mk.injEq] at h
          rw [← h.1]; omega
        · simp only [Option.some.injEq, Prod.mk.injEq] at h
          rw [← h.1, splice_length _ _ _ (by omega)]
          exact Nat.le_refl _
    · split at h
      · simp at h
      · simp only [Option.some.injEq, Prod.mk.injEq] at h
        rw [← h.1, splice_length _ _ _ (by simp; omega)]
        exact Nat.le_refl _

theorem loaded_length (c : Cfg) (b b' : List Byte) (g : Bool)
    (h : loaded c b = some (b', g)) : b.length ≤ b'.length := by
  unfold loaded at h
  split at h
  · simp only [Option.some.injEq, Prod.mk.injEq] at h
    rw [h.1]; exact Nat.le_refl _
  · exact load_length _ _ _ _ _ h

/-- A call that starts a pass. -/
theorem call_start {M : Type} {L : Lib M} {size : M → Nat} (hL : L.Ok size) (c : Cfg)
    (hc : c.corpus = none) (s : St M) (t : Nat) (b : List Byte) (sh : Sh) (b0 : List Byte) (g : Bool)
    (hbusy : s.busy t = false) (hen : s.enabled = true) (how : s.owner = none ∨ s.owner = some t)
    (hi : Idle (s.th t)) (hsk : (s.th t).skip = 0) (ho : c.offset < b.length)
    (hl : loaded c b = some (b0, g)) :
    ∃ y, step L c s (.call t b sh) = .ok ({ (s.set t y).mark t true with
        owner := some t, started := s.started + 1,
        allocs := s.allocs + (if c.replace then 1 else 0) + (if g then 1 else 0),
        frees := s.frees + (if g then 1 else 0) },
        [(t, ⟨true, if mutates c 0 then putVal L c (L.start (window c b0)) b0 else b0,
          if c.uninit then shSpec c sh b0.length else sh⟩)]) ∧
      IsMid c sh y 0 (if mutates c 0 then stepM L c (L.start (window c b0)) else
        L.start (window c b0))
        (if mutates c 0 then putVal L c (L.start (window c b0)) b0 else b0) (s.th t).bbs := by
  have hown : some (s.owner.getD t) = some t := by
    rcases how with h | h <;> simp [h]
  have ho0 : c.offset < b0.length := Nat.lt_of_lt_of_le ho (loaded_length c b b0 g hl)
  refine ⟨{ s.th t with
        saved := if c.uninit then some ⟨sh.regs, sh.frame,
          if c.replace then none else some sh.buf⟩ else (s.th t).saved,
        sh := if c.uninit then shSpec c sh b0.length else sh,
        mutr := some (if mutates c 0 then stepM L c (L.start (window c b0))
                      else L.start (window c b0)),
        buf := some (if mutates c 0 then putVal L c (L.start (window c b0)) b0 else b0) }, ?_, ?_⟩
  · unfold step pre
    simp only [hbusy, Bool.false_eq_true, if_false, hown]
    rw [if_neg (by simp [hen, hsk]), if_neg (by simp [hi.rep]), if_neg (by omega)]
    simp only [hc]
    unfold prePlain
    unfold loaded at hl
    cases hin : c.input with
    | none =>
      simp only [hin, Option.some.injEq, Prod.mk.injEq] at hl
      obtain ⟨rfl, rfl⟩ := hl
      simp only
      rw [startPass_eq hL c _ t b (by unfold takeBuffer; split <;> simp [set_th])
        (by unfold takeBuffer; split <;> simp [set_th, hi.mutr]) ho0]
      cases hr : c.replace <;>
        simp [takeBuffer, hr, St.set, St.mark, seen] <;>
        (funext u; by_cases hu : u = t <;> simp [hu])
    | some f =>
      simp only [hin] at hl
      simp only [hl]
      rw [startPass_eq hL c _ t b0
        (by cases g <;> simp [set_th])
        (by unfold takeBuffer; cases g <;> cases c.replace <;> simp [set_th, hi.mutr]) ho0]
      cases hr : c.replace <;> cases g <;>
        simp [takeBuffer, hr, St.set, St.mark, seen] <;>
        (try (constructor <;> (try omega))) <;>
        (try (funext u; by_cases hu : u = t <;> simp [hu]))
  · exact
      { rep := by simp [hi.rep]
        idx := hi.idx
        skip := hsk
        mutr := rfl
        bbs := rfl
        buf := rfl
        it := fun _ => rfl
        saved := fun hu => by simp [hu] }

end Verif.FuzzDriver
