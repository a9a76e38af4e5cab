import Verif.HeapShadowProps
import Verif.ShadowProps

/-!
# The shadow of the heap: theorems for C52

The runs are those of `Verif.AllocThms` (`GoodRun`: sizes a few pages below 4 GB, the system hands
out unused memory, the application writes only to its own blocks) with reads in between.
-/

namespace Verif.HeapShadow

open Verif.Define (Sh)
open Verif.MemRef (Conf memRef Runs Kind Flags)
open Verif.Stack (refFlags)
open Verif.Al

variable {c : Cfg} {s : St} {A : List Blk} {sh0 sh : Nat → Sh} {base commit : Nat} {brk : Bool} {es : List Ev}
  {mc : Conf}

/-- The calls and stores of a run. -/
def opsOf : List Ev → List Op
  | [] => []
  | .op o _ :: es => o :: opsOf es
  | .read _ _ _ :: es => opsOf es

theorem good_evs : ∀ {es : List Ev} {s : St} {A : List Blk} {sh : Nat → Sh},
    GoodRun c s (led A) (opsOf es) → GoodEvs c mc s A sh es := by
  intro es
  induction es with
  | nil => intro s A sh _; trivial
  | cons e es ih =>
    intro s A sh h
    cases e with
    | op o sv =>
      refine ⟨h.1, fun s' sh' r he => ?_⟩
      simp only [step] at he
      split at he
      · cases he
      · rename_i s1 r1 ok1 he1
        cases he
        apply ih
        rw [specEv, led_spec]
        exact h.2 _ _ _ he1
    | read d a n =>
      refine ⟨trivial, fun s' sh' r he => ?_⟩
      cases he
      apply ih
      rw [specEv, led_read]
      exact h

theorem run_exec : ∀ {es : List Ev} {s s' : St} {A A' : List Blk} {sh sh' : Nat → Sh},
    run c mc s A sh es = some (s', A', sh') → ∃ F, exec c s (led A) (opsOf es) = some (s', led A', F) := by
  intro es
  induction es with
  | nil => intro s s' A A' sh sh' h; cases h; exact ⟨[], rfl⟩
  | cons e es ih =>
    intro s s' A A' sh sh' h
    simp only [run] at h
    split at h
    · cases h
    · rename_i s1 sh1 r1 he
      obtain ⟨F, hF⟩ := ih h
      cases e with
      | op o sv =>
        simp only [step] at he
        split at he
        · cases he
        · rename_i s2 r2 ok2 he1
          cases he
          rw [specEv, led_spec] at hF
          exact ⟨_, by simp only [opsOf, exec, he1, hF]; rfl⟩
      | read d a n =>
        cases he
        rw [specEv, led_read] at hF
        exact ⟨F, hF⟩

theorem run_all (hc : CfgOk c) (hm : mc.map4 = false) (hs : Start c base commit)
    (hg : GoodRun c (c.init base commit brk) [] (opsOf es)) (sh0 : Nat → Sh) :
    ∃ s A sh, run c mc (c.init base commit brk) [] sh0 es = some (s, A, sh) ∧ Rel c s A sh0 sh :=
  run_rel hc hm (start_rel hc hs brk sh0) (good_evs hg)

/-- C52: after every run, the shadow tells of every byte of every block in use whether it is
initialised: a fresh block is not, a zeroed one is, what was written has the
definedness of the value written, and `realloc` takes the definedness of the common
part along.  All bytes outside of the blocks that were unaddressable at the start are
still unaddressable. -/
theorem C52_bytes_partial (hc : CfgOk c) (hm : mc.map4 = false) (hs : Start c base commit)
    (hg : GoodRun c (c.init base commit brk) [] (opsOf es)) (sh0 : Nat → Sh) :
    ∃ s A sh, run c mc (c.init base commit brk) [] sh0 es = some (s, A, sh) ∧
      (∀ b ∈ A, ∀ i (h : i < b.ini.length),
        sh (b.ptr + i) = if b.ini[i] then .defined else .undef) ∧
      (∀ a, (∀ b ∈ A, a < b.ptr ∨ b.ptr + b.ini.length ≤ a) → sh0 a = .unaddr → sh a = .unaddr) := by
  obtain ⟨s, A, sh, e, h⟩ := run_all (mc := mc) (es := es) hc hm hs hg sh0
  refine ⟨s, A, sh, e, fun b hb i hi => h.agrees b hb i _ (List.getElem?_eq_getElem hi), fun a ha h0 => ?_⟩
  refine h.closed a (fun b hb hin => ?_) h0
  have := ha b hb
  unfold Blk.In at hin
  omega

/-- C52: if no heap memory is addressable at the start, then after every run the addressable
bytes are exactly the bytes of the blocks in use. -/
theorem C52_addressable_partial (hc : CfgOk c) (hm : mc.map4 = false) (hs : Start c base commit)
    (hg : GoodRun c (c.init base commit brk) [] (opsOf es))
    (he : run c mc (c.init base commit brk) [] (fun _ => .unaddr) es = some (s, A, sh)) (a : Nat) :
    sh a ≠ .unaddr ↔ ∃ b ∈ A, b.ptr ≤ a ∧ a < b.ptr + b.ini.length := by
  obtain ⟨s', A', sh', e, h⟩ := run_all (mc := mc) (es := es) hc hm hs hg fun _ => .unaddr
  rw [he] at e
  cases e
  constructor
  · intro hne
    by_contra hno
    exact hne (h.closed a (fun b hb hin => hno ⟨b, hb, hin⟩) rfl)
  · rintro ⟨b, hb, h1, h2⟩
    have := h.agrees b hb (a - b.ptr) _ (List.getElem?_eq_getElem (by omega))
    rw [show b.ptr + (a - b.ptr) = a by omega] at this
    rw [this]
    unfold toSh
    split <;> simp

/-- What is wrong with a reference to the heap byte at `a`, judged by the blocks. -/
def heapWrong (mc : Conf) (A : List Blk) (write checkDef : Bool) (a : Nat) : Option Kind :=
  match A.find? fun b => b.ptr ≤ a ∧ a < b.ptr + b.ini.length with
  | none => if mc.unaddrExc a then none else some .unaddr
  | some b => if ¬ write ∧ checkDef ∧ b.ini[a - b.ptr]? = some false ∧ ¬ mc.undefExc a then some .undef else none

/-- C52: after every run, a reference is reported exactly for the bytes outside of all
blocks in use, and, if it is a read that checks definedness, for the uninitialised
bytes, in ranges that are as long as possible. -/
theorem C52_reports_partial (hc : CfgOk c) (hm : mc.map4 = false) (hs : Start c base commit)
    (hg : GoodRun c (c.init base commit brk) [] (opsOf es))
    (he : run c mc (c.init base commit brk) [] (fun _ => .unaddr) es = some (s, A, sh))
    (write d : Bool) (val : Nat → Sh) (a n : Nat) :
    Runs (heapWrong mc A write d) a (a + n) (memRef (refFlags write d) mc val a n sh).reports := by
  obtain ⟨s', A', sh', e, h⟩ := run_all (mc := mc) (es := es) hc hm hs hg fun _ => .unaddr
  rw [he] at e
  cases e
  have := MemRef.C50_reports_partial (f := refFlags write d) rfl hm val a n sh
  have heq : MemRef.wrong (refFlags write d) mc sh = heapWrong mc A write d := by
    funext x
    unfold heapWrong MemRef.wrong
    cases hu : sh x
    case unaddr =>
      have hn : A.find? (fun b => b.ptr ≤ x ∧ x < b.ptr + b.ini.length) = none := by
        rw [List.find?_eq_none]
        intro b hb hin
        exact (C52_addressable_partial hc hm hs hg he x).2 ⟨b, hb, by simpa using hin⟩ hu
      rw [hn]
      simp [refFlags]
    all_goals
      obtain ⟨b', hb', hin'⟩ := (C52_addressable_partial hc hm hs hg he x).1 (by rw [hu]; simp)
      obtain ⟨b, hb⟩ : ∃ b, A.find? (fun b => b.ptr ≤ x ∧ x < b.ptr + b.ini.length) = some b := by
        rw [← Option.isSome_iff_exists, List.find?_isSome]
        exact ⟨b', hb', by simpa using hin'⟩
      have hin : b.ptr ≤ x ∧ x < b.ptr + b.ini.length := by simpa using List.find?_some hb
      have hsh := h.agrees b (List.mem_of_find?_eq_some hb) (x - b.ptr) _ (List.getElem?_eq_getElem (by omega))
      rw [show b.ptr + (x - b.ptr) = x by omega, hu] at hsh
      rw [hb]
      dsimp only
      rw [List.getElem?_eq_getElem (show x - b.ptr < b.ini.length by omega)]
      cases hv : b.ini[x - b.ptr]'(by omega) <;> rw [hv] at hsh <;> simp [toSh, refFlags] at hsh ⊢
  rw [heq] at this
  exact this

/-- C52: a block that was given up, while it is among the last ones given up (fewer than the
limit of the delayed frees, and together below their total size): its bytes are
unaddressable, so that every reference to them is reported. -/
theorem C52_use_after_free_partial (hc : CfgOk c) (hm : mc.map4 = false) (hs : Start c base commit)
    (hg : GoodRun c (c.init base commit brk) [] (opsOf es)) (hav : ∀ op ∈ opsOf es, op.avail)
    (he : run c mc (c.init base commit brk) [] (fun _ => .unaddr) es = some (s, A, sh)) :
    ∃ F H, exec c (c.init base commit brk) [] (opsOf es) = some (s, led A, F) ∧ Chunked (small F) H ∧
      ∀ F1 x F2, small F = F1 ++ x :: F2 → F2.length + 1 < c.delayFrees →
        ((H.drop F1.length).map Prod.snd).sum < c.delayMax →
        ∀ a, x.1 ≤ a → a < x.1 + x.2 → sh a = .unaddr := by
  obtain ⟨F, hF⟩ := run_exec he
  obtain ⟨H, h1, h2⟩ := C21_kept_partial hc hs hg hF hav
  refine ⟨F, H, hF, h1, fun F1 x F2 e1 e2 e3 a ha ha' => ?_⟩
  by_contra hne
  obtain ⟨b, hb, h3, h4⟩ := (C52_addressable_partial hc hm hs hg he a).1 hne
  have := (h2 F1 x F2 e1 e2 e3).2 _ (mem_led hb)
  dsimp only at this
  omega

/-- The new block of a `realloc` that moves has no byte in common with the old one. -/
theorem realloc_sep (hc : CfgOk c) {L Q : List (Nat × Nat)} (i : Inv c s L Q) {os : Os} {p q size : Nat} {f : RFlags}
    (hq : (p, q) ∈ L) (hne : ¬ (size = 0 ∧ f.allowEmpty = false)) (hg : Good c s L (.realloc os p size f))
    {s' : St} {r : Nat} {ok : Bool} (he : realloc c os s p size f = some (s', r, ok)) (hr : r ≠ 0) (hrp : r ≠ p) :
    p + q ≤ r ∨ r + size ≤ p := by
  have hp : p ≠ 0 := by
    have := i.pos hc hq
    dsimp only at this
    omega
  have hl := i.isLive hc p
  rw [owns_iff.2 ⟨q, hq⟩] at hl
  simp only [realloc, if_neg hp, if_neg hne, hl, if_true] at he
  split at he
  · cases he
  · rename_i h hh
    by_cases hsz : size ≤ h.size
    · rw [if_pos hsz] at he
      exact absurd (Prod.mk.inj (Prod.mk.inj (Option.some.inj he)).2).1.symm hrp
    · rw [if_neg hsz] at he
      split at he
      · obtain ⟨s1, r1, Q1, e1, i1, -⟩ := alloc_inv hc i f.zero hg.1 hg.2
        rw [e1] at he
        dsimp only at he
        by_cases h0 : r1 = 0
        · rw [if_pos h0] at he
          exact absurd (Prod.mk.inj (Prod.mk.inj (Option.some.inj he)).2).1.symm hr
        · rw [if_neg h0] at he i1
          split at he
          · cases he
          · have : r1 = r := (Prod.mk.inj (Prod.mk.inj (Option.some.inj he)).2).1
            subst this
            have := sep_of_cons i1 _ hq
            dsimp only at this
            omega
      · exact absurd (Prod.mk.inj (Prod.mk.inj (Option.some.inj he)).2).1.symm hr

/-- C52: whenever a `realloc` moves a block, `shadow_copy_range` is called with ranges for which
it copies exactly the range asked for (its defects, `C11_short_unaligned` and
`C11_forward_overlap`, do not show here). -/
theorem C52_copy_partial (hc : CfgOk c) (hm : mc.map4 = false) (hs : Start c base commit)
    (hg : GoodRun c (c.init base commit brk) [] (opsOf es))
    (he : run c mc (c.init base commit brk) [] sh0 es = some (s, A, sh)) {b : Blk} (hb : b ∈ A)
    {os : Os} {size : Nat} {f : RFlags} (hne : ¬ (size = 0 ∧ f.allowEmpty = false))
    (hgood : Good c s (led A) (.realloc os b.ptr size f)) {s' : St} {r : Nat} {ok : Bool}
    (hre : realloc c os s b.ptr size f = some (s', r, ok)) (hr : r ≠ 0) (hrp : r ≠ b.ptr)
    (st : Umbra.St) {n : Nat} (hn : n ≤ b.ini.length)
    (htop : b.ptr + n + 3 < Umbra.top ∧ r + n + 3 < Umbra.top) :
    ∃ st', Shadow.copyRange st b.ptr r n = .ok st' ∧
      ∀ x, Shadow.st st' x = if r ≤ x ∧ x < r + n then Shadow.st st (b.ptr + (x - r)) else Shadow.st st x := by
  obtain ⟨s1, A1, sh1, e, h⟩ := run_all (mc := mc) (es := es) hc hm hs hg sh0
  rw [he] at e
  cases e
  obtain ⟨Q, i⟩ := h.inv
  have hsep := realloc_sep hc i (mem_led hb) hne hgood hre hr hrp
  obtain ⟨R, G, hp, hcalm, hL, rfl⟩ := i
  have h4 : b.ptr % 4 = 0 := by
    have h := (hp.block_place hc (hL.mem_iff.1 (mem_led hb))).2.1
    dsimp only at h
    unfold Cfg.A at h
    split at h <;> omega
  refine Shadow.C11_copy_range_partial st htop.1 htop.2 ?_
  by_cases h5 : b.ptr % 4 = r % 4
  · right
    omega
  · exact Or.inl h5

/-! ## A run -/

/-- A demonstration: allocate, write a byte, grow the block, read it with a check, free it. -/
def demoEvs : List Ev :=
  let os : Os := { arena := some 0x20000000 }
  [.op (.alloc os 100 0 false) false, .op (.alloc os 50 0 true) false, .op (.store 65904 7) true,
   .op (.realloc os 65904 200 { }) false, .read true 66241 2, .op (.free { } 66096) false]

/-- The usual conditions, without exceptions. -/
def demoConf : Conf :=
  { redzone := 0, leaveUninit := false, map4 := false, unaddrExc := fun _ => false, undefExc := fun _ => false }

theorem demoEvs_good : GoodRun demo (demo.init 65536 69632 true) [] (opsOf demoEvs) :=
  goodRunB_spec (by decide +kernel)

example : (run demo demoConf (demo.init 65536 69632 true) [] (fun _ => .unaddr) demoEvs).map (fun x =>
    (led x.2.1, x.2.1.map (fun b => b.ini.take 4), (List.range 4).map (fun i => x.2.2 (66240 + i)),
      x.2.2 65904, x.2.2 66096)) =
    some ([(66240, 200)], [[true, true, true, false]], [.defined, .defined, .defined, .undef],
      .unaddr, .unaddr) := by decide +kernel

/-! ## System calls that change mappings -/

/-- C52: an `mmap` outside of the heap routines makes exactly its range defined, a `munmap` makes
exactly its range unaddressable. -/
theorem C52_mmap (base size : Nat) (sh : Nat → Sh) (a : Nat) :
    handleMmap base size true false sh a = (if base ≤ a ∧ a < base + size then .defined else sh a) ∧
    handleMunmap base size sh a = (if base ≤ a ∧ a < base + size then .unaddr else sh a) := by
  constructor
  · simp [handleMmap, setRange_apply]
  · simp [handleMunmap, setRange_apply]

/-- C52: an `mremap` that does not move the mapping keeps the shadow of what stays, makes what is
cut off unaddressable and (unless it is an image) what is added uninitialised. -/
theorem C52_mremap_partial (base oldSize newSize : Nat) (image : Bool) (sh : Nat → Sh) (a : Nat) :
    handleMremap base oldSize base newSize image sh a =
      if base + newSize ≤ a ∧ a < base + oldSize then .unaddr
      else if base + oldSize ≤ a ∧ a < base + newSize then if image then .defined else .undef
      else sh a := by
  have hb : base ≤ a → sh (base + (a - base)) = sh a := by intro h; congr 1; omega
  unfold handleMremap
  rw [show (if image = true then Sh.defined else Sh.undef) = fill image from rfl]
  by_cases h : newSize < oldSize
  · simp only [if_pos h, setRange_apply, copyRange_apply]
    repeat' split
    all_goals first | rfl | (exfalso; omega) | exact hb (by omega)
  · simp only [if_neg h, setRange_apply, copyRange_apply]
    repeat' split
    all_goals first | rfl | (exfalso; omega) | exact hb (by omega)

/-- C52, negative: an `mremap` that moves a mapping leaves the old range addressable, with its
contents initialised, although it is no longer mapped. -/
theorem C52_mremap_old :
    handleMremap 0x10000 0x1000 0x40000 0x2000 false (handleMmap 0x10000 0x1000 true false fun _ => .unaddr)
      0x10000 = .defined := by decide +kernel

/-- C52, negative: the pages that `mremap` adds to an anonymous mapping count as uninitialised,
although the kernel fills them with zeroes as it does for `mmap`. -/
theorem C52_mremap_zero :
    handleMremap 0x10000 0x1000 0x10000 0x2000 false (handleMmap 0x10000 0x1000 true false fun _ => .unaddr)
      0x11000 = .undef ∧
    handleMmap 0x10000 0x2000 true false (fun _ => .unaddr) 0x11000 = .defined := by decide +kernel

end Verif.HeapShadow
