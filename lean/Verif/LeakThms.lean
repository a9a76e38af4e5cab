import Verif.LeakSecond

/-! # The leak scan: properties C28 and C29 -/
namespace Verif.Leak
open Verif

/-! ## Specification -/

/-- Unreachable. -/
def Lost (E : Env) (c : Chunk) : Prop := c ∈ E.chunks ∧ ¬ Reach E c

/-- The scan certainly looks into the chunk if it is unreachable: it is not an ignored one, and not
pointed into the middle (such a chunk is looked into unless claimed as indirect). -/
def Plain (E : Env) (c : Chunk) : Prop := c.ignore = false ∧ ¬ Touched E c

open Classical in
/-- Total size of the chunks with a property. -/
noncomputable def total (E : Env) (p : Chunk → Prop) : Nat :=
  (E.chunks.map fun c => if p c then c.size else 0).sum

/-- Unreachable chunks are split into groups, each named by an unreachable chunk of it from which
head pointers inside the group lead to all others; a chunk that names a group can only be pointed to
from its own group. -/
structure Groups (E : Env) (own : Chunk → Chunk) : Prop where
  mem : ∀ c, Lost E c → Lost E (own c) ∧ own (own c) = own c
  chain : ∀ c, Lost E c → Chain E (fun d => Lost E d ∧ own d = own c) (own c) c
  back : ∀ u c, Lost E u → Lost E c → own c = c → Plain E u → Points E u c → own u = c

/-! ## From the flags to the reports -/

theorem total_congr {E : Env} {p q : Chunk → Prop} (h : ∀ c ∈ E.chunks, p c ↔ q c) :
    total E p = total E q := by
  unfold total
  congr 1
  apply List.map_congr_left
  intro c hc
  by_cases hp : p c
  · rw [if_pos hp, if_pos ((h c hc).1 hp)]
  · rw [if_neg hp, if_neg fun hq => hp ((h c hc).2 hq)]

theorem tot_total {E : Env} {p : Nat → Bool} {q : Chunk → Prop}
    (h : ∀ c ∈ E.chunks, p c.base = true ↔ q c) : tot E p = total E q := by
  unfold tot total
  congr 1
  apply List.map_congr_left
  intro c hc
  by_cases hp : p c.base = true
  · rw [if_pos hp, if_pos ((h c hc).1 hp)]
  · rw [if_neg hp, if_neg fun hq => hp ((h c hc).2 hq)]

theorem mem_reports {E : Env} {st : St} {r : Report} :
    r ∈ E.chunks.filterMap (report st) ↔ ∃ c ∈ E.chunks, c.ignore = false ∧
      (st.fl c.base).ind = false ∧
      r = ⟨c.base, c.size, (st.ue c.base).bytes, (st.fl c.base).reach, (st.fl c.base).maybe⟩ := by
  rw [List.mem_filterMap]
  constructor
  · rintro ⟨c, hc, he⟩
    unfold report at he
    by_cases hg : c.ignore = true ∨ (st.fl c.base).ind = true
    · rw [if_pos hg] at he; cases he
    · rw [if_neg hg] at he
      refine ⟨c, hc, ?_, ?_, (Option.some.inj he).symm⟩
      · cases hi : c.ignore
        · rfl
        · exact absurd (.inl hi) hg
      · cases hi : (st.fl c.base).ind
        · rfl
        · exact absurd (.inr hi) hg
  · rintro ⟨c, hc, h1, h2, rfl⟩
    refine ⟨c, hc, ?_⟩
    unfold report
    rw [h1, h2, if_neg (by simp)]

/-- The result of a scan in terms of groups. -/
structure Outcome (E : Env) (st : St) (own : Chunk → Chunk) : Prop where
  groups : Groups E own
  reach : ∀ c ∈ E.chunks, (st.fl c.base).reach = true ↔ Reach E c
  ind : ∀ c ∈ E.chunks, (st.fl c.base).ind = true ↔ ¬ Reach E c ∧ own c ≠ c
  bytes : ∀ c, Lost E c → own c = c →
    (st.ue c.base).bytes + c.size = total E fun d => Lost E d ∧ own d = c
  maybe : ∀ c ∈ E.chunks, (st.fl c.base).maybe = true → Touched E c
  mid : ∀ c ∈ E.chunks, MidReach E c → Reach E c ∨ (st.fl c.base).maybe = true
  seen : ∀ u c, Lost E u → Lost E c → Plain E u → (∃ w ∈ E.words u.base u.stop, Mid E w c) →
    (st.fl c.base).maybe = true ∨ own c ≠ c

theorem outcome {E : Env} (h : WF E) : ∃ st own, marks E = some st ∧ st.bad = false ∧
    leakScan E = some (E.chunks.filterMap (report st)) ∧ Outcome E st own := by
  obtain ⟨st, e, hs, hscan⟩ := marks_spec h
  obtain ⟨ρ, δ, hf⟩ := hs.forest
  have hU : ∀ c, U E st c ↔ Lost E c := by
    intro c
    unfold U Lost
    constructor
    · rintro ⟨h1, h2⟩
      exact ⟨h1, fun hr => by rw [(hs.rs c h1).2 hr] at h2; cases h2⟩
    · rintro ⟨h1, h2⟩
      refine ⟨h1, ?_⟩
      cases hr : (st.fl c.base).reach
      · rfl
      · exact absurd ((hs.rs c h1).1 hr) h2
  have hex : ∀ c : Chunk, ∃ r : Chunk, Lost E c → Lost E r ∧ ρ c.base = r.base ∧
      (st.fl r.base).ind = false := by
    intro c
    by_cases hc : Lost E c
    · obtain ⟨r, h1, h2, h3⟩ := hf.rt c ((hU c).2 hc)
      exact ⟨r, fun _ => ⟨(hU r).1 h1, h2, h3⟩⟩
    · exact ⟨c, fun k => absurd k hc⟩
  obtain ⟨own, hown⟩ := Classical.axiomOfChoice hex
  have heq : ∀ c r, Lost E c → r ∈ E.chunks → (own c = r ↔ ρ c.base = r.base) := by
    intro c r hc hr
    obtain ⟨h1, h2, -⟩ := hown c hc
    rw [h2]
    exact ⟨fun k => by rw [k], fun k => h.inj h1.1 hr k⟩
  have hind : ∀ c, Lost E c → ((st.fl c.base).ind = false ↔ own c = c) := by
    intro c hc
    obtain ⟨h1, h2, h3⟩ := hown c hc
    constructor
    · intro hi
      exact (heq c c hc hc.1).2 (hf.root c ((hU c).2 hc) hi).1
    · intro k
      rw [k] at h3; exact h3
  have hmaybe : ∀ u, Lost E u → Plain E u → Scanned E st u := by
    intro u hu hp
    rcases hscan u hu.1 with k | k | k | k
    · exact absurd ((hs.rs u hu.1).1 k) hu.2
    · rw [hp.1] at k; cases k.1
    · exact absurd (hs.ms u hu.1 k.1) hp.2
    · exact k
  refine ⟨st, own, e, hs.ok, by unfold leakScan; rw [e]; rfl, ⟨?_, ?_, ?_⟩, hs.rs, ?_, ?_, hs.ms,
    hs.mr, ?_⟩
  · intro c hc
    obtain ⟨h1, h2, h3⟩ := hown c hc
    exact ⟨h1, (hind _ h1).1 h3⟩
  · intro c hc
    obtain ⟨h1, h2, -⟩ := hown c hc
    refine (hf.path c ((hU c).2 hc) (own c) h1.1 h2).mono ?_
    rintro d ⟨d1, d2⟩
    exact ⟨(hU d).1 d1, (heq d _ ((hU d).1 d1) h1.1).2 d2⟩
  · rintro u c hu hc ho hp ⟨w, hw, hh⟩
    rcases (hmaybe u hu hp w hw c hc.1).1 hh with k | k | k
    · exact absurd ((hs.rs c hc.1).1 k) hc.2
    · rw [(hind c hc).2 ho] at k; cases k
    · rw [hf.climb_full ((hU u).2 hu)] at k
      exact (heq u c hu hc.1).2 (Option.some.inj k)
  · intro c hc
    constructor
    · intro hi
      have hl : Lost E c := (hU c).1 ⟨hc, hs.ir c hc hi⟩
      refine ⟨hl.2, fun k => ?_⟩
      rw [(hind c hl).2 k] at hi; cases hi
    · rintro ⟨h1, h2⟩
      cases hi : (st.fl c.base).ind
      · exact absurd ((hind c ⟨hc, h1⟩).1 hi) h2
      · rfl
  · intro c hc ho
    rw [hf.bytes c ((hU c).2 hc) ((hind c hc).2 ho)]
    apply tot_total
    intro d hd
    unfold grp
    constructor
    · intro hg
      rw [Bool.and_eq_true] at hg
      have hl : Lost E d := (hU d).1 ⟨hd, by simpa using hg.1⟩
      exact ⟨hl, (heq d c hl hc.1).2 (by simpa using hg.2)⟩
    · rintro ⟨h1, h2⟩
      have := (heq d c h1 hc.1).1 h2
      rw [((hU d).2 h1).2, this]
      simp
  · rintro u c hu hc hp ⟨w, hw, hm⟩
    rcases (hmaybe u hu hp w hw c hc.1).2 hm with k | k | k
    · exact absurd ((hs.rs c hc.1).1 k) hc.2
    · exact .inl k
    · refine .inr fun ho => ?_
      rw [(hind c hc).2 ho] at k; cases k

/-! ## Examples -/

/-- A heap given by chunks, pointers in registers and pointers stored in chunks. -/
def heap (ch : List Chunk) (roots : List Nat) (ptr : Nat → List Nat) : Env where
  chunks := ch
  roots := roots.map fun v => ⟨0, v, 0⟩
  words s _ := (ptr s).zipIdx.map fun v => ⟨s + 8 * v.2, v.1, 0⟩
  low := 64
  isStr _ _ := false
  legit _ _ _ := false
  dbg := true

/-- A heap is well-formed by inspection. -/
theorem heap_wf {ch : List Chunk} {roots : List Nat} {ptr : Nat → List Nat}
    (h1 : ∀ c ∈ ch, 64 ≤ c.base ∧ 0 < c.size ∧ c.base + c.size < 2 ^ 32)
    (h2 : ch.Pairwise fun a b => a.stop ≤ b.base ∨ b.stop ≤ a.base)
    (h3 : ∀ c ∈ ch, 8 * (ptr c.base).length ≤ c.size) : WF (heap ch roots ptr) := by
  refine ⟨fun c hc => (h1 c hc).2.1, fun c hc => ?_, fun c hc => (h1 c hc).1, fun c hc => ?_, h2, ?_, ?_⟩
  · have := (h1 c hc).2.2
    omega
  · have := (h1 c hc).1
    omega
  · intro c hc w hw
    obtain ⟨v, hv, rfl⟩ := List.mem_map.1 hw
    have := List.snd_lt_of_mem_zipIdx hv
    have := h3 c hc
    unfold Chunk.Covers Chunk.stop
    dsimp only
    omega
  · intro w hw c hc hcov
    obtain ⟨v, hv, rfl⟩ := List.mem_map.1 hw
    have := (h1 c hc).1
    unfold Chunk.Covers at hcov
    dsimp only at hcov
    omega

/-- A reachable list of two, a possible leak, and a leaked list of two. -/
def sample : Env := heap
  [⟨100, 16, false⟩, ⟨200, 16, false⟩, ⟨300, 16, false⟩, ⟨400, 24, false⟩, ⟨500, 32, false⟩]
  [100, 308] fun s => if s = 100 then [200] else if s = 500 then [400] else []

theorem sample_wf : WF sample :=
  heap_wf (by decide) (by decide) (by decide)

/-- What is reported for the sample. -/
def sampleReports : List Report := [⟨100, 16, 0, true, false⟩, ⟨200, 16, 0, true, false⟩,
    ⟨300, 16, 0, false, true⟩, ⟨500, 32, 24, false, false⟩]

theorem sample_scan : leakScan sample = some sampleReports := by decide +kernel

/-! ## C28 -/

/-- **C28.**  The scan ends, without a failing assertion. -/
theorem C28_total {E : Env} (h : WF E) :
    ∃ st, marks E = some st ∧ st.bad = false ∧ (leakScan E).isSome := by
  obtain ⟨st, own, e1, e2, e3, -⟩ := outcome h
  exact ⟨st, e1, e2, by rw [e3]; rfl⟩

/-- **C28.**  A block (that is not one to ignore) is passed on as reachable exactly if a chain of
head pointers leads to it from a root. -/
theorem C28_reachable {E : Env} (h : WF E) {L : List Report} (hL : leakScan E = some L)
    {c : Chunk} (hc : c ∈ E.chunks) (hi : c.ignore = false) :
    Reach E c ↔ ∃ r ∈ L, r.base = c.base ∧ r.reach = true := by
  obtain ⟨st, own, -, -, e3, o⟩ := outcome h
  obtain rfl := Option.some.inj (e3.symm.trans hL)
  constructor
  · intro hr
    refine ⟨_, mem_reports.2 ⟨c, hc, hi, ?_, rfl⟩, rfl, (o.reach c hc).2 hr⟩
    cases hd : (st.fl c.base).ind
    · rfl
    · exact absurd hr ((o.ind c hc).1 hd).1
  · rintro ⟨r, hr, hb, hre⟩
    obtain ⟨d, hd, -, -, rfl⟩ := mem_reports.1 hr
    rw [← h.inj hd hc hb]
    exact (o.reach d hd).1 hre

/-- **C28.**  An unreachable block is reported as a leak or belongs to the group of another
unreachable block, to which a chain of head pointers through unreachable blocks leads from it. -/
theorem C28_leaked {E : Env} (h : WF E) {L : List Report} (hL : leakScan E = some L)
    {c : Chunk} (hc : Lost E c) (hi : c.ignore = false) :
    (∃ r ∈ L, r.base = c.base ∧ r.size = c.size ∧ r.reach = false) ∨
    ∃ d, Lost E d ∧ d ≠ c ∧ Chain E (Lost E) d c := by
  obtain ⟨st, own, -, -, e3, o⟩ := outcome h
  obtain rfl := Option.some.inj (e3.symm.trans hL)
  by_cases ho : own c = c
  · left
    refine ⟨_, mem_reports.2 ⟨c, hc.1, hi, ?_, rfl⟩, rfl, rfl, ?_⟩
    · cases hd : (st.fl c.base).ind
      · rfl
      · exact absurd ho ((o.ind c hc.1).1 hd).2
    · cases hd : (st.fl c.base).reach
      · rfl
      · exact absurd ((o.reach c hc.1).1 hd) hc.2
  · exact .inr ⟨own c, (o.groups.mem c hc).1, ho, (o.groups.chain c hc).mono fun d hd => hd.1⟩

/-- **C28.**  What is reported is a block of the heap, reported once, that is not to be ignored. -/
theorem C28_once {E : Env} (h : WF E) {L : List Report} (hL : leakScan E = some L) :
    L.Pairwise (fun a b => a.base ≠ b.base) ∧
    ∀ r ∈ L, ∃ c ∈ E.chunks, c.ignore = false ∧ r.base = c.base ∧ r.size = c.size := by
  obtain ⟨st, own, -, -, e3, o⟩ := outcome h
  obtain rfl := Option.some.inj (e3.symm.trans hL)
  constructor
  · rw [List.pairwise_filterMap]
    refine (List.Pairwise.and_mem.1 h.apart).imp ?_
    rintro a b ⟨ha, hb, hab⟩ x hx y hy he
    unfold report at hx hy
    split at hx
    · cases hx
    split at hy
    · cases hy
    obtain rfl := Option.some.inj hx
    obtain rfl := Option.some.inj hy
    have h1 := h.pos a ha
    have h2 := h.pos b hb
    dsimp only at he
    unfold Chunk.stop at hab
    omega
  · intro r hr
    obtain ⟨c, hc, h1, -, rfl⟩ := mem_reports.1 hr
    exact ⟨c, hc, h1, rfl, rfl⟩

/-- **C28.**  A block reported as a definite leak is neither reachable nor pointed into from a root
or a reachable block. -/
theorem C28_definite {E : Env} (h : WF E) {L : List Report} (hL : leakScan E = some L)
    {r : Report} (hr : r ∈ L) (h1 : r.reach = false) (h2 : r.maybe = false) :
    ∃ c ∈ E.chunks, r.base = c.base ∧ ¬ Reach E c ∧ ¬ MidReach E c := by
  obtain ⟨st, own, -, -, e3, o⟩ := outcome h
  obtain rfl := Option.some.inj (e3.symm.trans hL)
  obtain ⟨c, hc, -, -, rfl⟩ := mem_reports.1 hr
  dsimp only at h1 h2
  have hn : ¬ Reach E c := fun hh => by rw [(o.reach c hc).2 hh] at h1; cases h1
  refine ⟨c, hc, rfl, hn, fun hm => ?_⟩
  rcases o.mid c hc hm with k | k
  · exact hn k
  · rw [h2] at k; cases k

/-- **C28.**  A block reported as a possible leak is unreachable and pointed into the middle by a
root or a block. -/
theorem C28_possible {E : Env} (h : WF E) {L : List Report} (hL : leakScan E = some L)
    {r : Report} (hr : r ∈ L) (h1 : r.reach = false) (h2 : r.maybe = true) :
    ∃ c ∈ E.chunks, r.base = c.base ∧ ¬ Reach E c ∧ Touched E c := by
  obtain ⟨st, own, -, -, e3, o⟩ := outcome h
  obtain rfl := Option.some.inj (e3.symm.trans hL)
  obtain ⟨c, hc, -, -, rfl⟩ := mem_reports.1 hr
  dsimp only at h1 h2
  have hn : ¬ Reach E c := fun hh => by rw [(o.reach c hc).2 hh] at h1; cases h1
  exact ⟨c, hc, rfl, hn, o.maybe c hc h2⟩

/-- **C28** (partial: directly pointed into from a root or a reachable block, and unless claimed by
another leak).  An unreachable block pointed into the middle from a root or a reachable block is
reported as a possible leak.  Missing: blocks reached by more pointers after the first mid-block one
(`C28_maybe_child`, `C28_maybe_cycle` show that the code does report some of them as definite). -/
theorem C28_maybe_partial {E : Env} (h : WF E) {L : List Report} (hL : leakScan E = some L)
    {c : Chunk} (hc : Lost E c) (hi : c.ignore = false) (hm : MidReach E c) :
    (∃ r ∈ L, r.base = c.base ∧ r.reach = false ∧ r.maybe = true) ∨
    ∃ d, Lost E d ∧ d ≠ c ∧ Chain E (Lost E) d c := by
  obtain ⟨st, own, -, -, e3, o⟩ := outcome h
  obtain rfl := Option.some.inj (e3.symm.trans hL)
  by_cases ho : own c = c
  · left
    refine ⟨_, mem_reports.2 ⟨c, hc.1, hi, ?_, rfl⟩, rfl, ?_, ?_⟩
    · cases hd : (st.fl c.base).ind
      · rfl
      · exact absurd ho ((o.ind c hc.1).1 hd).2
    · cases hd : (st.fl c.base).reach
      · rfl
      · exact absurd ((o.reach c hc.1).1 hd) hc.2
    · exact (o.mid c hc.1 hm).resolve_left hc.2
  · exact .inr ⟨own c, (o.groups.mem c hc).1, ho, (o.groups.chain c hc).mono fun d hd => hd.1⟩

/-- The hypotheses are met: block 300 of the sample. -/
example : ∃ c ∈ sample.chunks, 300 = c.base ∧ ¬ Reach sample c ∧ Touched sample c :=
  C28_possible sample_wf sample_scan (r := ⟨300, 16, 0, false, true⟩) (by simp [sampleReports]) rfl rfl

/-- Block 500 of the sample. -/
example : ∃ c ∈ sample.chunks, 500 = c.base ∧ ¬ Reach sample c ∧ ¬ MidReach sample c :=
  C28_definite sample_wf sample_scan (r := ⟨500, 32, 24, false, false⟩) (by simp [sampleReports]) rfl rfl

/-- Block 200 of the sample is reachable. -/
example : Reach sample ⟨200, 16, false⟩ :=
  (C28_reachable sample_wf sample_scan (by simp [sample, heap]) rfl).2
    ⟨⟨200, 16, 0, true, false⟩, by simp [sampleReports], rfl, rfl⟩

/-- A block of size zero is reported as a leak although a register holds its address: the interval
tree finds no node for the pointer (drmemory/leak.c:913). -/
theorem C28_zero_size : leakScan (heap [⟨128, 0, false⟩] [128] fun _ => []) =
    some [⟨128, 0, 0, false, false⟩] := by decide +kernel

/-- A block pointed into by a register is claimed by a leak pointing to its head; it is then not
looked into, and the block it points to is reported as a definite leak, although a chain from a
register (through a mid-block pointer) leads to it. -/
theorem C28_maybe_child :
    leakScan (heap [⟨100, 16, false⟩, ⟨200, 16, false⟩, ⟨300, 16, false⟩] [208]
      fun s => if s = 100 then [200] else if s = 200 then [300] else []) =
    some [⟨100, 16, 16, false, false⟩, ⟨300, 16, 0, false, false⟩] := by decide +kernel

/-- The register points into block 100, which points to 200; 200 and 300 point to each other and are
reported as a definite leak of 300. -/
theorem C28_maybe_cycle :
    leakScan (heap [⟨300, 16, false⟩, ⟨200, 16, false⟩, ⟨100, 16, false⟩] [108]
      fun s => if s = 100 then [200] else if s = 300 then [200] else if s = 200 then [300] else []) =
    some [⟨300, 16, 16, false, false⟩, ⟨100, 16, 0, false, true⟩] := by decide +kernel

/-! ## C29 -/

/-- **C29** (the part of the claim about cycles is `C29_cycle_partial`).  Each unreachable block
belongs to exactly one group; the blocks naming a group are those reported as leaks (if not to be
ignored), with the sizes of the other members as indirect bytes. -/
theorem C29_groups {E : Env} (h : WF E) {L : List Report} (hL : leakScan E = some L) :
    ∃ own, Groups E own ∧
      (∀ r ∈ L, r.reach = false → ∃ c, Lost E c ∧ own c = c ∧ c.ignore = false ∧ r.base = c.base ∧
        r.size = c.size ∧ r.size + r.indirect = total E fun d => Lost E d ∧ own d = c) ∧
      (∀ c, Lost E c → own c = c → c.ignore = false → ∃ r ∈ L, r.base = c.base ∧ r.reach = false) := by
  obtain ⟨st, own, -, -, e3, o⟩ := outcome h
  obtain rfl := Option.some.inj (e3.symm.trans hL)
  refine ⟨own, o.groups, ?_, ?_⟩
  · intro r hr h1
    obtain ⟨c, hc, hi, hd, rfl⟩ := mem_reports.1 hr
    dsimp only at h1
    have hl : Lost E c := ⟨hc, fun hh => by rw [(o.reach c hc).2 hh] at h1; cases h1⟩
    have ho : own c = c := by
      refine Classical.byContradiction fun hne => ?_
      rw [(o.ind c hc).2 ⟨hl.2, hne⟩] at hd; cases hd
    refine ⟨c, hl, ho, hi, rfl, rfl, ?_⟩
    rw [← o.bytes c hl ho]
    dsimp only
    omega
  · intro c hc ho hi
    refine ⟨_, mem_reports.2 ⟨c, hc.1, hi, ?_, rfl⟩, rfl, ?_⟩
    · cases hd : (st.fl c.base).ind
      · rfl
      · exact absurd ho ((o.ind c hc.1).1 hd).2
    · cases hd : (st.fl c.base).reach
      · rfl
      · exact absurd ((o.reach c hc.1).1 hd) hc.2

theorem total_add {E : Env} {p q r : Chunk → Prop} (h1 : ∀ c ∈ E.chunks, r c ↔ p c ∨ q c)
    (h2 : ∀ c ∈ E.chunks, ¬ (p c ∧ q c)) : total E r = total E p + total E q := by
  unfold total
  have key : ∀ l : List Chunk, (∀ c ∈ l, c ∈ E.chunks) →
      (open Classical in (l.map fun c => if r c then c.size else 0).sum =
        (l.map fun c => if p c then c.size else 0).sum +
        (l.map fun c => if q c then c.size else 0).sum) := by
    intro l
    induction l with
    | nil => intro _; rfl
    | cons z l ih =>
      intro hl
      simp only [List.map_cons, List.sum_cons]
      rw [ih fun c hc => hl c (List.mem_cons_of_mem _ hc)]
      have k1 := h1 z (hl z List.mem_cons_self)
      have k2 := h2 z (hl z List.mem_cons_self)
      by_cases hp : p z <;> by_cases hq : q z
      · exact absurd ⟨hp, hq⟩ k2
      · rw [if_pos (k1.2 (.inl hp)), if_pos hp, if_neg hq]; omega
      · rw [if_pos (k1.2 (.inr hq)), if_neg hp, if_pos hq]; omega
      · rw [if_neg fun k => (k1.1 k).elim hp hq, if_neg hp, if_neg hq]; omega
  exact key _ fun _ h => h

theorem total_false {E : Env} {p : Chunk → Prop} (h : ∀ c ∈ E.chunks, ¬ p c) : total E p = 0 := by
  unfold total
  have key : ∀ l : List Chunk, (∀ c ∈ l, c ∈ E.chunks) →
      (open Classical in (l.map fun c => if p c then c.size else 0).sum = 0) := by
    intro l
    induction l with
    | nil => intro _; rfl
    | cons z l ih =>
      intro hl
      rw [List.map_cons, List.sum_cons, ih fun c hc => hl c (List.mem_cons_of_mem _ hc),
        if_neg (h z (hl z List.mem_cons_self))]
  exact key _ fun _ h => h

/-- The reports of leaks add up to the groups they stand for. -/
theorem sum_reports {E : Env} (h : WF E) {st : St} {own : Chunk → Chunk} (o : Outcome E st own) :
    (((E.chunks.filterMap (report st)).filter fun r => !r.reach).map
      fun r => r.size + r.indirect).sum =
    total E fun d => Lost E d ∧ (own d).ignore = false := by
  have key : ∀ l : List Chunk, l.Pairwise (fun a b => a.stop ≤ b.base ∨ b.stop ≤ a.base) →
      (∀ c ∈ l, c ∈ E.chunks) →
      (((l.filterMap (report st)).filter fun r => !r.reach).map
        fun r => r.size + r.indirect).sum =
      total E fun d => Lost E d ∧ own d ∈ l ∧ (own d).ignore = false := by
    intro l
    induction l with
    | nil =>
      intro _ _
      rw [total_false]
      · rfl
      · rintro c _ ⟨-, k, -⟩
        cases k
    | cons z l ih =>
      intro hp hl
      rw [List.pairwise_cons] at hp
      have hz : z ∈ E.chunks := hl z List.mem_cons_self
      have hi := ih hp.2 fun c hc => hl c (List.mem_cons_of_mem _ hc)
      have hnz : z ∉ l := by
        intro hm
        have h1 := hp.1 z hm
        have h2 := h.pos z hz
        unfold Chunk.stop at h1
        omega
      rw [total_add (p := fun d => Lost E d ∧ own d = z ∧ z.ignore = false)
        (q := fun d => Lost E d ∧ own d ∈ l ∧ (own d).ignore = false), ← hi]
      · rw [List.filterMap_cons]
        by_cases hg : z.ignore = true ∨ (st.fl z.base).ind = true
        · rw [show report st z = none by unfold report; rw [if_pos hg]]
          dsimp only
          rw [total_false, Nat.zero_add]
          rintro c _ ⟨k1, k2, k3⟩
          rcases hg with hg | hg
          · rw [k3] at hg; cases hg
          · have := (o.groups.mem c k1).2
            rw [k2] at this
            exact ((o.ind z hz).1 hg).2 this
        · rw [show report st z = some ⟨z.base, z.size, (st.ue z.base).bytes, (st.fl z.base).reach,
            (st.fl z.base).maybe⟩ by unfold report; rw [if_neg hg]]
          dsimp only
          have hzi : z.ignore = false := by
            cases hh : z.ignore
            · rfl
            · exact absurd (.inl hh) hg
          cases hr : (st.fl z.base).reach with
          | true =>
            rw [List.filter_cons_of_neg (by simp), total_false, Nat.zero_add]
            rintro c _ ⟨k1, k2, -⟩
            have := (o.groups.mem c k1).1.2
            rw [k2] at this
            exact this ((o.reach z hz).1 hr)
          | false =>
            have hlz : Lost E z := ⟨hz, fun k => by rw [(o.reach z hz).2 k] at hr; cases hr⟩
            have hoz : own z = z := by
              refine Classical.byContradiction fun hne => hg (.inr ?_)
              exact (o.ind z hz).2 ⟨hlz.2, hne⟩
            rw [List.filter_cons_of_pos (by simp), List.map_cons, List.sum_cons]
            dsimp only
            have hb := o.bytes z hlz hoz
            have : total E (fun d => Lost E d ∧ own d = z ∧ z.ignore = false) =
                total E (fun d => Lost E d ∧ own d = z) :=
              total_congr fun c _ => ⟨fun k => ⟨k.1, k.2.1⟩, fun k => ⟨k.1, k.2, hzi⟩⟩
            rw [this, ← hb]
            omega
      · intro c _
        constructor
        · rintro ⟨k1, k2, k3⟩
          rcases List.mem_cons.1 k2 with k | k
          · exact .inl ⟨k1, k, by rw [← k]; exact k3⟩
          · exact .inr ⟨k1, k, k3⟩
        · rintro (⟨k1, k2, k3⟩ | ⟨k1, k2, k3⟩)
          · exact ⟨k1, by rw [k2]; exact List.mem_cons_self, by rw [k2]; exact k3⟩
          · exact ⟨k1, List.mem_cons_of_mem _ k2, k3⟩
      · rintro c _ ⟨⟨-, k1, -⟩, -, k2, -⟩
        rw [k1] at k2
        exact hnz k2
  rw [key E.chunks h.apart fun _ h => h]
  exact total_congr fun c _ => ⟨fun k => ⟨k.1, k.2.2⟩, fun k => ⟨k.1, (o.groups.mem c k.1).1.1, k.2⟩⟩

/-- **C29.**  The direct and indirect bytes reported add up to the sizes of the unreachable blocks,
if none of these is to be ignored. -/
theorem C29_total {E : Env} (h : WF E) {L : List Report} (hL : leakScan E = some L)
    (hi : ∀ c, Lost E c → c.ignore = false) :
    ((L.filter fun r => !r.reach).map fun r => r.size + r.indirect).sum = total E (Lost E) := by
  obtain ⟨st, own, -, -, e3, o⟩ := outcome h
  obtain rfl := Option.some.inj (e3.symm.trans hL)
  rw [sum_reports h o]
  exact total_congr fun c _ => ⟨fun k => k.1, fun k => ⟨k, hi _ (o.groups.mem c k).1⟩⟩

/-- For the sample: 72 bytes of unreachable blocks. -/
example : total sample (Lost sample) = 72 :=
  (C29_total sample_wf sample_scan (by
    rintro c ⟨hc, -⟩
    simp only [sample, heap, List.mem_cons, List.not_mem_nil, or_false] at hc
    rcases hc with rfl | rfl | rfl | rfl | rfl <;> rfl)).symm

/-- **C29** (partial: outside of cycles).  If no chain leads from a block back to one pointing to it,
it is reported as a leak of its own exactly if no unreachable block points to it. -/
theorem C29_direct_partial {E : Env} (h : WF E) {L : List Report} (hL : leakScan E = some L)
    {c : Chunk} (hc : Lost E c) (hi : c.ignore = false)
    (hp : ∀ u, Lost E u → Points E u c → Plain E u)
    (hcyc : ∀ u, Points E u c → ¬ Chain E (Lost E) c u) :
    (∃ r ∈ L, r.base = c.base) ↔ ¬ ∃ u, Lost E u ∧ Points E u c := by
  obtain ⟨own, hg, h1, h2⟩ := C29_groups h hL
  constructor
  · rintro ⟨r, hr, hb⟩ ⟨u, hu, hpt⟩
    have hre : r.reach = false := by
      cases hre : r.reach
      · rfl
      · exact absurd ((C28_reachable h hL hc.1 hi).2 ⟨r, hr, hb, hre⟩) hc.2
    obtain ⟨d, hd, ho, -, hb', -⟩ := h1 r hr hre
    obtain rfl := h.inj hd.1 hc.1 (hb'.symm.trans hb)
    have := hg.back u d hu hd ho (hp u hu hpt) hpt
    refine hcyc u hpt ?_
    have hch := hg.chain u hu
    rw [this] at hch
    exact hch.mono fun e he => he.1
  · intro hno
    by_cases ho : own c = c
    · obtain ⟨r, hr, hb, -⟩ := h2 c hc ho hi
      exact ⟨r, hr, hb⟩
    · exfalso
      have hch := hg.chain c hc
      generalize hoc : own c = o at hch ho
      cases hch with
      | refl _ => exact ho rfl
      | step k _ kp _ => exact hno ⟨_, k.last.1, kp⟩

/-- **C29** (partial: cycles without further pointers into them; with more, one strongly connected
structure may have two direct leaks, `C29_two_leaks`).  A cycle of unreachable blocks to which only
the cycle points has exactly one direct leak. -/
theorem C29_cycle_partial {E : Env} (h : WF E) {L : List Report} (hL : leakScan E = some L)
    (k : Nat → Chunk) {n : Nat} (hn : 0 < n) (hper : ∀ i, k (i + n) = k i)
    (hl : ∀ i, Lost E (k i)) (hp : ∀ i, Plain E (k i)) (hpt : ∀ i, Points E (k i) (k (i + 1)))
    (honly : ∀ i u, Lost E u → Points E u (k (i + 1)) → u = k i) :
    ∃ i, (∃ r ∈ L, r.base = (k i).base ∧ r.reach = false) ∧
      ∀ j, k j ≠ k i → ∀ r ∈ L, r.base ≠ (k j).base := by
  obtain ⟨own, hg, h1, h2⟩ := C29_groups h hL
  have hprev : ∀ i u, Lost E u → Points E u (k i) → u = k (i + (n - 1)) := by
    intro i u hu hup
    refine honly _ u hu ?_
    rw [show i + (n - 1) + 1 = i + n by omega, hper]
    exact hup
  -- the name of a group met on the cycle lies on the cycle
  have hin : ∀ G r c, Chain E G r c → (∀ d, G d → Lost E d) → (∃ i, c = k i) → ∃ i, r = k i := by
    intro G r c hch hG
    induction hch with
    | refl _ _ => exact id
    | step hc' _ hpt' _ ih =>
      rintro ⟨i, rfl⟩
      exact ih ⟨_, hprev i _ (hG _ hc'.last) hpt'⟩
  obtain ⟨i, hi⟩ := hin _ _ _ (hg.chain (k 0) (hl 0)) (fun d hd => hd.1) ⟨0, rfl⟩
  have hoi : own (k i) = k i := by rw [← hi]; exact (hg.mem _ (hl 0)).2
  have hall : ∀ m, m ≤ n - 1 → own (k (i + (n - 1 - m))) = k i := by
    intro m
    induction m with
    | zero =>
      intro _
      refine hg.back _ _ (hl _) (hl i) hoi (hp _) ?_
      have := hpt (i + (n - 1 - 0))
      rwa [show i + (n - 1 - 0) + 1 = i + n by omega, hper] at this
    | succ m ih =>
      intro hm
      have hm' := ih (by omega)
      have hch := hg.chain _ (hl (i + (n - 1 - m)))
      rw [hm'] at hch
      generalize hx : k (i + (n - 1 - m)) = x at hch
      cases hch with
      | refl _ =>
        -- the cycle came back to its name early
        have hb := hg.back (k (i + (n - 1 - (m + 1)))) (k i) (hl _) (hl i) hoi (hp _) (by
          have := hpt (i + (n - 1 - (m + 1)))
          rw [show i + (n - 1 - (m + 1)) + 1 = i + (n - 1 - m) by omega, hx] at this
          exact this)
        exact hb
      | step hc' _ hpt' _ =>
        rw [← hx, show i + (n - 1 - m) = i + (n - 1 - (m + 1)) + 1 by omega] at hpt'
        have := honly _ _ hc'.last.1 hpt'
        rw [← this]
        exact hc'.last.2
  have hres : ∀ j, ∃ m, m ≤ n - 1 ∧ k j = k (i + (n - 1 - m)) := by
    have hmul : ∀ q j, k (j + n * q) = k j := by
      intro q
      induction q with
      | zero => intro j; rfl
      | succ q ih => intro j; rw [Nat.mul_succ, ← Nat.add_assoc, hper, ih]
    intro j
    have hlt : (j + n * i - i) % n < n := Nat.mod_lt _ hn
    refine ⟨n - 1 - (j + n * i - i) % n, by omega, ?_⟩
    have hle : i ≤ n * i := Nat.le_mul_of_pos_left i hn
    have e1 : j + n * i = i + (j + n * i - i) % n + n * ((j + n * i - i) / n) := by
      have := Nat.mod_add_div (j + n * i - i) n
      omega
    rw [show i + (n - 1 - (n - 1 - (j + n * i - i) % n)) = i + (j + n * i - i) % n by omega,
      ← hmul i j, ← hmul ((j + n * i - i) / n) (i + (j + n * i - i) % n), ← e1]
  refine ⟨i, h2 _ (hl i) hoi (hp i).1, ?_⟩
  intro j hj r hr hb
  have hre : r.reach = false := by
    cases hre : r.reach
    · rfl
    · exact absurd ((C28_reachable h hL (hl j).1 (hp j).1).2 ⟨r, hr, hb, hre⟩) (hl j).2
  obtain ⟨d, hd, ho, -, hb', -⟩ := h1 r hr hre
  obtain rfl := h.inj hd.1 (hl j).1 (hb'.symm.trans hb)
  obtain ⟨m, hm, e⟩ := hres j
  have := hall m hm
  rw [← e, ho] at this
  exact hj this

theorem not_reach {E : Env} (h : E.roots = []) (c : Chunk) : ¬ Reach E c := by
  intro hr
  induction hr with
  | root hw _ => rw [h] at hw; cases hw
  | step _ _ _ ih => exact ih

/-- Two blocks pointing to each other. -/
def pair : Env := heap [⟨100, 16, false⟩, ⟨200, 24, false⟩] []
  fun s => if s = 100 then [200] else [100]

theorem pair_wf : WF pair := heap_wf (by decide) (by decide) (by decide)

theorem pair_scan : leakScan pair = some [⟨100, 16, 24, false, false⟩] := by decide +kernel

/-- The hypotheses of `C29_cycle_partial` are met by the pair. -/
example : ∃ i, (∃ r ∈ [(⟨100, 16, 24, false, false⟩ : Report)],
      r.base = (if i % 2 = 0 then (⟨100, 16, false⟩ : Chunk) else ⟨200, 24, false⟩).base ∧
      r.reach = false) ∧
    ∀ j, (if j % 2 = 0 then (⟨100, 16, false⟩ : Chunk) else ⟨200, 24, false⟩) ≠
      (if i % 2 = 0 then ⟨100, 16, false⟩ else ⟨200, 24, false⟩) →
      ∀ r ∈ [(⟨100, 16, 24, false, false⟩ : Report)],
      r.base ≠ (if j % 2 = 0 then (⟨100, 16, false⟩ : Chunk) else ⟨200, 24, false⟩).base := by
  have hword : ∀ d ∈ pair.chunks, ∀ w ∈ pair.words d.base d.stop,
      (d = ⟨100, 16, false⟩ ∧ w = ⟨100, 200, 0⟩) ∨ (d = ⟨200, 24, false⟩ ∧ w = ⟨200, 100, 0⟩) := by
    intro d hd w hw
    simp only [pair, heap, List.mem_cons, List.not_mem_nil, or_false] at hd
    rcases hd with rfl | rfl <;> simp [pair, heap] at hw <;> simp [hw]
  have hlost : ∀ d ∈ pair.chunks, Lost pair d := fun d hd => ⟨hd, not_reach rfl d⟩
  have hplain : ∀ d ∈ pair.chunks, d.ignore = false → Plain pair d := by
    rintro d hd hi
    refine ⟨hi, ?_⟩
    rintro ⟨w, hm, hw | ⟨e, he, hw⟩⟩
    · cases hw
    · have h1 := hm.1.1
      obtain ⟨-, h2, h3, -⟩ := hm
      simp only [pair, heap, List.mem_cons, List.not_mem_nil, or_false] at h1
      rcases hword e he w hw with ⟨-, rfl⟩ | ⟨-, rfl⟩ <;> rcases h1 with rfl | rfl <;>
        simp [Chunk.stop] at h2 h3
  have ha : (⟨100, 16, false⟩ : Chunk) ∈ pair.chunks := by simp [pair, heap]
  have hb : (⟨200, 24, false⟩ : Chunk) ∈ pair.chunks := by simp [pair, heap]
  have pab : Points pair ⟨100, 16, false⟩ ⟨200, 24, false⟩ :=
    ⟨⟨100, 200, 0⟩, by simp [pair, heap], ⟨hb, by simp [Chunk.Covers], by simp⟩, .inl rfl⟩
  have pba : Points pair ⟨200, 24, false⟩ ⟨100, 16, false⟩ :=
    ⟨⟨200, 100, 0⟩, by simp [pair, heap], ⟨ha, by simp [Chunk.Covers, Chunk.stop], by simp⟩, .inl rfl⟩
  refine C29_cycle_partial pair_wf pair_scan
    (fun i => if i % 2 = 0 then ⟨100, 16, false⟩ else ⟨200, 24, false⟩) (n := 2) (by omega) ?_ ?_ ?_
    ?_ ?_
  · intro i
    rw [Nat.add_mod_right]
  · intro i
    split
    · exact hlost _ ha
    · exact hlost _ hb
  · intro i
    split
    · exact hplain _ ha rfl
    · exact hplain _ hb rfl
  · intro i
    by_cases hi : i % 2 = 0
    · rw [if_pos hi, if_neg (by omega)]; exact pab
    · rw [if_neg hi, if_pos (by omega)]; exact pba
  · rintro i u hu ⟨w, hw, hh⟩
    have hcov := hh.cov pair_wf
    rcases hword u hu.1 w hw with ⟨rfl, rfl⟩ | ⟨rfl, rfl⟩
    · by_cases hi : i % 2 = 0
      · rw [if_pos hi]
      · rw [if_pos (by omega)] at hcov
        simp [Chunk.Covers, Chunk.stop] at hcov
    · by_cases hi : i % 2 = 0
      · rw [if_neg (by omega)] at hcov
        simp [Chunk.Covers] at hcov
      · rw [if_neg hi]

/-- The hypotheses of `C29_direct_partial` are met by block 500 of the sample. -/
example : ¬ ∃ u, Lost sample u ∧ Points sample u ⟨500, 32, false⟩ := by
  have hno : ∀ u, u ∈ sample.chunks → ¬ Points sample u ⟨500, 32, false⟩ := by
    rintro u hu ⟨w, hw, hh⟩
    have hcov := hh.cov sample_wf
    simp only [sample, heap, List.mem_cons, List.not_mem_nil, or_false] at hu
    rcases hu with rfl | rfl | rfl | rfl | rfl <;> simp [sample, heap] at hw
    · subst hw; simp [Chunk.Covers] at hcov
    · subst hw; simp [Chunk.Covers] at hcov
  have hl : Lost sample ⟨500, 32, false⟩ := by
    obtain ⟨c, hc, hb, hr, -⟩ := C28_definite sample_wf sample_scan
      (r := ⟨500, 32, 24, false, false⟩) (by simp [sampleReports]) rfl rfl
    have hm : (⟨500, 32, false⟩ : Chunk) ∈ sample.chunks := by simp [sample, heap]
    obtain rfl := sample_wf.inj hc hm hb.symm
    exact ⟨hc, hr⟩
  refine (C29_direct_partial sample_wf sample_scan hl rfl
    (fun u hu hp => absurd hp (hno u hu.1)) (fun u hp hch => ?_)).1
    ⟨⟨500, 32, 24, false, false⟩, by simp [sampleReports], rfl⟩
  exact hno u hch.last.1 hp

/-- One strongly connected structure of four blocks with two direct leaks. -/
theorem C29_two_leaks :
    leakScan (heap [⟨100, 16, false⟩, ⟨200, 16, false⟩, ⟨300, 16, false⟩, ⟨400, 16, false⟩] []
      fun s => if s = 100 then [300] else if s = 200 then [400] else if s = 300 then [100, 400]
        else [200, 300]) =
    some [⟨100, 16, 16, false, false⟩, ⟨200, 16, 16, false, false⟩] := by decide +kernel

/-- A block to be ignored is counted in the indirect bytes of a block pointing to it, and the block it
points to is a direct leak. -/
theorem C29_ignored :
    leakScan (heap [⟨100, 16, false⟩, ⟨200, 16, true⟩, ⟨300, 16, false⟩] []
      fun s => if s = 100 then [200] else if s = 200 then [300] else []) =
    some [⟨100, 16, 16, false, false⟩, ⟨300, 16, 0, false, false⟩] := by decide +kernel

theorem sizes_le : ∀ (n : Nat) (l : List Chunk), l.length = n →
    l.Pairwise (fun a b => a.stop ≤ b.base ∨ b.stop ≤ a.base) → (∀ c ∈ l, 0 < c.size) →
    ∀ N, (∀ c ∈ l, c.stop ≤ N) → (l.map Chunk.size).sum ≤ N := by
  intro n
  induction n with
  | zero =>
    intro l hl _ _ N _
    rw [List.length_eq_zero_iff.1 hl]
    exact Nat.zero_le _
  | succ n ih =>
    intro l hl hp hpos N hN
    have hmax : ∀ l : List Chunk, l ≠ [] → ∃ c ∈ l, ∀ d ∈ l, d.base ≤ c.base := by
      intro l
      induction l with
      | nil => intro h; exact absurd rfl h
      | cons z l ih =>
        intro _
        by_cases hl : l = []
        · subst hl
          refine ⟨z, List.mem_cons_self, ?_⟩
          intro d hd
          rw [List.mem_singleton.1 hd]; exact Nat.le_refl _
        · obtain ⟨c, hc, hcm⟩ := ih hl
          by_cases hz : z.base ≤ c.base
          · refine ⟨c, List.mem_cons_of_mem _ hc, ?_⟩
            intro d hd
            rcases List.mem_cons.1 hd with rfl | hd
            · exact hz
            · exact hcm d hd
          · refine ⟨z, List.mem_cons_self, ?_⟩
            intro d hd
            rcases List.mem_cons.1 hd with rfl | hd
            · exact Nat.le_refl _
            · have := hcm d hd
              omega
    obtain ⟨c, hc, hcm⟩ := hmax l (by intro e; rw [e] at hl; cases hl)
    have hperm : l.Perm (c :: l.erase c) := List.perm_cons_erase hc
    have hp' : (c :: l.erase c).Pairwise (fun a b => a.stop ≤ b.base ∨ b.stop ≤ a.base) :=
      hperm.pairwise hp fun {_ _} h => h.symm
    rw [List.pairwise_cons] at hp'
    have hmem : ∀ d ∈ l.erase c, d ∈ l := fun d hd => hperm.mem_iff.2 (List.mem_cons_of_mem _ hd)
    have hrest := ih (l.erase c) (by
        have := hperm.length_eq
        rw [List.length_cons] at this
        omega) hp'.2 (fun d hd => hpos d (hmem d hd)) c.base (by
      intro d hd
      have h1 := hp'.1 d hd
      have h2 := hcm d (hmem d hd)
      have h3 := hpos c hc
      have h4 := hpos d (hmem d hd)
      unfold Chunk.stop at h1 ⊢
      omega)
    have hs := (hperm.map Chunk.size).sum_nat
    rw [List.map_cons, List.sum_cons] at hs
    have := hN c hc
    unfold Chunk.stop at this
    omega

/-- **C29.**  No byte count can wrap: all sizes together stay below the size of the address space. -/
theorem C29_bound {E : Env} (h : WF E) {L : List Report} (hL : leakScan E = some L) {r : Report}
    (hr : r ∈ L) (hre : r.reach = false) : r.size + r.indirect < 2 ^ 64 := by
  obtain ⟨own, hg, h1, -⟩ := C29_groups h hL
  obtain ⟨c, hc, -, -, -, -, hb⟩ := h1 r hr hre
  rw [hb]
  have hle : ∀ p, total E p ≤ (E.chunks.map Chunk.size).sum := by
    intro p
    unfold total
    generalize E.chunks = l
    induction l with
    | nil => exact Nat.le_refl _
    | cons z l ih =>
      simp only [List.map_cons, List.sum_cons]
      split <;> omega
  have := sizes_le _ E.chunks rfl h.apart h.pos (2 ^ 64 - 1) (by
    intro d hd
    have := h.top d hd
    unfold Chunk.stop
    omega)
  have := hle fun d => Lost E d ∧ own d = c
  omega

end Verif.Leak
