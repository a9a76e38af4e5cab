import Verif.FuzzDriverCorpus

/-!
# A whole pass with a corpus (C71)

The pass follows a small machine, `Pass`: the files still to be run, the mutators in
the order they joined, whose turn it is, and how many blocks were reached.
-/

namespace Verif.FuzzDriver

/-! ## The specification -/

/-- What a corpus pass is to do. -/
structure Pass (M : Type) where
  left : List (List Byte)
  vec : List M := []
  turn : Nat := 0
  found : Nat := 0
  mutating : Bool := false
  cur : M
  bytes : List Byte := []
  dumps : List (List Byte) := []

/-- The next input, from what is in the buffer: the next file; or, when none is left, the
next value of the mutator whose turn it is. -/
def Pass.next {M : Type} (L : Lib M) (c : Cfg) (b : List Byte) (p : Pass M) : Pass M :=
  match p.mutating, p.left with
  | false, d :: ds =>
    { p with left := ds, cur := L.start (overlay b d), bytes := overlay b d }
  | _, _ =>
    match p.vec[p.turn]? with
    | none => p
    | some m =>
      { p with
        mutating := true, vec := p.vec.set p.turn (stepM L c m), cur := stepM L c m,
        bytes := putVal L c m b,
        turn := if p.turn + 1 ≥ p.vec.length then 0 else p.turn + 1 }

/-- What an iteration adds, when it left `b` in the buffer and `n` blocks have been
reached: a file's mutator joins; a mutated input that reached new blocks is dumped
and a mutator started on it joins. -/
def Pass.gain {M : Type} (L : Lib M) (c : Cfg) (b : List Byte) (n : Nat) (p : Pass M) : Pass M :=
  if p.mutating = false then
    { p with
      vec := p.vec ++ [p.cur], found := n,
      dumps := if c.corpusOut = true ∧ n > p.found then p.dumps ++ [b] else p.dumps }
  else if n > p.found then
    { p with
      vec := p.vec ++ [L.start (L.current p.cur)], found := n, dumps := p.dumps ++ [b] }
  else { p with found := n }

/-! ## The driver follows it -/

/-- The driver's state matches the machine, up to the bytes in the buffer. -/
structure Core {M : Type} (size : M → Nat) (c : Cfg) (files : List File) (sh : Sh) (n : Nat)
    (s : St M) (t : Nat) (p : Pass M) : Prop where
  vec : s.vec = p.vec
  dumps : s.dumps = p.dumps
  held : s.allocs = s.frees + if c.replace then 1 else 0
  skip : (s.th t).skip = 0
  mutr : (s.th t).mutr = some p.cur
  should : (s.th t).should = p.mutating
  mi : (s.th t).mi = p.turn
  bbs : (s.th t).bbs = p.found
  orig : (s.th t).useOrig = false
  saved : CSaved c sh (s.th t)
  left : p.mutating = false → readable (files.drop (s.th t).ci) = p.left
  sizes : ∀ m ∈ p.vec, size m = n
  scur : size p.cur = n
  turn : p.turn < p.vec.length ∨ (p.mutating = false ∧ p.turn = 0)

/-- The parts of the state that other functions of the driver look at. -/
def Same {M : Type} (s s' : St M) : Prop :=
  s'.enabled = s.enabled ∧ s'.owner = s.owner ∧ s'.busy = s.busy

/-- The next input of a running pass. -/
theorem choose_ok {M : Type} {L : Lib M} {size : M → Nat} (hL : L.Ok size) (c : Cfg) (hw : Whole c)
    (files : List File) (sh : Sh) (n : Nat) (s : St M) (t : Nat) (p : Pass M)
    (h : Core size c files sh n s t p) (b : List Byte) (hb : (s.th t).buf = some b)
    (hlen : b.length = n) (hne : b ≠ []) (hf : Fits c files n) (hrep : (s.th t).rep = true)
    (hv : p.vec ≠ []) (hfne : files ≠ []) :
    ∃ s', preCorpus L c s t files = .ok (s', ⟨true, (p.next L c b).bytes, cSh c sh n (s.th t).sh⟩) ∧
      Core size c files sh n s' t (p.next L c b) ∧ Same s s' ∧
      (s'.th t).buf = some (p.next L c b).bytes ∧ (p.next L c b).bytes.length = n ∧
      (s'.th t).idx = (s.th t).idx ∧ (s'.th t).rep = true ∧ (p.next L c b).vec ≠ [] := by
  have ho : c.offset < b.length := by
    rw [hw.1]
    exact Nat.pos_of_ne_zero (fun h => hne (List.eq_nil_of_length_eq_zero h))
  have hf' : Fits c (files.drop (s.th t).ci) b.length := by
    rcases hf with h | h
    · exact Or.inl h
    · exact Or.inr (fun d hd => by rw [hlen]; exact h d (List.mem_of_mem_drop hd))
  obtain ⟨hn1, hn2⟩ := nextFile_eq c b hne _ hf'
  by_cases hcase : p.mutating = false ∧ p.left ≠ []
  · obtain ⟨hmu, hl⟩ := hcase
    obtain ⟨d, ds, hds⟩ := List.exists_cons_of_ne_nil hl
    obtain ⟨k, k1, k2, k3, k4⟩ := hn2 d ds (by rw [h.left hmu, hds])
    have hol := overlay_length b d
    obtain ⟨y, y0, y1, y2, y3, y4, y5, y6, y7, y8, y9, y10, y11⟩ := pre_file L c s t files b
      (overlay b d) k sh (by rw [h.should, hmu]) hb k1 hol (Or.inl ⟨hrep, h.saved⟩)
    have hp : p.next L c b =
        { p with left := ds, cur := L.start (overlay b d), bytes := overlay b d } := by
      unfold Pass.next
      rw [hmu, hds]
    rw [hp]
    rw [hlen] at y0
    have hth : ({ s.set t y with started := s.started + 1 } : St M).th t = y := set_th s t y
    refine ⟨{ s.set t y with started := s.started + 1 }, y0, ?_, ⟨rfl, rfl, rfl⟩,
      by rw [hth, y1], hol.trans hlen, by rw [hth, y7], by rw [hth, y8]; exact hrep, hv⟩
    constructor
    · exact h.vec
    · exact h.dumps
    · exact h.held
    · rw [hth, y6]; exact h.skip
    · rw [hth, y3, whole_window c hw]
    · rw [hth, y2]; exact hmu.symm
    · rw [hth, y5]; exact h.mi
    · rw [hth, y9]; exact h.bbs
    · rw [hth, y10]; exact h.orig
    · rw [hth]; exact y11
    · intro _
      rw [hth, y4, ← List.drop_drop]
      exact k3
    · exact h.sizes
    · exact (hL.start _).trans (hol.trans hlen)
    · exact h.turn
  · have hpos : 0 < p.vec.length := List.length_pos_iff.2 hv
    have htl : p.turn < p.vec.length := by
      rcases h.turn with h | h
      · exact h
      · omega
    have hm : p.vec[p.turn]? = some p.vec[p.turn] := List.getElem?_eq_getElem htl
    generalize hmm : p.vec[p.turn] = m at hm
    have hsm : size m = n := h.sizes m (hmm ▸ List.getElem_mem htl)
    have hp : p.next L c b =
        { p with
          mutating := true, vec := p.vec.set p.turn (stepM L c m), cur := stepM L c m,
          bytes := putVal L c m b,
          turn := if p.turn + 1 ≥ p.vec.length then 0 else p.turn + 1 } := by
      unfold Pass.next
      split
      · rename_i d ds h1 h2
        exact absurd ⟨h1, by rw [h2]; simp⟩ hcase
      · rw [hm]
    have hsh : (s.th t).should = true ∨
        (files ≠ [] ∧ ∃ k, nextFile c b (files.drop (s.th t).ci) = (none, k)) := by
      by_cases hmu : p.mutating = true
      · exact Or.inl (h.should.trans hmu)
      · have hmu : p.mutating = false := by simpa using hmu
        have hl : p.left = [] := by
          by_cases hl : p.left = []
          · exact hl
          · exact absurd ⟨hmu, hl⟩ hcase
        exact Or.inr ⟨hfne, _, hn1 (by rw [h.left hmu, hl])⟩
    obtain ⟨y, y0, y1, y2, y3, y4, y5, y6, y7, y8, y9, y10⟩ := pre_turn hL c hw s t files b m sh hne
      hsh hb (by rw [h.mi, h.vec]; exact hm) (by rw [hsm, hlen]) h.saved
    rw [hp]
    rw [hlen] at y0
    have hth : ({ s.set t y with vec := s.vec.set (s.th t).mi (stepM L c m) } : St M).th t = y :=
      set_th s t y
    have hpl := putVal_length hL c m b ho (by rw [whole_len c hw, hsm, hlen])
    refine ⟨{ s.set t y with vec := s.vec.set (s.th t).mi (stepM L c m) }, y0, ?_, ⟨rfl, rfl, rfl⟩,
      by rw [hth, y1], hpl.trans hlen, by rw [hth, y6], by rw [hth, y7]; exact hrep,
      by simpa using hv⟩
    constructor
    · show s.vec.set (s.th t).mi (stepM L c m) = p.vec.set p.turn (stepM L c m)
      rw [h.vec, h.mi]
    · exact h.dumps
    · exact h.held
    · rw [hth, y5]; exact h.skip
    · rw [hth, y3]
    · rw [hth, y2]
    · rw [hth, y4, h.mi, h.vec]
    · rw [hth, y8]; exact h.bbs
    · rw [hth, y9]; exact h.orig
    · rw [hth]; exact y10
    · intro hc; simp at hc
    · intro m' hm'
      rcases List.mem_or_eq_of_mem_set hm' with h1 | h1
      · exact h.sizes m' h1
      · rw [h1, stepM_size hL, hsm]
    · exact (stepM_size hL c m).trans hsm
    · left
      simp only [List.length_set]
      split <;> omega

/-- What an iteration adds. -/
theorem collect_ok {M : Type} {L : Lib M} {size : M → Nat} (hL : L.Ok size) (c : Cfg) (hw : Whole c)
    (files : List File) (sh : Sh) (n : Nat) (s : St M) (t : Nat) (p : Pass M)
    (h : Core size c files sh n s t p) (b : List Byte) (hb : (s.th t).buf = some b)
    (hlen : b.length = n) (nb : Nat) (hv : p.mutating = true → p.vec ≠ []) :
    ∃ s', collect L c s t (some nb) = .ok s' ∧ Core size c files sh n s' t (p.gain L c b nb) ∧
      Same s s' ∧ (s'.th t).buf = some b ∧ (s'.th t).idx = (s.th t).idx ∧
      (s'.th t).rep = (s.th t).rep ∧ (s'.th t).sh = (s.th t).sh ∧ (p.gain L c b nb).vec ≠ [] := by
  unfold collect Pass.gain
  simp only [h.should, h.mutr, h.bbs, hb, Option.getD_some]
  cases hmu : p.mutating with
  | false =>
    simp only [if_true]
    by_cases hd : c.corpusOut = true ∧ nb > p.found
    · simp only [if_pos hd]
      refine ⟨_, rfl, ?_, ⟨rfl, rfl, rfl⟩, by rw [set_th], by rw [set_th], by rw [set_th],
        by rw [set_th], by simp⟩
      constructor
      · simp [St.set, h.vec]
      · simp [St.set, h.dumps]
      · exact h.held
      · rw [set_th]; exact h.skip
      · rw [set_th]
      · rw [set_th]
      · rw [set_th]; exact h.mi
      · rw [set_th]
      · rw [set_th]; exact h.orig
      · rw [set_th]; exact h.saved
      · rw [set_th]; intro _; exact h.left hmu
      · intro m hm
        rcases List.mem_append.1 hm with h1 | h1
        · exact h.sizes m h1
        · rw [List.mem_singleton.1 h1]; exact h.scur
      · exact h.scur
      · rcases h.turn with h1 | h1
        · left; simp; omega
        · right; exact ⟨rfl, h1.2⟩
    · simp only [if_neg hd]
      refine ⟨_, rfl, ?_, ⟨rfl, rfl, rfl⟩, by rw [set_th], by rw [set_th], by rw [set_th],
        by rw [set_th], by simp⟩
      constructor
      · simp [St.set, h.vec]
      · simp [St.set, h.dumps]
      · exact h.held
      · rw [set_th]; exact h.skip
      · rw [set_th]
      · rw [set_th]
      · rw [set_th]; exact h.mi
      · rw [set_th]
      · rw [set_th]; exact h.orig
      · rw [set_th]; exact h.saved
      · rw [set_th]; intro _; exact h.left hmu
      · intro m hm
        rcases List.mem_append.1 hm with h1 | h1
        · exact h.sizes m h1
        · rw [List.mem_singleton.1 h1]; exact h.scur
      · exact h.scur
      · rcases h.turn with h1 | h1
        · left; simp; omega
        · right; exact ⟨rfl, h1.2⟩
  | true =>
    simp only [Bool.true_eq_false, if_false]
    have htl : p.turn < p.vec.length := by
      rcases h.turn with h1 | h1
      · exact h1
      · simp [hmu] at h1
    by_cases hd : nb > p.found
    · have hcu := hL.current p.cur
      rw [h.scur] at hcu
      have hcp : ∀ s' : St M, copied L c s' (s.th t) p.cur =
          .ok (L.start (L.current p.cur), { s' with started := s'.started + 1 }) := by
        intro s'
        unfold copied mutCopy
        simp only [h.orig, Bool.false_eq_true, if_false, hb, Option.getD_some]
        rw [if_neg (by omega), if_neg (by have := hw.1; omega), if_neg (by omega)]
      simp only [if_pos hd, hcp]
      refine ⟨_, rfl, ?_, ⟨rfl, rfl, rfl⟩, by rw [set_th], by rw [set_th], by rw [set_th],
        by rw [set_th], by simp⟩
      constructor
      · simp [St.set, h.vec]
      · simp [St.set, h.dumps]
      · exact h.held
      · rw [set_th]; exact h.skip
      · rw [set_th]
      · rw [set_th]
      · rw [set_th]; exact h.mi
      · rw [set_th]
      · rw [set_th]
      · rw [set_th]; exact h.saved
      · intro hc; simp at hc
      · intro m hm
        rcases List.mem_append.1 hm with h1 | h1
        · exact h.sizes m h1
        · rw [List.mem_singleton.1 h1, hL.start, hcu]
      · exact h.scur
      · left; simp; omega
    · simp only [if_neg hd]
      refine ⟨_, rfl, ?_, ⟨rfl, rfl, rfl⟩, by rw [set_th], by rw [set_th], by rw [set_th],
        by rw [set_th], hv hmu⟩
      constructor
      · exact h.vec
      · exact h.dumps
      · exact h.held
      · rw [set_th]; exact h.skip
      · rw [set_th]
      · rw [set_th]
      · rw [set_th]; exact h.mi
      · rw [set_th]
      · rw [set_th]; exact h.orig
      · rw [set_th]; exact h.saved
      · intro hc; simp at hc
      · exact h.sizes
      · exact h.scur
      · exact Or.inl htl

/-! ## Iterations -/

/-- The thread is in iteration `k` of a corpus pass. -/
structure CAt {M : Type} (size : M → Nat) (c : Cfg) (files : List File) (sh : Sh) (n : Nat)
    (s : St M) (t : Nat) (k : Nat) (p : Pass M) : Prop where
  core : Core size c files sh n s t p
  busy : s.busy t = true
  enabled : s.enabled = true
  owner : s.owner = some t
  idx : c.iters > 0 → (s.th t).idx = k
  buf : (s.th t).buf = some p.bytes
  len : p.bytes.length = n
  vec : p.mutating = true → p.vec ≠ []

theorem core_ran {M : Type} {size : M → Nat} {c : Cfg} {files : List File} {sh : Sh} {n : Nat}
    {s : St M} {t : Nat} {p : Pass M} (h : Core size c files sh n s t p) (e : Eff) :
    Core size c files sh n (s.set t (ran (s.th t) e)) t p := by
  constructor
  · exact h.vec
  · exact h.dumps
  · exact h.held
  · rw [set_th]; exact h.skip
  · rw [set_th]; exact h.mutr
  · rw [set_th]; exact h.should
  · rw [set_th]; exact h.mi
  · rw [set_th]; exact h.bbs
  · rw [set_th]; exact h.orig
  · rw [set_th]; exact h.saved
  · rw [set_th]; exact h.left
  · exact h.sizes
  · exact h.scur
  · exact h.turn

theorem core_rep {M : Type} {size : M → Nat} {c : Cfg} {files : List File} {sh : Sh} {n : Nat}
    {s : St M} {t : Nat} {p : Pass M} (h : Core size c files sh n s t p) (i : Nat) (r : Bool) :
    Core size c files sh n (s.set t { s.th t with idx := i, rep := r }) t p := by
  constructor
  · exact h.vec
  · exact h.dumps
  · exact h.held
  · rw [set_th]; exact h.skip
  · rw [set_th]; exact h.mutr
  · rw [set_th]; exact h.should
  · rw [set_th]; exact h.mi
  · rw [set_th]; exact h.bbs
  · rw [set_th]; exact h.orig
  · rw [set_th]; exact h.saved
  · rw [set_th]; exact h.left
  · exact h.sizes
  · exact h.scur
  · exact h.turn

/-- The machine after an iteration left `b` and reached `nb` blocks. -/
def Pass.step {M : Type} (L : Lib M) (c : Cfg) (b : List Byte) (nb : Nat) (p : Pass M) : Pass M :=
  (p.gain L c b nb).next L c b

/-- An iteration that is followed by another. -/
theorem corpus_again {M : Type} {L : Lib M} {size : M → Nat} (hL : L.Ok size) (c : Cfg) (hw : Whole c)
    (files : List File) (hc : c.corpus = some files) (hfne : files ≠ []) (sh : Sh) (n : Nat)
    (hn : 0 < n) (hf : Fits c files n) (s : St M) (t k : Nat) (p : Pass M)
    (h : CAt size c files sh n s t k p) (e : Eff) (nb : Nat) (hb : e.bbs = some nb)
    (hk : (k : Int) + 1 < c.iters) :
    ∃ s', FuzzDriver.step L c s (.done t e) = .ok (s', [(t, ⟨true,
        (p.step L c (after e.bytes p.bytes) nb).bytes, cSh c sh n e.sh⟩)]) ∧
      CAt size c files sh n s' t (k + 1) (p.step L c (after e.bytes p.bytes) nb) := by
  have hpos : c.iters > 0 := by omega
  have hidx := h.idx hpos
  have haft : (after e.bytes p.bytes).length = n := (after_length _ _).trans h.len
  generalize hs0 : s.set t (ran (s.th t) e) = s0
  have hc0 : Core size c files sh n s0 t p := hs0 ▸ core_ran h.core e
  have hth0 : s0.th t = ran (s.th t) e := by rw [← hs0, set_th]
  obtain ⟨s1, c1, c2, c3, c4, c5, c6, c7, c8⟩ := collect_ok hL c hw files sh n s0 t p hc0
    (after e.bytes p.bytes) (by rw [hth0]; simp [ran, h.buf]) haft nb h.vec
  have hi1 : (s1.th t).idx = k := by rw [c5, hth0]; exact hidx
  have hpost : post L c s0 t e.bbs =
      .ok (s1.set t { s1.th t with idx := k + 1, rep := true }, true) := by
    have hno : ¬ (s0.enabled = false ∨ s0.owner ≠ some t) := by
      rw [← hs0]; simp [St.set, h.enabled, h.owner]
    refine (if_neg hno).trans ?_
    rw [if_neg (by rw [hc0.skip]; omega), hc]
    simp only [postCorpus, hb, c1, if_pos hpos]
    rw [hi1]
    rw [if_pos (by push_cast; exact hk)]
    simp only [set_set, set_th]
  generalize hs2 : s1.set t { s1.th t with idx := k + 1, rep := true } = s2 at hpost
  have hc2 : Core size c files sh n s2 t (p.gain L c (after e.bytes p.bytes) nb) :=
    hs2 ▸ core_rep c2 (k + 1) true
  have hth2 : s2.th t = { s1.th t with idx := k + 1, rep := true } := by rw [← hs2, set_th]
  have hbuf2 : (s2.th t).buf = some (after e.bytes p.bytes) := by rw [hth2]; exact c4
  have hen2 : s2.enabled = true := by
    rw [← hs2]; show s1.enabled = true; rw [c3.1, ← hs0]; exact h.enabled
  have how2 : s2.owner = some t := by
    rw [← hs2]; show s1.owner = some t; rw [c3.2.1, ← hs0]; exact h.owner
  have hbu2 : s2.busy t = true := by
    rw [← hs2]; show s1.busy t = true; rw [c3.2.2, ← hs0]; exact h.busy
  have hsh2 : (s2.th t).sh = e.sh := by
    rw [hth2]; show (s1.th t).sh = e.sh; rw [c7, hth0]; rfl
  obtain ⟨s3, d1, d2, d3, d4, d5, d6, d7, d8⟩ := choose_ok hL c hw files sh n s2 t _ hc2
    (after e.bytes p.bytes) hbuf2 haft (by intro h0; rw [h0] at haft; simp at haft; omega) hf
    (by rw [hth2]) c8 hfne
  have hpre : ∀ b', pre L c s2 t b' e.sh = preCorpus L c s2 t files := by
    intro b'
    unfold pre
    have h1 : ({ s2 with owner := some (s2.owner.getD t) } : St M) = s2 := by
      rw [how2, Option.getD_some, ← how2]
    simp only [h1]
    rw [if_neg (by simp [hen2, how2, hc2.skip]), if_pos (by rw [hth2]), hc]
  refine ⟨s3, ?_, ?_⟩
  · simp only [FuzzDriver.step, h.busy, if_true, hs0, hpost, hpre, d1, hsh2]
    rfl
  · exact { core := d2, busy := by rw [d3.2.2]; exact hbu2, enabled := by rw [d3.1]; exact hen2,
            owner := by rw [d3.2.1]; exact how2, idx := fun _ => by rw [d6, hth2],
            buf := d4, len := d5, vec := fun _ => d8 }

/-- The last iteration. -/
theorem corpus_stop {M : Type} {L : Lib M} {size : M → Nat} (hL : L.Ok size) (c : Cfg) (hw : Whole c)
    (files : List File) (hc : c.corpus = some files) (sh : Sh) (n : Nat)
    (s : St M) (t k : Nat) (p : Pass M)
    (h : CAt size c files sh n s t k p) (e : Eff) (nb : Nat) (hb : e.bbs = some nb)
    (hk : c.iters ≤ (k : Int) + 1) :
    ∃ s', FuzzDriver.step L c s (.done t e) = .ok (s', []) ∧ s'.busy t = false ∧
      s'.enabled = false ∧ s'.allocs = s'.frees ∧ (s'.th t).buf = none ∧ (s'.th t).saved = none ∧
      s'.dumps = (p.gain L c (after e.bytes p.bytes) nb).dumps := by
  have haft : (after e.bytes p.bytes).length = n := (after_length _ _).trans h.len
  generalize hs0 : s.set t (ran (s.th t) e) = s0
  have hc0 : Core size c files sh n s0 t p := hs0 ▸ core_ran h.core e
  have hth0 : s0.th t = ran (s.th t) e := by rw [← hs0, set_th]
  obtain ⟨s1, c1, c2, c3, c4, c5, c6, c7, c8⟩ := collect_ok hL c hw files sh n s0 t p hc0
    (after e.bytes p.bytes) (by rw [hth0]; simp [ran, h.buf]) haft nb h.vec
  have hfree : ∀ y : T M, y.buf = some (after e.bytes p.bytes) → y.saved = none →
      ∃ z : T M, freeBuffer c (s1.set t y) t = { s1.set t z with
        frees := s1.frees + if c.replace then 1 else 0 } ∧ z.buf = none ∧ z.saved = none := by
    intro y hy hys
    refine ⟨{ y with buf := none, idx := 0 }, ?_, rfl, hys⟩
    unfold freeBuffer
    cases c.replace <;> simp [set_th, set_set, hy] <;> rfl
  have hpost : ∃ z : T M, post L c s0 t e.bbs = .ok ({ s1.set t z with
        frees := s1.frees + (if c.replace then 1 else 0), enabled := false }, false) ∧
        z.buf = none ∧ z.saved = none := by
    have hno : ¬ (s0.enabled = false ∨ s0.owner ≠ some t) := by
      rw [← hs0]; simp [St.set, h.enabled, h.owner]
    have key : ∀ w, postCorpus L c s0 t e.bbs = w → post L c s0 t e.bbs = w := by
      intro w hw'
      refine (if_neg hno).trans ?_
      rw [if_neg (by rw [hc0.skip]; omega), hc]
      exact hw'
    by_cases hpos : c.iters > 0
    · have hi1 : (s1.th t).idx = k := by rw [c5, hth0]; exact h.idx hpos
      obtain ⟨z, z1, z2, z3⟩ := hfree
        (shadowExit { s1.th t with idx := k + 1, rep := false }) c4 rfl
      refine ⟨z, key _ ?_, z2, z3⟩
      simp only [postCorpus, hb, c1, if_pos hpos]
      rw [hi1, if_neg (by push_cast; omega)]
      simp only [set_set, set_th, z1]
    · obtain ⟨z, z1, z2, z3⟩ := hfree (shadowExit { s1.th t with rep := false }) c4 rfl
      refine ⟨z, key _ ?_, z2, z3⟩
      simp only [postCorpus, hb, c1, if_neg hpos, z1]
  obtain ⟨z, z1, z2, z3⟩ := hpost
  refine ⟨({ s1.set t z with
        frees := s1.frees + (if c.replace then 1 else 0), enabled := false } : St M).mark t false,
    ?_, by simp [St.mark], rfl, c2.held, ?_, ?_, c2.dumps⟩
  · simp only [FuzzDriver.step, h.busy, if_true, hs0, z1]
  · simp [St.mark, St.set, z2]
  · simp [St.mark, St.set, z3]

end Verif.FuzzDriver
