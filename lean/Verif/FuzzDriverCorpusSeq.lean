import Verif.FuzzDriverCorpusThms

/-!
# What the iterations of a corpus pass run on (C71)
-/

namespace Verif.FuzzDriver

/-- The mutator of the `i`-th readable file. -/
def seed {M : Type} (L : Lib M) (files : List File) (b : List Byte) (effs : Nat → Eff) (i : Nat) : M :=
  L.start (overlay (foundAt b effs i) ((readable files).getD i []))

/-- A mutator that gave `k` values. -/
def stepN {M : Type} (L : Lib M) (c : Cfg) (m : M) : Nat → M
  | 0 => m
  | k + 1 => stepM L c (stepN L c m k)

/-- The machine in the iterations on files. -/
theorem passAt_file {M : Type} (L : Lib M) (c : Cfg) (files : List File) (b : List Byte)
    (effs : Nat → Eff) (k : Nat) (hk : k < (readable files).length) :
    (passAt L c files b effs k).mutating = false ∧ (passAt L c files b effs k).turn = 0 ∧
    (passAt L c files b effs k).left = (readable files).drop (k + 1) ∧
    (passAt L c files b effs k).vec = (List.range k).map (seed L files b effs) ∧
    (passAt L c files b effs k).cur = seed L files b effs k ∧
    (passAt L c files b effs k).bytes =
      overlay (foundAt b effs k) ((readable files).getD k []) := by
  induction k with
  | zero =>
    obtain ⟨d, ds, hds⟩ := List.exists_cons_of_ne_nil (List.length_pos_iff.1 hk)
    simp [passAt, Pass.next, hds, seed, foundAt]
  | succ k ih =>
    obtain ⟨h1, h2, h3, h4, h5, h6⟩ := ih (by omega)
    have hd : (readable files).drop (k + 1) =
        (readable files).getD (k + 1) [] :: (readable files).drop (k + 2) := by
      rw [List.drop_eq_getElem_cons hk]
      simp [List.getD, hk]
    rw [hd] at h3
    have hg : (passAt L c files b effs k).gain L c (foundAt b effs (k + 1)) (blocks effs k) =
      { passAt L c files b effs k with
        vec := (passAt L c files b effs k).vec ++ [(passAt L c files b effs k).cur]
        found := blocks effs k
        dumps := if c.corpusOut = true ∧ blocks effs k > (passAt L c files b effs k).found then
          (passAt L c files b effs k).dumps ++ [foundAt b effs (k + 1)]
          else (passAt L c files b effs k).dumps } := by
      unfold Pass.gain
      rw [if_pos h1]
    rw [passAt, Pass.step, hg]
    unfold Pass.next
    simp only [h1, h3]
    refine ⟨trivial, h2, trivial, ?_, ?_, ?_⟩
    · rw [h4, h5, List.range_succ, List.map_append]; rfl
    · rfl
    · trivial

/-- **Every readable file of the corpus is run once, in order**, before anything is
mutated: read over what the buffer holds. -/
theorem C71_corpus_files {M : Type} (L : Lib M) (c : Cfg) (files : List File) (b : List Byte)
    (effs : Nat → Eff) (k : Nat) (hk : k < (readable files).length) :
    (passAt L c files b effs k).bytes = overlay (foundAt b effs k) ((readable files).getD k []) ∧
    (b.length ≤ ((readable files).getD k []).length →
      (passAt L c files b effs k).bytes = ((readable files).getD k []).take b.length) := by
  have h := (passAt_file L c files b effs k hk).2.2.2.2.2
  refine ⟨h, fun hl => ?_⟩
  rw [h, overlay, foundAt_length, List.drop_of_length_le (by rw [foundAt_length]; exact hl),
    List.append_nil]

/-! ## Taking turns -/

theorem div_turn (r j i : Nat) (hr : 0 < r) (hi : i < r) (h : (j + 1) % r ≠ i) :
    (j + 1 + r - i) / r = (j + r - i) / r := by
  have h1 := Nat.div_add_mod (j + 1) r
  have h2 := Nat.mod_lt (j + 1) hr
  generalize (j + 1) % r = q at *
  generalize (j + 1) / r = a at *
  by_cases hc : i < q
  · have e1 : (j + 1 + r - i) / r = a + 1 := by
      apply Nat.div_eq_of_lt_le
      · rw [Nat.mul_comm, Nat.mul_add]; omega
      · rw [Nat.mul_comm, Nat.mul_add, Nat.mul_add]; omega
    have e2 : (j + r - i) / r = a + 1 := by
      apply Nat.div_eq_of_lt_le
      · rw [Nat.mul_comm, Nat.mul_add]; omega
      · rw [Nat.mul_comm, Nat.mul_add, Nat.mul_add]; omega
    rw [e1, e2]
  · have e1 : (j + 1 + r - i) / r = a := by
      apply Nat.div_eq_of_lt_le
      · rw [Nat.mul_comm]; omega
      · rw [Nat.mul_comm, Nat.mul_add]; omega
    have e2 : (j + r - i) / r = a := by
      apply Nat.div_eq_of_lt_le
      · rw [Nat.mul_comm]; omega
      · rw [Nat.mul_comm, Nat.mul_add]; omega
    rw [e1, e2]

theorem div_mine (r j : Nat) (hr : 0 < r) :
    (j + 1 + r - (j + 1) % r) / r = (j + 1) / r + 1 ∧ (j + r - (j + 1) % r) / r = (j + 1) / r := by
  have h1 := Nat.div_add_mod (j + 1) r
  have h2 := Nat.mod_lt (j + 1) hr
  generalize (j + 1) % r = q at *
  generalize (j + 1) / r = a at *
  constructor
  · apply Nat.div_eq_of_lt_le
    · rw [Nat.mul_comm, Nat.mul_add]; omega
    · rw [Nat.mul_comm, Nat.mul_add, Nat.mul_add]; omega
  · apply Nat.div_eq_of_lt_le
    · rw [Nat.mul_comm]; omega
    · rw [Nat.mul_comm, Nat.mul_add]; omega

theorem turn_succ (r q : Nat) (hq : q < r) :
    (if q + 1 ≥ r then 0 else q + 1) = (q + 1) % r := by
  split
  · have : q + 1 = r := by omega
    rw [this, Nat.mod_self]
  · rw [Nat.mod_eq_of_lt (by omega)]

/-- The machine while the mutators take turns and no new block is reached. -/
structure Turning {M : Type} (L : Lib M) (c : Cfg) (files : List File) (b : List Byte)
    (effs : Nat → Eff) (j : Nat) (p : Pass M) : Prop where
  mutating : p.mutating = true
  turn : p.turn = (j + 1) % (readable files).length
  len : p.vec.length = (readable files).length
  vec : ∀ i, i < (readable files).length → p.vec[i]? = some (stepN L c (seed L files b effs i)
    ((j + (readable files).length - i) / (readable files).length))
  bytes : p.bytes = putVal L c (stepN L c (seed L files b effs (j % (readable files).length))
    (j / (readable files).length)) (foundAt b effs ((readable files).length + j))
  found : p.found = blocks effs ((readable files).length + j - 1)

theorem turning {M : Type} (L : Lib M) (c : Cfg) (files : List File) (b : List Byte)
    (effs : Nat → Eff) (hr : 0 < (readable files).length)
    (hno : ∀ j, blocks effs ((readable files).length + j) ≤
      blocks effs ((readable files).length + j - 1)) (j : Nat) :
    Turning L c files b effs j (passAt L c files b effs ((readable files).length + j)) := by
  induction j with
  | zero =>
    generalize hR : (readable files).length = r at *
    obtain ⟨r', rfl⟩ : ∃ r', r = r' + 1 := ⟨r - 1, by omega⟩
    obtain ⟨h1, h2, h3, h4, h5, h6⟩ := passAt_file L c files b effs r' (by omega)
    rw [List.drop_of_length_le (by omega)] at h3
    have hg : (passAt L c files b effs r').gain L c (foundAt b effs (r' + 1)) (blocks effs r') =
      { passAt L c files b effs r' with
        vec := (passAt L c files b effs r').vec ++ [(passAt L c files b effs r').cur]
        found := blocks effs r'
        dumps := if c.corpusOut = true ∧ blocks effs r' > (passAt L c files b effs r').found then
          (passAt L c files b effs r').dumps ++ [foundAt b effs (r' + 1)]
          else (passAt L c files b effs r').dumps } := by
      unfold Pass.gain
      rw [if_pos h1]
    have hvec : (passAt L c files b effs r').vec ++ [(passAt L c files b effs r').cur] =
        (List.range (r' + 1)).map (seed L files b effs) := by
      rw [h4, h5, List.range_succ, List.map_append]; rfl
    have h0 : ((List.range (r' + 1)).map (seed L files b effs))[0]? = some (seed L files b effs 0) := by
      simp
    have hp : passAt L c files b effs (r' + 1 + 0) =
        { passAt L c files b effs r' with
          found := blocks effs r'
          dumps := if c.corpusOut = true ∧ blocks effs r' > (passAt L c files b effs r').found then
            (passAt L c files b effs r').dumps ++ [foundAt b effs (r' + 1)]
            else (passAt L c files b effs r').dumps
          mutating := true
          vec := ((List.range (r' + 1)).map (seed L files b effs)).set 0
            (stepM L c (seed L files b effs 0))
          cur := stepM L c (seed L files b effs 0)
          bytes := putVal L c (seed L files b effs 0) (foundAt b effs (r' + 1))
          turn := if 0 + 1 ≥ r' + 1 then 0 else 0 + 1 } := by
      rw [Nat.add_zero, passAt, Pass.step, hg]
      unfold Pass.next
      simp only [h1, h3, hvec, h2, h0, List.length_map, List.length_range]
    rw [hp]
    constructor
    · rfl
    · rw [hR]; exact turn_succ (r' + 1) 0 (by omega)
    · simp [hR]
    · intro i hi
      rw [hR] at hi ⊢
      cases i with
      | zero =>
        have e1 : (0 + (r' + 1) - 0) / (r' + 1) = 1 := by
          rw [Nat.zero_add, Nat.sub_zero, Nat.div_self hr]
        rw [e1]
        simp [stepN]
      | succ i =>
        rw [Nat.div_eq_of_lt (by omega)]
        simp only [List.getElem?_set_ne (show (0 : Nat) ≠ i + 1 by omega), stepN]
        rw [List.getElem?_map, List.getElem?_range hi]
        rfl
    · rw [hR]; simp [stepN]
    · rw [hR]; rfl
  | succ j ih =>
    generalize hR : (readable files).length = r at *
    have ht := ih.turn
    have hv := ih.vec
    have hl := ih.len
    have hf := ih.found
    rw [hR] at ht hl hf
    simp only [hR] at hv
    generalize hP : passAt L c files b effs (r + j) = p at *
    have hg : p.gain L c (foundAt b effs (r + j + 1)) (blocks effs (r + j)) =
        { p with found := blocks effs (r + j) } := by
      unfold Pass.gain
      rw [if_neg (by simp [ih.mutating]), if_neg (by rw [hf]; have := hno j; omega)]
    have hq := Nat.mod_lt (j + 1) hr
    have hmine := div_mine r j hr
    have hm : p.vec[p.turn]? = some (stepN L c (seed L files b effs ((j + 1) % r)) ((j + 1) / r)) := by
      rw [ht, hv _ hq, hmine.2]
    have hp : passAt L c files b effs (r + (j + 1)) =
        { p with
          found := blocks effs (r + j)
          mutating := true
          vec := p.vec.set p.turn
            (stepM L c (stepN L c (seed L files b effs ((j + 1) % r)) ((j + 1) / r)))
          cur := stepM L c (stepN L c (seed L files b effs ((j + 1) % r)) ((j + 1) / r))
          bytes := putVal L c (stepN L c (seed L files b effs ((j + 1) % r)) ((j + 1) / r))
            (foundAt b effs (r + j + 1))
          turn := if p.turn + 1 ≥ p.vec.length then 0 else p.turn + 1 } := by
      rw [show r + (j + 1) = r + j + 1 by omega, passAt, hP, Pass.step, hg]
      unfold Pass.next
      simp only [ih.mutating, hm]
    rw [hp]
    constructor
    · rfl
    · simp only
      rw [hl, ht, hR, turn_succ r _ hq, Nat.mod_add_mod]
    · simp [hl, hR]
    · intro i hi
      rw [hR] at hi ⊢
      by_cases hi' : (j + 1) % r = i
      · subst hi'
        simp only
        rw [ht, hmine.1, List.getElem?_set_self (by omega)]
        rfl
      · simp only
        rw [ht, List.getElem?_set_ne hi', hv i hi, div_turn r j i hr hi hi']
    · rw [hR]; rfl
    · rw [hR]; rfl

/-- **The mutators take turns**: when the files are used up and as long as no new block
is reached, iteration `r + a * r + q` runs on the `a`-th value (from 0) of the mutator
of file `q`, of `r` files. -/
theorem C71_corpus_turns {M : Type} (L : Lib M) (c : Cfg) (files : List File) (b : List Byte)
    (effs : Nat → Eff) (hno : ∀ j, blocks effs ((readable files).length + j) ≤
      blocks effs ((readable files).length + j - 1)) (a q : Nat) (hq : q < (readable files).length) :
    (passAt L c files b effs ((readable files).length + (a * (readable files).length + q))).bytes =
      putVal L c (stepN L c (seed L files b effs q) a)
        (foundAt b effs ((readable files).length + (a * (readable files).length + q))) := by
  have h := (turning L c files b effs (by omega) hno (a * (readable files).length + q)).bytes
  rw [h]
  rw [Nat.mul_comm a, Nat.mul_add_mod, Nat.mod_eq_of_lt hq, Nat.mul_add_div (by omega),
    Nat.div_eq_of_lt hq, Nat.add_zero]

/-! ## What is kept -/

theorem next_keeps {M : Type} (L : Lib M) (c : Cfg) (p : Pass M) (b : List Byte) :
    (p.next L c b).dumps = p.dumps ∧ (p.next L c b).found = p.found ∧
    (p.next L c b).vec.length = p.vec.length := by
  unfold Pass.next
  split
  · exact ⟨rfl, rfl, rfl⟩
  · split
    · exact ⟨rfl, rfl, rfl⟩
    · exact ⟨rfl, rfl, by simp⟩

/-- The blocks reached before iteration `k`. -/
def reached (effs : Nat → Eff) : Nat → Nat
  | 0 => 0
  | k + 1 => blocks effs k

theorem passAt_found {M : Type} (L : Lib M) (c : Cfg) (files : List File) (b : List Byte)
    (effs : Nat → Eff) (k : Nat) : (passAt L c files b effs k).found = reached effs k := by
  cases k with
  | zero => rw [passAt, (next_keeps L c _ b).2.1]; rfl
  | succ k =>
    rw [passAt, Pass.step, (next_keeps L c _ _).2.1]
    unfold Pass.gain
    split
    · rfl
    · split <;> rfl

theorem passAt_mutating {M : Type} (L : Lib M) (c : Cfg) (files : List File) (b : List Byte)
    (effs : Nat → Eff) (hr : 0 < (readable files).length) (k : Nat) :
    ((passAt L c files b effs k).mutating = true ↔ (readable files).length ≤ k) ∧
    (0 < k → 0 < (passAt L c files b effs k).vec.length) ∧
    ((passAt L c files b effs k).mutating = true →
      (passAt L c files b effs k).turn < (passAt L c files b effs k).vec.length) := by
  by_cases hk : k < (readable files).length
  · obtain ⟨h1, h2, h3, h4, h5, h6⟩ := passAt_file L c files b effs k hk
    refine ⟨by simp [h1]; omega, fun h => by rw [h4]; simpa using h, fun h => by simp [h1] at h⟩
  · obtain ⟨j, rfl⟩ : ∃ j, k = (readable files).length + j := ⟨k - (readable files).length, by omega⟩
    clear hk
    induction j with
    | zero =>
      generalize hR : (readable files).length = r at *
      obtain ⟨r', rfl⟩ : ∃ r', r = r' + 1 := ⟨r - 1, by omega⟩
      obtain ⟨h1, h2, h3, h4, h5, h6⟩ := passAt_file L c files b effs r' (by omega)
      rw [List.drop_of_length_le (by omega)] at h3
      generalize hP : passAt L c files b effs r' = p at *
      have hg : ∃ d, p.gain L c (foundAt b effs (r' + 1)) (blocks effs r') =
          { p with vec := p.vec ++ [p.cur], found := blocks effs r', dumps := d } := by
        unfold Pass.gain
        rw [if_pos h1]
        exact ⟨_, rfl⟩
      obtain ⟨d, hg⟩ := hg
      have hm : ∃ m, (p.vec ++ [p.cur])[p.turn]? = some m := by
        rw [h2]
        exact ⟨_, List.getElem?_eq_getElem (by simp)⟩
      obtain ⟨m, hm⟩ := hm
      rw [h2] at hm
      rw [Nat.add_zero, passAt, hP, Pass.step, hg]
      unfold Pass.next
      simp only [h1, h3, hm, h2]
      refine ⟨by simp, by simp, ?_⟩
      intro _
      simp only [List.length_set, List.length_append, List.length_singleton]
      by_cases h7 : 0 + 1 ≥ p.vec.length + 1
      · rw [if_pos h7]; omega
      · rw [if_neg h7]; omega
    | succ j ih =>
      obtain ⟨i1, i2, i3⟩ := ih
      have i1 := i1.2 (by omega)
      have i3 := i3 i1
      rw [show (readable files).length + (j + 1) = (readable files).length + j + 1 by omega, passAt,
        Pass.step]
      generalize passAt L c files b effs ((readable files).length + j) = p at *
      generalize hG : p.gain L c (foundAt b effs ((readable files).length + j + 1))
        (blocks effs ((readable files).length + j)) = g
      have hgm : g.mutating = true ∧ g.turn = p.turn ∧ p.vec.length ≤ g.vec.length := by
        rw [← hG]
        unfold Pass.gain
        rw [if_neg (by simp [i1])]
        split
        · exact ⟨i1, rfl, by simp⟩
        · exact ⟨i1, rfl, Nat.le_refl _⟩
      have hm := List.getElem?_eq_getElem (l := g.vec) (i := g.turn) (by omega)
      generalize g.vec[g.turn]'(by omega) = m at hm
      unfold Pass.next
      simp only [hgm.1, hm, List.length_set]
      refine ⟨by simp; omega, fun _ => by omega, fun _ => ?_⟩
      split <;> omega

/-- Whether iteration `i` is dumped: it reached new blocks, and it was not on a file,
unless the corpus is written anew (`-fuzz_corpus_out`). -/
def isDumped (c : Cfg) (files : List File) (effs : Nat → Eff) (i : Nat) : Bool :=
  decide (reached effs i < blocks effs i) &&
    (decide ((readable files).length ≤ i) || c.corpusOut)

/-- **Exactly the inputs that reached new blocks are added to the corpus**, in the order
they were run; as the target left them, which need not be what it was given. -/
theorem C71_corpus_dumps {M : Type} (L : Lib M) (c : Cfg) (files : List File) (b : List Byte)
    (effs : Nat → Eff) (hr : readable files ≠ []) (k : Nat) :
    (passAt L c files b effs k).dumps =
      ((List.range k).filter (isDumped c files effs)).map (fun i => foundAt b effs (i + 1)) := by
  have hr' : 0 < (readable files).length := List.length_pos_iff.2 hr
  induction k with
  | zero => rw [passAt, (next_keeps L c _ b).1]; rfl
  | succ k ih =>
    rw [passAt, Pass.step, (next_keeps L c _ _).1, List.range_succ, List.filter_append,
      List.map_append, ← ih]
    have hf := passAt_found L c files b effs k
    have hm := (passAt_mutating L c files b effs hr' k).1
    generalize passAt L c files b effs k = p at *
    unfold Pass.gain
    rw [hf]
    by_cases hmu : p.mutating = true
    · rw [if_neg (by simp [hmu])]
      by_cases hn : blocks effs k > reached effs k
      · rw [if_pos hn]
        simp [isDumped, hm.1 hmu, hn]
      · rw [if_neg hn]
        simp [isDumped, hn]
    · have hmf : p.mutating = false := by simpa using hmu
      rw [if_pos hmf]
      have hk : ¬ (readable files).length ≤ k := fun h => hmu (hm.2 h)
      by_cases hn : c.corpusOut = true ∧ blocks effs k > reached effs k
      · simp only [if_pos hn]
        simp [isDumped, hn.1, hn.2]
      · simp only [if_neg hn]
        have : isDumped c files effs k = false := by
          simp only [isDumped, hk, decide_false, Bool.false_or]
          by_cases h1 : c.corpusOut = true
          · have : ¬ blocks effs k > reached effs k := fun h => hn ⟨h1, h⟩
            simp [this]
          · simp [h1]
        simp [this]

/-- **Every input that is kept gets a mutator**: in iteration `k` there is one for every
file that was run, and one for every mutated input that reached new blocks. -/
theorem C71_corpus_mutators {M : Type} (L : Lib M) (c : Cfg) (files : List File) (b : List Byte)
    (effs : Nat → Eff) (hr : readable files ≠ []) (k : Nat) :
    (passAt L c files b effs k).vec.length = ((List.range k).filter (fun i =>
      decide (i < (readable files).length) || decide (reached effs i < blocks effs i))).length := by
  have hr' : 0 < (readable files).length := List.length_pos_iff.2 hr
  induction k with
  | zero => rw [passAt, (next_keeps L c _ b).2.2]; rfl
  | succ k ih =>
    rw [passAt, Pass.step, (next_keeps L c _ _).2.2, List.range_succ, List.filter_append,
      List.length_append, ← ih]
    have hf := passAt_found L c files b effs k
    have hm := (passAt_mutating L c files b effs hr' k).1
    generalize passAt L c files b effs k = p at *
    unfold Pass.gain
    rw [hf]
    by_cases hmu : p.mutating = true
    · rw [if_neg (by simp [hmu])]
      have hk : ¬ k < (readable files).length := by have := hm.1 hmu; omega
      by_cases hn : blocks effs k > reached effs k
      · rw [if_pos hn]
        simp [hn]
      · rw [if_neg hn]
        simp [hn, hk]
    · have hmf : p.mutating = false := by simpa using hmu
      rw [if_pos hmf]
      have hk : k < (readable files).length := Nat.lt_of_not_le (fun h => hmu (hm.2 h))
      simp [hk]

end Verif.FuzzDriver
