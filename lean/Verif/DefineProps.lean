import Verif.Define

/-
What one instruction does to the shadow values: every byte of the destination is
described by the source bytes that reach it.
-/

namespace Verif.Define

open Classical

/-- `c'` is `c` with the bytes of `T` combined, those of `U` with an undefined value. -/
structure Step (c c' : Comb) (T U : Nat → Prop) : Prop where
  sub : ∀ j, U j → T j
  eq : ∀ j, c'.dst j = if T j then (if c.dst j = .undef ∨ U j then .undef else .defined)
    else c.dst j
  oob : c'.oob = true ↔ c.oob = true ∨ ∃ j, T j ∧ arrayLen ≤ j

theorem Step.refl (c : Comb) : Step c c (fun _ => False) (fun _ => False) :=
  ⟨fun _ h => h, fun _ => by simp, by simp⟩

theorem Step.flags {c c' : Comb} {T U} (h : Step c c' T U) (s : Sh) :
    Step c (c'.accumFlags s) T U := ⟨h.sub, h.eq, h.oob⟩

theorem Step.accum (c : Comb) (k : Nat) (s : Sh) :
    Step c (c.accum k s) (fun j => j = k) (fun j => j = k ∧ s = .undef) := by
  refine ⟨fun _ h => h.1, fun j => ?_, by simp [Comb.accum]⟩
  by_cases h : j = k
  · simp [Comb.accum, combine, h]
  · simp [Comb.accum, h]

theorem Step.trans {a b c : Comb} {T U T' U'} (h : Step a b T U) (h' : Step b c T' U') :
    Step a c (fun j => T j ∨ T' j) (fun j => U j ∨ U' j) := by
  refine ⟨fun j hu => hu.imp (h.sub j) (h'.sub j), fun j => ?_, ?_⟩
  case refine_2 =>
    rw [h'.oob, h.oob, or_assoc]
    simp only [or_and_right, exists_or]
  rw [h'.eq, h.eq]
  have h1 := h.sub j
  have h2 := h'.sub j
  by_cases t : T j <;> by_cases t' : T' j <;> by_cases u : U j <;> by_cases u' : U' j <;>
    by_cases z : a.dst j = .undef <;> simp_all

theorem Step.congr {a b : Comb} {T U T' U'} (h : Step a b T U) (ht : ∀ j, T j ↔ T' j)
    (hu : ∀ j, U j ↔ U' j) : Step a b T' U' := by
  have e1 : T = T' := funext fun j => propext (ht j)
  have e2 : U = U' := funext fun j => propext (hu j)
  exact e1 ▸ e2 ▸ h

theorem Step.ite {a b : Comb} {T U} (p : Prop) [Decidable p] (h : Step a b T U) :
    Step a (if p then b else a) (fun j => p ∧ T j) (fun j => p ∧ U j) := by
  by_cases hp : p
  · rw [if_pos hp]; exact h.congr (by simp [hp]) (by simp [hp])
  · rw [if_neg hp]; exact (Step.refl a).congr (by simp [hp]) (by simp [hp])

theorem Step.foldl {f : Comb → Nat → Comb} {T U : Nat → Nat → Prop} (l : List Nat)
    (h : ∀ c, ∀ b ∈ l, Step c (f c b) (T b) (U b)) (c : Comb) :
    Step c (l.foldl f c) (fun j => ∃ b ∈ l, T b j) (fun j => ∃ b ∈ l, U b j) := by
  induction l generalizing c with
  | nil => exact (Step.refl c).congr (by simp) (by simp)
  | cons x l ih =>
    have h1 := h c x (by simp)
    have h2 := ih (fun c b hb => h c b (by simp [hb])) (f c x)
    exact (h1.trans h2).congr (by simp) (by simp)

/-- Whether `map_src_to_dst_shift` sends byte `b` to byte `j` of the same element. -/
def shiftTo (d : Dir) (count b opsz j : Nat) : Prop :=
  let k := min count (opsz * 8)
  if k = 0 then j = b else
  match d with
  | .left => j < opsz ∧ (j = b + k / 8 ∨ j = b + ((k - 1) / 8 + 1)) ∧ b + k / 8 < opsz
  | .right => j + k / 8 = b ∨ j + ((k - 1) / 8 + 1) = b
  | .arith => if b = opsz - 1 then j < opsz ∧ opsz - 1 ≤ j + k / 8
      else j + k / 8 = b ∨ j + ((k - 1) / 8 + 1) = b

theorem mapShift_right_step (c0 : Comb) (b offs k : Nat) (s : Sh) :
    Step c0 (mapShift.right b offs s k c0)
      (fun j => offs ≤ j ∧ (j - offs + k / 8 = b ∨ j - offs + ((k - 1) / 8 + 1) = b))
      (fun j => (offs ≤ j ∧ (j - offs + k / 8 = b ∨ j - offs + ((k - 1) / 8 + 1) = b)) ∧
        s = .undef) := by
  unfold mapShift.right
  refine Step.congr (((Step.ite (k / 8 ≤ b) (Step.accum c0 _ s)).trans
    (Step.ite (k / 8 ≠ (k - 1) / 8 + 1 ∧ (k - 1) / 8 + 1 ≤ b) (Step.accum _ _ s))).flags s)
    (fun j => ?_) (fun j => ?_)
  · constructor
    · rintro (⟨h, rfl⟩ | ⟨h, rfl⟩) <;> omega
    · omega
  · by_cases hs : s = .undef
    · simp only [hs, and_true]
      constructor
      · rintro (⟨h, rfl⟩ | ⟨h, rfl⟩) <;> omega
      · omega
    · simp [hs]

theorem mapShift_step (d : Dir) (count : Nat) (c : Comb) (b offs opsz : Nat) (s : Sh)
    (hb : b < opsz) :
    Step c (mapShift d count c b offs opsz s)
      (fun j => offs ≤ j ∧ shiftTo d count b opsz (j - offs))
      (fun j => (offs ≤ j ∧ shiftTo d count b opsz (j - offs)) ∧ s = .undef) := by
  have hk : (if count > opsz * 8 then opsz * 8 else count) = min count (opsz * 8) := by
    split <;> omega
  unfold mapShift shiftTo
  simp only [hk]
  generalize hK : min count (opsz * 8) = k
  by_cases h0 : k = 0
  · simp only [h0, if_true]
    refine (Step.accum c (offs + b) s).congr (fun j => ?_) (fun j => ?_)
    · omega
    · constructor
      · rintro ⟨h, hs⟩; exact ⟨by omega, hs⟩
      · rintro ⟨h, hs⟩; exact ⟨by omega, hs⟩
  · simp only [h0, if_false]
    cases d with
    | left =>
      simp only []
      by_cases h1 : b + k / 8 ≥ opsz
      · rw [if_pos h1]
        have hz : ∀ j, ¬ (offs ≤ j ∧ j - offs < opsz ∧ (j - offs = b + k / 8 ∨
            j - offs = b + ((k - 1) / 8 + 1)) ∧ b + k / 8 < opsz) := by intro j; omega
        split
        · exact ((Step.refl c).flags s).congr (by simp [hz]) (by simp [hz])
        · exact (Step.refl c).congr (by simp [hz]) (by simp [hz])
      · rw [if_neg h1]
        refine Step.congr (((Step.accum c _ s).trans (Step.ite _ (Step.accum _ _ s))).flags s)
          (fun j => ?_) (fun j => ?_)
        · constructor
          · rintro (rfl | ⟨h, rfl⟩) <;> omega
          · omega
        · by_cases hs : s = .undef
          · simp only [hs, and_true]
            constructor
            · rintro (rfl | ⟨h, rfl⟩) <;> omega
            · omega
          · simp [hs]
    | right => exact mapShift_right_step c b offs k s
    | arith =>
      simp only []
      by_cases h1 : b = opsz - 1
      · rw [if_pos h1]
        simp only [if_pos h1]
        have := Step.foldl (f := fun c i => if i ≤ k / 8 then c.accum (offs + opsz - 1 - i) s
            else c) (List.range opsz)
          (fun c i _ => Step.ite (i ≤ k / 8) (Step.accum c (offs + opsz - 1 - i) s)) c
        refine (this.flags s).congr (fun j => ?_) (fun j => ?_)
        · constructor
          · rintro ⟨i, hi, h2, rfl⟩; rw [List.mem_range] at hi; omega
          · intro h; exact ⟨offs + opsz - 1 - j, by rw [List.mem_range]; omega, by omega, by omega⟩
        · constructor
          · rintro ⟨i, hi, h2, rfl, hs⟩; rw [List.mem_range] at hi; exact ⟨by omega, hs⟩
          · rintro ⟨h, hs⟩
            exact ⟨offs + opsz - 1 - j, by rw [List.mem_range]; omega, by omega, by omega, hs⟩
      · rw [if_neg h1]
        simp only [if_neg h1]
        exact mapShift_right_step c b offs k s

/-- Whether `map_src_to_dst` sends byte `b` of an operand to byte `j`. -/
def flow (I : Ins) (opnum opsz : Nat) (reg : Bool) (b j : Nat) : Prop :=
  match I.op with
  | .shl => shiftTo .left I.val b opsz j
  | .shr => shiftTo .right I.val b opsz j
  | .sar => shiftTo .arith I.val b opsz j
  | .rot | .other => j = b
  | .xchg | .xadd => j = opsz * (1 - opnum) + b
  | .bswap => j = opsz - 1 - b
  | .punpckl w => b < opsz / 2 ∧ j = b / w * (2 * w) + b % w + w * (1 - opnum)
  | .punpckh w => opsz / 2 ≤ b ∧ j = (b - opsz / 2) / w * (2 * w) + b % w + w * (1 - opnum)
  | .shufps =>
    if opnum = 0 then
      (I.val / 16 % 4 = b % 16 / 4 ∧ j = 8 + b % 4) ∨
        (I.val / 64 % 4 = b % 16 / 4 ∧ j = 12 + b % 4)
    else
      (I.val % 4 = b % 16 / 4 ∧ j = b % 4) ∨ (I.val / 4 % 4 = b % 16 / 4 ∧ j = 4 + b % 4)
  | .shufpd => I.val = b % 16 / 8 ∧ j = (if opnum = 0 then 8 else 0) + b % 8
  | .bail => False
  | .psrl w => b / w * w ≤ j ∧ shiftTo .right I.val (b % w) w (j - b / w * w)
  | .psra w => b / w * w ≤ j ∧ shiftTo .arith I.val (b % w) w (j - b / w * w)
  | .psll w => b / w * w ≤ j ∧ shiftTo .left I.val (b % w) w (j - b / w * w)
  | .psrldq => min I.val opsz ≤ b ∧ j = b - min I.val opsz
  | .pslldq => b + min I.val opsz < opsz ∧ j = b + min I.val opsz
  | .pextr w => I.val * w ≤ b ∧ b < (I.val + 1) * w ∧ j = b % w
  | .pinsr w => (w < 4 → b < w) ∧ j = I.val * w + b % w
  | .insertps => (if reg then I.val / 64 else 0) * 4 ≤ b ∧
      b < ((if reg then I.val / 64 else 0) + 1) * 4 ∧ j = I.val / 16 % 4 * 4 + b % 4
  | .movhps =>
    if !reg then j = b + (opsz - 8)
    else if I.dstReg then b < 8 ∧ j = b + (opsz - 8)
    else opsz - 8 ≤ b ∧ j = b - (opsz - 8)
  | .movlps =>
    if reg ∧ I.dstReg then opsz - 8 ≤ b ∧ j = b - (opsz - 8) else b < 8 ∧ j = b

/-- Bytes written without a source: `bail` opcodes and the zeroed bytes of insertps. -/
def fill (I : Ins) (b j : Nat) : Prop :=
  match I.op with
  | .bail => j = b
  | .insertps => b = 0 ∧ j < 16 ∧ j % 4 < 3 ∧ I.val.testBit (j / 4) = true
  | _ => False

/-- Element sizes are positive. -/
def Op.ok : Op → Prop
  | .punpckl w | .punpckh w | .psrl w | .psra w | .psll w | .pextr w | .pinsr w => 0 < w
  | _ => True

theorem Step.flow {c c' : Comb} {s : Sh} {T : Nat → Prop} (h : Step c c' T (fun j => T j ∧ s = .undef))
    {F : Nat → Prop} (hF : ∀ j, T j ↔ F j) :
    Step c c' (fun j => F j ∨ False) (fun j => F j ∧ s = .undef) :=
  h.congr (by simp [hF]) (by simp [hF])

theorem ite_and_step {c c' : Comb} {s : Sh} {T : Nat → Prop} (p : Prop) [Decidable p]
    (h : Step c c' T (fun j => T j ∧ s = .undef)) :
    Step c (if p then c' else c) (fun j => p ∧ T j) (fun j => (p ∧ T j) ∧ s = .undef) :=
  (Step.ite p h).congr (by simp) (by simp [and_assoc])

theorem two_step {a b c : Comb} {s : Sh} {T T' : Nat → Prop}
    (h : Step a b T (fun j => T j ∧ s = .undef)) (h' : Step b c T' (fun j => T' j ∧ s = .undef)) :
    Step a c (fun j => T j ∨ T' j) (fun j => (T j ∨ T' j) ∧ s = .undef) :=
  (h.trans h').congr (by simp) (by intro j; tauto)

theorem zero_step (v : Nat) (c : Comb) :
    Step c ([0, 1, 2].foldl (fun c i => [0, 1, 2, 3].foldl (fun c e =>
        if v.testBit e then c.accum (4 * e + i) .defined else c) c) c)
      (fun j => j < 16 ∧ j % 4 < 3 ∧ v.testBit (j / 4) = true) (fun _ => False) := by
  have h1 : ∀ c i, Step c ([0, 1, 2, 3].foldl (fun c e =>
        if v.testBit e then c.accum (4 * e + i) .defined else c) c)
      (fun j => ∃ e ∈ [0, 1, 2, 3], v.testBit e = true ∧ j = 4 * e + i)
      (fun j => ∃ e ∈ [0, 1, 2, 3], v.testBit e = true ∧ (j = 4 * e + i ∧ Sh.defined = .undef)) :=
    fun c i => Step.foldl (f := fun c e => if v.testBit e then c.accum (4 * e + i) .defined else c)
      [0, 1, 2, 3] (fun c e _ => Step.ite (v.testBit e = true) (Step.accum c (4 * e + i) .defined)) c
  have h2 := Step.foldl [0, 1, 2] (fun c i _ => h1 c i) c
  refine h2.congr (fun j => ?_) (fun j => by simp)
  constructor
  · rintro ⟨i, hi, e, he, ht, rfl⟩
    have hi' : i < 3 := by simp at hi; omega
    have he' : e < 4 := by simp at he; omega
    have : (4 * e + i) / 4 = e := by omega
    rw [this]
    exact ⟨by omega, by omega, ht⟩
  · rintro ⟨h16, h3, ht⟩
    refine ⟨j % 4, by simp; omega, j / 4, by simp; omega, ht, by omega⟩

theorem mapDst_step (I : Ins) (c : Comb) (opnum opsz : Nat) (reg : Bool) (b : Nat) (s : Sh)
    (hw : I.op.ok) (hb : b < opsz) :
    Step c (mapDst I c opnum opsz reg b s).1
      (fun j => flow I opnum opsz reg b j ∨ fill I b j)
      (fun j => flow I opnum opsz reg b j ∧ s = .undef) := by
  obtain ⟨op, v, dr, fl⟩ := I
  cases op <;> simp only [mapDst, flow, fill, Op.ok] at *
  case shl => exact Step.flow (mapShift_step .left v c b 0 opsz s hb) (by simp)
  case shr => exact Step.flow (mapShift_step .right v c b 0 opsz s hb) (by simp)
  case sar => exact Step.flow (mapShift_step .arith v c b 0 opsz s hb) (by simp)
  case rot => exact Step.flow (Step.accum c _ s) (by simp)
  case other => exact Step.flow (Step.accum c _ s) (by simp)
  case xchg => exact Step.flow (Step.accum c _ s) (by simp)
  case xadd => exact Step.flow (Step.accum c _ s) (by simp)
  case bswap => exact Step.flow (Step.accum c _ s) (by simp)
  case punpckl w => exact Step.flow (ite_and_step _ (Step.accum c _ s)) (by simp)
  case punpckh w => exact Step.flow (ite_and_step _ (Step.accum c _ s)) (by simp)
  case shufps =>
    by_cases h : opnum = 0
    · simp only [h, if_true]
      exact Step.flow (two_step (ite_and_step _ (Step.accum c _ s))
        (ite_and_step _ (Step.accum _ _ s))) (by simp)
    · simp only [h, if_false]
      exact Step.flow (two_step (ite_and_step _ (Step.accum c _ s))
        (ite_and_step _ (Step.accum _ _ s))) (by simp)
  case shufpd =>
    by_cases h : opnum = 0
    · simp only [h, if_true]
      exact Step.flow (ite_and_step _ (Step.accum c _ s)) (by simp)
    · simp only [h, if_false]
      exact Step.flow (ite_and_step _ (Step.accum c _ s)) (by simp)
  case bail => exact (Step.accum c _ _).congr (by simp) (by simp)
  case psrl w => exact Step.flow (mapShift_step .right v c (b % w) _ w s (Nat.mod_lt _ hw)) (by simp)
  case psra w => exact Step.flow (mapShift_step .arith v c (b % w) _ w s (Nat.mod_lt _ hw)) (by simp)
  case psll w => exact Step.flow (mapShift_step .left v c (b % w) _ w s (Nat.mod_lt _ hw)) (by simp)
  case psrldq =>
    have : (if v > opsz then opsz else v) = min v opsz := by split <;> omega
    rw [this]
    exact Step.flow (ite_and_step _ (Step.accum c _ s)) (by simp)
  case pslldq =>
    have : (if v > opsz then opsz else v) = min v opsz := by split <;> omega
    rw [this]
    exact Step.flow (ite_and_step _ (Step.accum c _ s)) (by simp)
  case pextr w => exact Step.flow (ite_and_step _ (Step.accum c _ s)) (by simp [and_assoc])
  case pinsr w =>
    by_cases h : w < 4
    · simp only [h, if_true]
      exact Step.flow (ite_and_step _ (Step.accum c _ s)) (by simp)
    · simp only [h, if_false]
      exact Step.flow (Step.accum c _ s) (by simp)
  case insertps =>
    have h1 := ite_and_step ((if reg then v / 64 else 0) * 4 ≤ b ∧
      b < ((if reg then v / 64 else 0) + 1) * 4) (Step.accum c (v / 16 % 4 * 4 + b % 4) s)
    have h2 := h1.trans (Step.ite (b = 0) (zero_step v _))
    exact h2.congr (by simp [and_assoc]) (by simp [and_assoc])
  case movhps =>
    cases reg <;> cases dr <;> simp only [Bool.not_true, Bool.not_false, if_true, if_false,
      Bool.false_eq_true]
    · exact Step.flow (Step.accum c _ s) (by simp)
    · exact Step.flow (Step.accum c _ s) (by simp)
    · exact Step.flow (ite_and_step _ (Step.accum c _ s)) (by simp)
    · exact Step.flow (ite_and_step _ (Step.accum c _ s)) (by simp)
  case movlps =>
    cases reg <;> cases dr <;> simp only [and_true, and_false, if_true,
      if_false, Bool.false_eq_true]
    all_goals exact Step.flow (ite_and_step _ (Step.accum c _ s)) (by simp)

theorem mapSrc_step (I : Ins) (c : Comb) (opnum opsz : Nat) (reg : Bool) (b : Nat) (s : Sh)
    (hw : I.op.ok) (hb : b < opsz) :
    Step c (mapSrc I opnum opsz reg c b s)
      (fun j => flow I opnum opsz reg b j ∨ fill I b j)
      (fun j => flow I opnum opsz reg b j ∧ s = .undef) := by
  have h := mapDst_step I c opnum opsz reg b s hw hb
  unfold mapSrc
  simp only []
  split
  · exact h.flags s
  · exact h

theorem integrate_step (I : Ins) (hw : I.op.ok) (c : Comb) (x : Src) :
    Step c (integrate I c x)
      (fun j => ∃ b < x.size, flow I x.num x.size x.reg b j ∨ fill I b j)
      (fun j => ∃ b < x.size, flow I x.num x.size x.reg b j ∧ x.sh b = .undef) := by
  have := Step.foldl (f := fun c b => mapSrc I x.num x.size x.reg c b (x.sh b))
    (List.range x.size)
    (fun c b hb => mapSrc_step I c x.num x.size x.reg b (x.sh b) hw (List.mem_range.1 hb)) c
  exact this.congr (by simp) (by simp)

theorem sources_step (I : Ins) (hw : I.op.ok) (c : Comb) (xs : List Src) :
    Step c (xs.foldl (integrate I) c)
      (fun j => ∃ x ∈ xs, ∃ b < x.size, flow I x.num x.size x.reg b j ∨ fill I b j)
      (fun j => ∃ x ∈ xs, ∃ b < x.size, flow I x.num x.size x.reg b j ∧ x.sh b = .undef) := by
  induction xs generalizing c with
  | nil => exact (Step.refl c).congr (by simp) (by simp)
  | cons x xs ih =>
    exact ((integrate_step I hw c x).trans (ih _)).congr (by simp) (by simp)

/-- The shadow of byte `j` after the instruction. -/
theorem result_eq (I : Ins) (hw : I.op.ok) (part : Bool) (prior : Nat → Sh) (xs : List Src)
    (j : Nat) :
    result I part prior xs j =
      if ∃ x ∈ xs, ∃ b < x.size, flow I x.num x.size x.reg b j ∨ fill I b j then
        if ∃ x ∈ xs, ∃ b < x.size, flow I x.num x.size x.reg b j ∧ x.sh b = .undef then .undef
        else .defined
      else if subregNonlow I.op ∧ I.dstReg ∧ part then prior j else .defined := by
  have h := (sources_step I hw (init I part) xs).eq j
  unfold result sources
  rw [h]
  have hi : (init I part).dst j ≠ .undef := by
    simp only [init]; split <;> simp
  simp only [hi, false_or]
  by_cases t : ∃ x ∈ xs, ∃ b < x.size, flow I x.num x.size x.reg b j ∨ fill I b j
  · simp only [t, if_true]
    by_cases u : ∃ x ∈ xs, ∃ b < x.size, flow I x.num x.size x.reg b j ∧ x.sh b = .undef
    · simp [u]
    · simp [u]
  · simp only [t, if_false]
    by_cases q : subregNonlow I.op ∧ I.dstReg ∧ part
    · simp [init, q]
    · simp [init, q]

/-- When the array is left. -/
theorem sources_oob (I : Ins) (hw : I.op.ok) (part : Bool) (xs : List Src) :
    (sources I part xs).oob = true ↔ ∃ j, (∃ x ∈ xs, ∃ b < x.size,
      flow I x.num x.size x.reg b j ∨ fill I b j) ∧ arrayLen ≤ j := by
  have h := (sources_step I hw (init I part) xs).oob
  simpa [sources, init] using h

end Verif.Define
