import Verif.MemRefProps

/-!
# The check of a memory reference

C50: what is reported, the result, the shadow memory afterwards, and the values
handed on.
-/

namespace Verif.MemRef

open Verif.Define (Sh)

/-- C50: with one shadow value per byte and without `MEMREF_ABORT_AFTER_UNADDR`, the
reports of a reference of any kind are exactly the longest ranges of unaddressable
bytes and of undefined bytes. -/
theorem C50_reports_partial {f : Flags} {c : Conf} (hf : f.abort = false) (hc : c.map4 = false)
    (val : Nat → Sh) (addr sz : Nat) (sh : Nat → Sh) :
    Runs (wrong f c sh) addr (addr + sz) (memRef f c val addr sz sh).reports := by
  rw [(memRef_fields f c val addr sz sh).1]
  exact (memRef_inv hf hc val addr sz sh).track.runs

/-- C50: the result is true exactly if there is nothing to report (no byte is marked as
bit level, which only copies through vector registers do). -/
theorem C50_result_partial {f : Flags} {c : Conf} (hf : f.abort = false) (hc : c.map4 = false)
    (val : Nat → Sh) (addr sz : Nat) {sh : Nat → Sh}
    (hb : ∀ j < sz, sh (addr + j) ≠ .bitlevel) :
    (memRef f c val addr sz sh).good = true ↔ (memRef f c val addr sz sh).reports = [] := by
  rw [(C50_reports_partial hf hc val addr sz sh).nil, (memRef_fields f c val addr sz sh).2.2.1,
    (memRef_inv hf hc val addr sz sh).good]
  constructor
  · intro h b h1 h2
    have := h (b - addr) (by omega)
    rw [show addr + (b - addr) = b by omega] at this
    exact Classical.not_not.1 fun hw => this (.inl hw)
  · rintro h j hj (hs | hs)
    · exact hs (h (addr + j) (by omega) (by omega))
    · exact hb j hj hs.2.2.2

/-- Position of byte `j` of a reference in the operand: a reference to several elements of
`single` bytes (the repeated string instructions) uses the operand once per element. -/
def offset (f : Flags) (j : Nat) : Nat := if f.single = 0 then j else j - f.single * (j / f.single)

theorem memrefIdx_eq (f : Flags) (j : Nat) : memrefIdx f j = offset f j := by
  unfold memrefIdx offset
  split
  · rfl
  · have := Nat.mod_add_div j f.single
    omega

/-- C50: the values that go into the instruction are the shadows of the bytes before
the reference, byte for byte. -/
theorem C50_values {f : Flags} {c : Conf} (hf : f.abort = false) (hc : c.map4 = false)
    (val : Nat → Sh) (addr sz : Nat) (sh : Nat → Sh) (hw : f.write = false)
    (hu : f.useValues = true) :
    (memRef f c val addr sz sh).mapped = (List.range sz).map fun j => (offset f j, sh (addr + j)) := by
  rw [(memRef_fields f c val addr sz sh).2.2.2, (memRef_inv hf hc val addr sz sh).mapped,
    if_pos ⟨hw, hu⟩]
  simp [memrefIdx_eq]

/-- The offset of byte `o` of element `e`. -/
theorem offset_elem {f : Flags} {e o : Nat} (ho : o < f.single) : offset f (e * f.single + o) = o := by
  unfold offset
  rw [if_neg (by omega), Nat.mul_comm e, Nat.mul_add_div (by omega), Nat.div_eq_of_lt ho, Nat.add_zero]
  omega

/-- The shadow memory afterwards, from the effect of the single bytes. -/
theorem shadow_ind {f : Flags} {c : Conf} (hf : f.abort = false) (hc : c.map4 = false)
    (val : Nat → Sh) (addr sz : Nat) (sh : Nat → Sh) (P : Nat → (Nat → Sh) → Prop) (h0 : P 0 sh)
    (hstep : ∀ i m, i < sz → P i m → (∀ b, addr + i ≤ b → m b = sh b) →
      P (i + 1) (shStep f c val addr i m)) : P sz (memRef f c val addr sz sh).sh := by
  rw [(memRef_fields f c val addr sz sh).2.1, (memRef_inv hf hc val addr sz sh).shadow]
  have : ∀ n ≤ sz, P n ((List.range n).foldl (fun m j => shStep f c val addr j m) sh) ∧
      ∀ b, addr + n ≤ b → (List.range n).foldl (fun m j => shStep f c val addr j m) sh b = sh b := by
    intro n
    induction n with
    | zero => exact fun _ => ⟨h0, fun _ _ => rfl⟩
    | succ n ih =>
      intro hn
      obtain ⟨h1, h2⟩ := ih (by omega)
      rw [List.range_succ, List.foldl_append, List.foldl_cons, List.foldl_nil]
      exact ⟨hstep n _ (by omega) h1 h2, fun b hb => by
        rw [shStep_above _ _ _ _ _ _ (by omega)]; exact h2 b (by omega)⟩
  exact (this sz (Nat.le_refl _)).1

/-- C50: a read (no push or pop) changes only the undefined bytes it reports, which
become defined, unless -leave_uninit. -/
theorem C50_read_shadow {f : Flags} {c : Conf} (hf : f.abort = false) (hc : c.map4 = false)
    (val : Nat → Sh) (addr sz : Nat) (sh : Nat → Sh) (hw : f.write = false)
    (hp : f.pushpop = false) (b : Nat) :
    (memRef f c val addr sz sh).sh b =
      if addr ≤ b ∧ b < addr + sz ∧ wrong f c sh b = some .undef ∧ c.leaveUninit = false
      then .defined else sh b := by
  refine shadow_ind hf hc val addr sz sh (P := fun i m => m b =
    if addr ≤ b ∧ b < addr + i ∧ wrong f c sh b = some .undef ∧ c.leaveUninit = false
      then .defined else sh b) ?_ ?_
  · rw [if_neg (by omega)]
  · intro i m hi ih habove
    by_cases hb : b = addr + i
    · subst hb
      have he : m (addr + i) = sh (addr + i) := habove _ (Nat.le_refl _)
      have hwr : wrong f c m (addr + i) = wrong f c sh (addr + i) := by unfold wrong; rw [he]
      unfold shStep
      simp only [hw, hp, hwr, he, Bool.false_eq_true, false_and, if_false, not_false_eq_true,
        true_and, and_false]
      by_cases hu : sh (addr + i) = .unaddr
      · rw [if_pos hu, he, if_neg]
        rintro ⟨-, -, h, -⟩
        unfold wrong at h
        rw [hu] at h
        dsimp only at h
        split at h <;> cases h
      · rw [if_neg hu]
        by_cases hca : f.checkAddr = true
        · have hn : wrong f c sh (addr + i) ≠ some .undef := by
            unfold wrong
            cases h : sh (addr + i) <;> simp_all
          simp [hca, hn, he]
        · rw [if_pos hca]
          by_cases hl : wrong f c sh (addr + i) = some .undef ∧ c.leaveUninit = false
          · simp [hl, upd]
          · rw [if_neg (by rintro ⟨h1, h2⟩; exact hl ⟨h1, by simpa using h2⟩), he,
              if_neg (fun h => hl h.2.2)]
    · have : shStep f c val addr i m b = m b := by
        unfold shStep
        simp only [hp, Bool.false_eq_true, false_and, if_false, hw, not_false_eq_true, true_and]
        repeat' split
        all_goals simp [upd, hb]
      rw [this, ih]
      have : (b < addr + (i + 1)) ↔ b < addr + i := by omega
      simp only [this]

/-- C50: a reference that only checks addressability changes nothing. -/
theorem C50_check_shadow {f : Flags} {c : Conf} (hf : f.abort = false) (hc : c.map4 = false)
    (val : Nat → Sh) (addr sz : Nat) (sh : Nat → Sh) (hca : f.checkAddr = true)
    (hp : f.pushpop = false) : (memRef f c val addr sz sh).sh = sh := by
  refine shadow_ind hf hc val addr sz sh (P := fun _ m => m = sh) rfl ?_
  intro i m _ ih _
  subst ih
  unfold shStep
  simp [hca, hp]

/-- The value a write puts at byte `j`: with `MEMREF_MOVS` the shadow of the source. -/
def stored (f : Flags) (val : Nat → Sh) (sh : Nat → Sh) (j : Nat) : Sh :=
  match f.movs with
  | some m => sh (m + j)
  | none => if f.useValues then val (offset f j) else .defined

/-- C50: a write (no push) gives every addressable byte the shadow of the value
written and leaves all others alone, in particular the unaddressable ones; a copy
must not overlap its source from above. -/
theorem C50_write_shadow_partial {f : Flags} {c : Conf} (hf : f.abort = false) (hc : c.map4 = false)
    (val : Nat → Sh) (addr sz : Nat) (sh : Nat → Sh) (hw : f.write = true)
    (hca : f.checkAddr = false) (hp : f.pushpop = false)
    (hov : ∀ m, f.movs = some m → addr ≤ m ∨ m + sz ≤ addr) (b : Nat) :
    (memRef f c val addr sz sh).sh b =
      if addr ≤ b ∧ b < addr + sz ∧ sh b ≠ .unaddr ∧ sh b ≠ .bitlevel ∧
        stored f val sh (b - addr) ≠ .bitlevel
      then stored f val sh (b - addr) else sh b := by
  refine (shadow_ind hf hc val addr sz sh (P := fun i m => (∀ b, b < addr → m b = sh b) ∧ m b =
    if addr ≤ b ∧ b < addr + i ∧ sh b ≠ .unaddr ∧ sh b ≠ .bitlevel ∧
        stored f val sh (b - addr) ≠ .bitlevel
      then stored f val sh (b - addr) else sh b) ⟨fun _ _ => rfl, ?_⟩ ?_).2
  · rw [if_neg (by omega)]
  · intro i m hi ⟨hbelow, ih⟩ habove
    have hnew : newVal f val i m = stored f val sh i := by
      unfold newVal stored
      cases hm : f.movs with
      | none => dsimp only; unfold value; rw [memrefIdx_eq]
      | some x =>
        dsimp only
        rcases hov x hm with h | h
        · exact habove _ (by omega)
        · exact hbelow _ (by omega)
    have hstep : ∀ b, b ≠ addr + i → shStep f c val addr i m b = m b := by
      intro b hb
      unfold shStep
      simp only [hp, Bool.false_eq_true, false_and, if_false, hw, not_true_eq_false]
      repeat' split
      all_goals simp [upd, hb]
    refine ⟨fun b hb => by rw [hstep b (by omega)]; exact hbelow b hb, ?_⟩
    by_cases hb : b = addr + i
    · subst hb
      have he : m (addr + i) = sh (addr + i) := habove _ (Nat.le_refl _)
      unfold shStep
      simp only [hw, hp, hca, he, hnew, Bool.false_eq_true, false_and, if_false, not_true_eq_false,
        not_false_eq_true, if_true]
      rw [show addr + i - addr = i by omega]
      by_cases hu : sh (addr + i) = .unaddr
      · rw [if_pos hu, he, if_neg (fun h => h.2.2.1 hu)]
      · rw [if_neg hu]
        by_cases hbl : sh (addr + i) = .bitlevel ∨ stored f val sh i = .bitlevel
        · rw [if_pos hbl, he, if_neg]
          rintro ⟨-, -, -, h1, h2⟩
          rcases hbl with h | h
          · exact h1 h
          · exact h2 h
        · rw [if_neg hbl, if_pos]
          · simp [upd]
          · exact ⟨by omega, by omega, hu, fun h => hbl (.inl h), fun h => hbl (.inr h)⟩
    · rw [hstep b hb, ih]
      have : (b < addr + (i + 1)) ↔ b < addr + i := by omega
      simp only [this]

/-- C50: a write of several equal elements (`stos` with a repeat prefix) gives byte `o` of every
element the shadow of byte `o` of the operand. -/
theorem C50_elements {f : Flags} {c : Conf} (hf : f.abort = false) (hc : c.map4 = false)
    {val : Nat → Sh} (hval : ∀ j, val j = .defined ∨ val j = .undef) (addr n : Nat) (sh : Nat → Sh)
    (hw : f.write = true) (hca : f.checkAddr = false) (hp : f.pushpop = false) (hm : f.movs = none)
    (hu : f.useValues = true) {e o : Nat} (he : e < n) (ho : o < f.single)
    (ha : sh (addr + (e * f.single + o)) = .defined ∨ sh (addr + (e * f.single + o)) = .undef) :
    (memRef f c val addr (n * f.single) sh).sh (addr + (e * f.single + o)) = val o := by
  have hlt : e * f.single + o < n * f.single :=
    calc e * f.single + o < (e + 1) * f.single := by rw [Nat.succ_mul]; omega
      _ ≤ n * f.single := Nat.mul_le_mul_right _ he
  have hst : stored f val sh (e * f.single + o) = val o := by
    unfold stored
    rw [hm]
    dsimp only
    rw [if_pos hu, offset_elem ho]
  rw [C50_write_shadow_partial hf hc val addr _ sh hw hca hp (by simp [hm]), Nat.add_sub_cancel_left, hst,
    if_pos]
  refine ⟨by omega, by omega, ?_, ?_, ?_⟩
  · rcases ha with h | h <;> rw [h] <;> decide
  · rcases ha with h | h <;> rw [h] <;> decide
  · rcases hval o with h | h <;> rw [h] <;> decide

/-- C50: without push, pop and copies no reference changes which bytes are
addressable. -/
theorem C50_addressability {f : Flags} {c : Conf} (hf : f.abort = false) (hc : c.map4 = false)
    {val : Nat → Sh} (hval : ∀ j, val j = .defined ∨ val j = .undef) (addr sz : Nat)
    (sh : Nat → Sh) (hp : f.pushpop = false) (hm : f.movs = none) (b : Nat) :
    (memRef f c val addr sz sh).sh b = .unaddr ↔ sh b = .unaddr := by
  by_cases hca : f.checkAddr = true
  · rw [C50_check_shadow hf hc val addr sz sh hca hp]
  · have hca : f.checkAddr = false := by simpa using hca
    by_cases hw : f.write = true
    · rw [C50_write_shadow_partial hf hc val addr sz sh hw hca hp (by simp [hm])]
      split
      · rename_i h
        have : stored f val sh (b - addr) ≠ .unaddr := by
          unfold stored
          rw [hm]
          dsimp only
          split
          · rcases hval (offset f (b - addr)) with h | h <;> rw [h] <;> decide
          · decide
        exact ⟨fun h' => absurd h' this, fun h' => absurd h' h.2.2.1⟩
      · rfl
    · have hw : f.write = false := by simpa using hw
      rw [C50_read_shadow hf hc val addr sz sh hw hp]
      split
      · rename_i h
        have h := h.2.2.1
        constructor
        · intro h'; cases h'
        · intro h'
          unfold wrong at h
          rw [h'] at h
          dsimp only at h
          split at h <;> cases h
      · rfl

/-- C50: the same read again reports no undefined byte, and the same unaddressable
ones. -/
theorem C50_again {f : Flags} {c : Conf} (hf : f.abort = false) (hc : c.map4 = false)
    (hl : c.leaveUninit = false) (val : Nat → Sh) (addr sz : Nat) (sh : Nat → Sh)
    (hw : f.write = false) (hp : f.pushpop = false) :
    (memRef f c val addr sz (memRef f c val addr sz sh).sh).reports =
      (memRef f c val addr sz sh).reports.filter fun r => r.kind = .unaddr := by
  have hR := C50_reports_partial hf hc val addr sz sh
  have hK : ∀ b, addr ≤ b → b < addr + sz → wrong f c (memRef f c val addr sz sh).sh b =
      if wrong f c sh b = some .undef then none else wrong f c sh b := by
    intro b h1 h2
    have hs := C50_read_shadow hf hc val addr sz sh hw hp b
    by_cases hu : wrong f c sh b = some .undef
    · rw [if_pos ⟨h1, h2, hu, hl⟩] at hs
      rw [if_pos hu]
      unfold wrong
      rw [hs]
    · rw [if_neg (fun h => hu h.2.2.1)] at hs
      rw [if_neg hu]
      unfold wrong
      rw [hs]
  generalize wrong f c sh = K at hR hK
  generalize (memRef f c val addr sz sh).reports = R at hR ⊢
  refine (C50_reports_partial hf hc val addr sz _).unique ?_
  generalize wrong f c (memRef f c val addr sz sh).sh = K' at hK
  have hne : ∀ b, addr ≤ b → b < addr + sz → (K' b = some .unaddr ↔ K b = some .unaddr) := by
    intro b h1 h2
    rw [hK b h1 h2]
    split
    · rename_i h; rw [h]; simp
    · rfl
  have hnu : ∀ b, addr ≤ b → b < addr + sz → K' b ≠ some .undef := by
    intro b h1 h2
    rw [hK b h1 h2]
    split
    · simp
    · assumption
  have hmem : ∀ {r}, r ∈ R.filter (fun r => r.kind = .unaddr) → r ∈ R ∧ r.kind = .unaddr := by
    intro r hr
    simpa using List.mem_filter.1 hr
  refine ⟨fun r hr => hR.pos r (hmem hr).1, fun r hr => hR.inside r (hmem hr).1, ?_, ?_, ?_, ?_,
    hR.sorted.filter _⟩
  · intro r hr b h1 h2
    obtain ⟨h3, h4⟩ := hmem hr
    have hin := hR.inside r h3
    have := hR.bytes r h3 b h1 h2
    rw [h4] at this ⊢
    exact (hne b (by omega) (by omega)).2 this
  · intro r hr
    obtain ⟨h3, h4⟩ := hmem hr
    have hin := hR.inside r h3
    have := hR.pos r h3
    rcases hR.left r h3 with h | h
    · exact .inl h
    · by_cases hs : r.start = addr
      · exact .inl hs
      · right
        rw [h4] at h ⊢
        exact fun h' => h ((hne _ (by omega) (by omega)).1 h')
  · intro r hr
    obtain ⟨h3, h4⟩ := hmem hr
    have hin := hR.inside r h3
    rcases hR.right r h3 with h | h
    · exact .inl h
    · by_cases hs : r.start + r.size = addr + sz
      · exact .inl hs
      · right
        rw [h4] at h ⊢
        exact fun h' => h ((hne _ (by omega) (by omega)).1 h')
  · intro b k h1 h2 hk
    cases k with
    | undef => exact absurd hk (hnu b h1 h2)
    | unaddr =>
      obtain ⟨r, h3, h4, h5⟩ := hR.cover b .unaddr h1 h2 ((hne b h1 h2).1 hk)
      exact ⟨r, List.mem_filter.2 ⟨h3, by simpa using h4⟩, h4, h5⟩

end Verif.MemRef
