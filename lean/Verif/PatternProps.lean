import Verif.Pattern

/-!
# Lemmas on the pattern: what is written, what is found
-/

namespace Verif.Pattern

/-- The byte of the pattern that belongs at address `x`: the low byte at even
    addresses, the high byte at odd ones. -/
def patByte (p x : Nat) : UInt8 :=
  if x % 2 = 0 then UInt8.ofNat (p % 256) else UInt8.ofNat (p / 256 % 256)

theorem ofNat_eq {a b : Nat} (h : a % 256 = b % 256) : UInt8.ofNat a = UInt8.ofNat b := by
  apply UInt8.toNat_inj.mp
  simpa [UInt8.toNat_ofNat'] using h

theorem patByte_toNat (p x : Nat) :
    (patByte p x).toNat = if x % 2 = 0 then p % 256 else p / 256 % 256 := by
  unfold patByte
  split <;> simp [UInt8.toNat_ofNat']

theorem bytes4 {l h : Nat} (hl : l < 256) (hh : h < 256) :
    (l + 256 * h) * 65537 / 256 = h + 256 * (l + 256 * h) ∧
    (l + 256 * h) * 65537 / 65536 = l + 256 * h ∧
    (l + 256 * h) * 65537 / 16777216 = h := by
  refine ⟨?_, ?_, ?_⟩ <;> omega

theorem byteOf4 {l h : Nat} (hl : l < 256) (hh : h < 256) (i : Nat) (hi : i < 4) :
    byteOf ((l + 256 * h) * 65537) i = UInt8.ofNat (if i % 2 = 0 then l else h) := by
  obtain ⟨e1, e2, e3⟩ := bytes4 hl hh
  have hi : i = 0 ∨ i = 1 ∨ i = 2 ∨ i = 3 := by omega
  unfold byteOf
  rcases hi with rfl | rfl | rfl | rfl
  · rw [if_pos (by omega)]; apply ofNat_eq; simp only [Nat.pow_zero]; omega
  · rw [if_neg (by omega), Nat.pow_one, e1]; apply ofNat_eq; omega
  · rw [if_pos (by omega), show 256 ^ 2 = 65536 from rfl, e2]; apply ofNat_eq; omega
  · rw [if_neg (by omega), show 256 ^ 3 = 16777216 from rfl, e3]

theorem byteOf_P (k : Cfg) (hp : k.pat < 65536) {a x : Nat} (ha : a % 2 = 0)
    (h1 : a ≤ x) (h2 : x < a + 4) : byteOf (P32 k) (x - a) = patByte k.pat x := by
  have e : k.pat = k.pat % 256 + 256 * (k.pat / 256 % 256) := by omega
  unfold P32 patByte
  conv => lhs; rw [e]
  rw [byteOf4 (Nat.mod_lt _ (by omega)) (Nat.mod_lt _ (by omega)) _ (by omega)]
  by_cases hx : x % 2 = 0
  · rw [if_pos hx, if_pos (by omega)]
  · rw [if_neg hx, if_neg (by omega)]

theorem byteOf_R (k : Cfg) {a x : Nat} (ha : a % 2 = 1)
    (h1 : a ≤ x) (h2 : x < a + 4) : byteOf (R32 k) (x - a) = patByte k.pat x := by
  unfold R32 swap patByte
  rw [byteOf4 (Nat.mod_lt _ (by omega)) (Nat.mod_lt _ (by omega)) _ (by omega)]
  by_cases hx : x % 2 = 0
  · rw [if_pos hx, if_neg (by omega)]
  · rw [if_neg hx, if_pos (by omega)]

theorem byteOf_2 (k : Cfg) {a x : Nat} (ha : a % 2 = 0)
    (h1 : a ≤ x) (h2 : x < a + 2) : byteOf k.pat (x - a) = patByte k.pat x := by
  obtain ⟨i, rfl⟩ : ∃ i, x = a + i := ⟨x - a, by omega⟩
  have hi : i = 0 ∨ i = 1 := by omega
  have e : a + i - a = i := by omega
  rw [e]
  unfold byteOf patByte
  rcases hi with rfl | rfl
  · rw [if_pos (by omega)]; apply ofNat_eq; simp only [Nat.pow_zero]; omega
  · rw [if_neg (by omega)]; apply ofNat_eq; simp only [Nat.pow_one]; omega

/-- The loop writes the pattern over `n` dwords and nothing else. -/
theorem fill_eq (k : Cfg) (hp : k.pat < 65536) (n : Nat) :
    ∀ (m : Mem) (a : Nat), a % 2 = 0 → ∀ x,
      fill k m a n x = if a ≤ x ∧ x < a + 4 * n then patByte k.pat x else m x := by
  induction n with
  | zero => intro m a _ x; rw [fill, if_neg (by omega)]
  | succ n ih =>
    intro m a ha x
    rw [fill, ih _ _ (by omega)]
    unfold wr
    by_cases h1 : a + 4 ≤ x ∧ x < a + 4 + 4 * n
    · rw [if_pos h1, if_pos (by omega)]
    · rw [if_neg h1]
      by_cases h2 : a ≤ x ∧ x < a + 4
      · rw [if_pos h2, if_pos (by omega), byteOf_P k hp ha h2.1 h2.2]
      · rw [if_neg h2, if_neg (by omega)]

/-- What `pattern_write_pattern` may touch: from `s` up to the next multiple of
    4 after `e`, and a whole dword at an odd `s`. -/
theorem writePattern_eq (k : Cfg) (hp : k.pat < 65536) (m : Mem) {s e : Nat} (hse : s ≤ e) (x : Nat) :
    (s ≤ x → x < e → writePattern k m s e x = patByte k.pat x) ∧
    (writePattern k m s e x ≠ m x →
      s ≤ x ∧ (x < up4 e ∨ (s % 2 = 1 ∧ x < s + 4) ∨ (s % 4 = 2 ∧ x < s + 2)) ∧
      writePattern k m s e x = patByte k.pat x) := by
  unfold writePattern
  rw [fill_eq k hp _ _ _ (by unfold up4; omega)]
  by_cases h1 : s % 2 ≠ 0
  · rw [if_pos h1]
    unfold wr up4
    constructor
    · intro ha hb
      split
      · rfl
      · rename_i h
        rw [if_pos (by omega)]
        exact byteOf_R k (by omega) ha (by omega)
    · split
      · intro _
        refine ⟨by omega, by omega, rfl⟩
      · split
        · rename_i h2
          intro _
          refine ⟨by omega, by omega, byteOf_R k (by omega) h2.1 h2.2⟩
        · intro h; exact absurd rfl h
  · rw [if_neg h1]
    by_cases h3 : s % 4 ≠ 0
    · rw [if_pos h3]
      unfold wr up4
      constructor
      · intro ha hb
        split
        · rfl
        · rename_i h
          rw [if_pos (by omega)]
          exact byteOf_2 k (by omega) ha (by omega)
      · split
        · intro _
          refine ⟨by omega, by omega, rfl⟩
        · split
          · rename_i h2
            intro _
            refine ⟨by omega, by omega, byteOf_2 k (by omega) h2.1 h2.2⟩
          · intro h; exact absurd rfl h
    · rw [if_neg h3]
      unfold up4
      constructor
      · intro ha hb
        rw [if_pos (by omega)]
      · split
        · intro _
          refine ⟨by omega, by omega, rfl⟩
        · intro h; exact absurd rfl h

theorem rd2 (m : Mem) (a : Nat) : rd m a 2 = (m a).toNat + 256 * (m (a + 1)).toNat := by
  simp [rd]

theorem rd4 (m : Mem) (a : Nat) : rd m a 4 = (m a).toNat + 256 * (m (a + 1)).toNat +
    65536 * (m (a + 2)).toNat + 16777216 * (m (a + 3)).toNat := by
  simp only [rd, Nat.add_assoc, Nat.reduceAdd]
  omega

theorem quad {b0 b1 b2 b3 q0 q1 q2 q3 : Nat} (h0 : b0 < 256) (h1 : b1 < 256) (h2 : b2 < 256)
    (_ : b3 < 256) (g0 : q0 < 256) (g1 : q1 < 256) (g2 : q2 < 256) (_ : q3 < 256)
    (h : b0 + 256 * b1 + 65536 * b2 + 16777216 * b3 =
      q0 + 256 * q1 + 65536 * q2 + 16777216 * q3) :
    b0 = q0 ∧ b1 = q1 ∧ b2 = q2 ∧ b3 = q3 := by
  have e0 : b0 = q0 := by omega
  have e1 : b1 = q1 := by omega
  have e2 : b2 = q2 := by omega
  exact ⟨e0, e1, e2, by omega⟩

/-- The bytes of `[a, a + w)` all hold the pattern. -/
def intact (p : Nat) (m : Mem) (a w : Nat) : Prop :=
  ∀ x, a ≤ x → x < a + w → m x = patByte p x

theorem eqb {b : UInt8} {p x : Nat} (h : b.toNat = (patByte p x).toNat) : b = patByte p x :=
  UInt8.toNat_inj.mp h

theorem rd4_P (k : Cfg) (hp : k.pat < 65536) (m : Mem) {a : Nat} (ha : a % 2 = 0) :
    rd m a 4 = P32 k ↔ intact k.pat m a 4 := by
  have p0 := patByte_toNat k.pat a
  have p1 := patByte_toNat k.pat (a + 1)
  have p2 := patByte_toNat k.pat (a + 2)
  have p3 := patByte_toNat k.pat (a + 3)
  rw [if_pos (by omega)] at p0
  rw [if_neg (by omega)] at p1
  rw [if_pos (by omega)] at p2
  rw [if_neg (by omega)] at p3
  have e : P32 k = (patByte k.pat a).toNat + 256 * (patByte k.pat (a + 1)).toNat +
      65536 * (patByte k.pat (a + 2)).toNat + 16777216 * (patByte k.pat (a + 3)).toNat := by
    rw [p0, p1, p2, p3]
    unfold P32
    omega
  rw [rd4, e]
  constructor
  · intro h
    obtain ⟨e0, e1, e2, e3⟩ := quad (UInt8.toNat_lt _) (UInt8.toNat_lt _) (UInt8.toNat_lt _)
      (UInt8.toNat_lt _) (UInt8.toNat_lt _) (UInt8.toNat_lt _) (UInt8.toNat_lt _)
      (UInt8.toNat_lt _) h
    intro x h1 h2
    have hi : x = a ∨ x = a + 1 ∨ x = a + 2 ∨ x = a + 3 := by omega
    rcases hi with rfl | rfl | rfl | rfl
    · exact eqb e0
    · exact eqb e1
    · exact eqb e2
    · exact eqb e3
  · intro h
    rw [h a (by omega) (by omega), h (a + 1) (by omega) (by omega),
      h (a + 2) (by omega) (by omega), h (a + 3) (by omega) (by omega)]

theorem rd4_R (k : Cfg) (m : Mem) {a : Nat} (ha : a % 2 = 1) :
    rd m a 4 = R32 k ↔ intact k.pat m a 4 := by
  have p0 := patByte_toNat k.pat a
  have p1 := patByte_toNat k.pat (a + 1)
  have p2 := patByte_toNat k.pat (a + 2)
  have p3 := patByte_toNat k.pat (a + 3)
  rw [if_neg (by omega)] at p0
  rw [if_pos (by omega)] at p1
  rw [if_neg (by omega)] at p2
  rw [if_pos (by omega)] at p3
  have e : R32 k = (patByte k.pat a).toNat + 256 * (patByte k.pat (a + 1)).toNat +
      65536 * (patByte k.pat (a + 2)).toNat + 16777216 * (patByte k.pat (a + 3)).toNat := by
    rw [p0, p1, p2, p3]
    unfold R32 swap
    omega
  rw [rd4, e]
  constructor
  · intro h
    obtain ⟨e0, e1, e2, e3⟩ := quad (UInt8.toNat_lt _) (UInt8.toNat_lt _) (UInt8.toNat_lt _)
      (UInt8.toNat_lt _) (UInt8.toNat_lt _) (UInt8.toNat_lt _) (UInt8.toNat_lt _)
      (UInt8.toNat_lt _) h
    intro x h1 h2
    have hi : x = a ∨ x = a + 1 ∨ x = a + 2 ∨ x = a + 3 := by omega
    rcases hi with rfl | rfl | rfl | rfl
    · exact eqb e0
    · exact eqb e1
    · exact eqb e2
    · exact eqb e3
  · intro h
    rw [h a (by omega) (by omega), h (a + 1) (by omega) (by omega),
      h (a + 2) (by omega) (by omega), h (a + 3) (by omega) (by omega)]

theorem rd2_P (k : Cfg) (hp : k.pat < 65536) (m : Mem) {a : Nat} (ha : a % 2 = 0) :
    rd m a 2 = k.pat ↔ intact k.pat m a 2 := by
  rw [rd2]
  have b0 := (m a).toNat_lt
  have b1 := (m (a + 1)).toNat_lt
  have p0 := patByte_toNat k.pat a
  have p1 := patByte_toNat k.pat (a + 1)
  rw [if_pos (by omega)] at p0
  rw [if_neg (by omega)] at p1
  constructor
  · intro h x h1 h2
    have hi : x = a ∨ x = a + 1 := by omega
    rcases hi with rfl | rfl <;> apply eqb <;> omega
  · intro h
    rw [h a (by omega) (by omega), h (a + 1) (by omega) (by omega), p0, p1]
    omega

theorem rd2_R (k : Cfg) (m : Mem) {a : Nat} (ha : a % 2 = 1) :
    rd m a 2 = swap k.pat ↔ intact k.pat m a 2 := by
  rw [rd2]
  unfold swap
  have b0 := (m a).toNat_lt
  have b1 := (m (a + 1)).toNat_lt
  have p0 := patByte_toNat k.pat a
  have p1 := patByte_toNat k.pat (a + 1)
  rw [if_neg (by omega)] at p0
  rw [if_pos (by omega)] at p1
  constructor
  · intro h x h1 h2
    have hi : x = a ∨ x = a + 1 := by omega
    rcases hi with rfl | rfl <;> apply eqb <;> omega
  · intro h
    rw [h a (by omega) (by omega), h (a + 1) (by omega) (by omega), p0, p1]

theorem matchUp_le (k : Cfg) (m : Mem) (n : Nat) : ∀ a, matchUp k m a n ≤ n := by
  induction n with
  | zero => intro a; simp [matchUp]
  | succ n ih => intro a; have := ih (a + 4); unfold matchUp; split <;> omega

theorem matchDown_le (k : Cfg) (m : Mem) (n : Nat) : ∀ a, matchDown k m a n ≤ n := by
  induction n with
  | zero => intro a; simp [matchDown]
  | succ n ih => intro a; have := ih (a - 4); unfold matchDown; split <;> (try split) <;> omega

/-- The count going up is at least `i` exactly if the next `i` dwords are intact. -/
theorem matchUp_ge (k : Cfg) (hp : k.pat < 65536) (m : Mem) (n : Nat) :
    ∀ a i, a % 2 = 0 → i ≤ n → (i ≤ matchUp k m a n ↔ intact k.pat m a (4 * i)) := by
  induction n with
  | zero =>
    intro a i ha hi
    obtain rfl : i = 0 := by omega
    constructor
    · intro _ x h1 h2; omega
    · intro _; omega
  | succ n ih =>
    intro a i ha hi
    cases i with
    | zero =>
      constructor
      · intro _ x h1 h2; omega
      · intro _; omega
    | succ i =>
      have := ih (a + 4) i (by omega) (by omega)
      rw [matchUp]
      split
      · rename_i h
        have h := (rd4_P k hp m ha).mp h
        constructor
        · intro hle x h1 h2
          by_cases hx : x < a + 4
          · exact h x h1 hx
          · exact this.mp (by omega) x (by omega) (by omega)
        · intro hint
          have := this.mpr (fun x h1 h2 => hint x (by omega) (by omega))
          omega
      · rename_i h
        constructor
        · intro hle; omega
        · intro hint
          exact absurd ((rd4_P k hp m ha).mpr fun x h1 h2 => hint x h1 (by omega)) h

/-- The count going down is at least `j` exactly if the `j` dwords ending with
    this one are intact. -/
theorem matchDown_ge (k : Cfg) (hp : k.pat < 65536) (m : Mem) (n : Nat) :
    ∀ a j, a % 4 = 0 → j ≤ n →
      (j ≤ matchDown k m a n ↔ (4 * j ≤ a + 4 ∧ intact k.pat m (a + 4 - 4 * j) (4 * j))) := by
  induction n with
  | zero =>
    intro a i ha hi
    obtain rfl : i = 0 := by omega
    constructor
    · intro _; refine ⟨by omega, fun x h1 h2 => by omega⟩
    · intro _; omega
  | succ n ih =>
    intro a j ha hj
    cases j with
    | zero =>
      constructor
      · intro _; refine ⟨by omega, fun x h1 h2 => by omega⟩
      · intro _; omega
    | succ j =>
      rw [matchDown]
      split
      · rename_i h
        have h := (rd4_P k hp m (a := a) (by omega)).mp h
        split
        · rename_i hlt
          constructor
          · intro hle
            obtain rfl : j = 0 := by omega
            refine ⟨by omega, fun x h1 h2 => h x (by omega) (by omega)⟩
          · intro hh; omega
        · rename_i hlt
          have := ih (a - 4) j (by omega) (by omega)
          have e : a - 4 + 4 - 4 * j = a - 4 * j := by omega
          rw [e] at this
          constructor
          · intro hle
            have hd := this.mp (by omega)
            refine ⟨by omega, ?_⟩
            intro x h1 h2
            by_cases hx : a ≤ x
            · exact h x hx (by omega)
            · exact hd.2 x (by omega) (by omega)
          · intro ⟨hb, hint⟩
            have := this.mpr ⟨by omega, fun x h1 h2 => hint x (by omega) (by omega)⟩
            omega
      · rename_i h
        constructor
        · intro hle; omega
        · intro ⟨hb, hint⟩
          exact absurd ((rd4_P k hp m (by omega)).mpr
            fun x h1 h2 => hint x (by omega) (by omega)) h

/-- The pre-check asks for an intact run of more than half a redzone that
    touches the end of the dword the address lies in. -/
theorem preCheck_iff (k : Cfg) (hp : k.pat < 65536) (m : Mem) (addr : Nat) :
    preCheck k m addr = true ↔
      ∃ lo hi, lo % 4 = 0 ∧ hi % 4 = 0 ∧ lo ≤ down4 addr + 4 ∧ down4 addr + 4 ≤ hi ∧
        hi ≤ down4 addr + 4 + 4 * (k.rz / 4) ∧ down4 addr + 4 ≤ lo + 4 * (k.rz / 4) ∧
        k.rz / 4 / 2 < (hi - lo) / 4 ∧ intact k.pat m lo (hi - lo) := by
  have ha : down4 addr % 4 = 0 := by unfold down4; omega
  unfold preCheck
  generalize down4 addr = a at *
  simp only
  constructor
  · intro h
    have hu := (matchUp_ge k hp m (k.rz / 4) (a + 4) _ (by omega)
      (matchUp_le k m (k.rz / 4) (a + 4))).mp (Nat.le_refl _)
    have hd := (matchDown_ge k hp m (k.rz / 4) a _ ha
      (matchDown_le k m (k.rz / 4) a)).mp (Nat.le_refl _)
    have lu := matchUp_le k m (k.rz / 4) (a + 4)
    have ld := matchDown_le k m (k.rz / 4) a
    have : k.rz / 4 / 2 < matchUp k m (a + 4) (k.rz / 4) + matchDown k m a (k.rz / 4) := by
      split at h
      · omega
      · simpa using h
    generalize matchUp k m (a + 4) (k.rz / 4) = u at *
    generalize matchDown k m a (k.rz / 4) = d at *
    refine ⟨a + 4 - 4 * d, a + 4 + 4 * u, by omega, by omega, by omega, by omega, by omega,
      by omega, by omega, ?_⟩
    intro x h1 h2
    by_cases hx : x < a + 4
    · exact hd.2 x h1 (by omega)
    · exact hu x (by omega) (by omega)
  · intro ⟨lo, hi, l4, h4, la, ah, hk, lk, hlt, hint⟩
    have hu := (matchUp_ge k hp m (k.rz / 4) (a + 4) ((hi - (a + 4)) / 4) (by omega)
      (by omega)).mpr (fun x h1 h2 => hint x (by omega) (by omega))
    have hd := (matchDown_ge k hp m (k.rz / 4) a ((a + 4 - lo) / 4) ha
      (by omega)).mpr ⟨by omega, fun x h1 h2 => hint x (by omega) (by omega)⟩
    split
    · rfl
    · simp only [decide_eq_true_eq]
      omega

end Verif.Pattern
