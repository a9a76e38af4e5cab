import Verif.LibcMem

/-!
# The replaced libc memory routines (C40)

The specifications speak about the memory before and after only.  Since an access to an address
where the memory is `none` is a fault and the routines are shown to stop without fault whenever the
bytes named by the arguments are accessible (whatever the rest), no other byte is ever accessed.
-/
namespace Verif.Libc

/-- Spec: the memory after setting `n` bytes at `dst`. -/
def filled (m : Mem) (dst val n : Nat) : Mem :=
  fun a => if dst ≤ a ∧ a < dst + n then some val else m a

/-- Spec: the memory after copying the `n` bytes at `src` to `dst`. -/
def copied (m : Mem) (dst src n : Nat) : Mem :=
  fun a => if dst ≤ a ∧ a < dst + n then m (src + (a - dst)) else m a

/-- Spec: `n` accessible bytes at `p`. -/
def Acc (m : Mem) (p n : Nat) : Prop := ∀ i, i < n → m (p + i) ≠ none

/-- Spec: every element is a byte. -/
def Bytes (m : Mem) : Prop := ∀ a v, m a = some v → v < 256

theorem ld_ok {m : Mem} {a v : Nat} (h : m a = some v) : ld m a = .ok v := by simp [ld, h]

theorem sto_ok {m : Mem} {a : Nat} (v : Nat) (h : m a ≠ none) :
    sto m a v = .ok (fun b => if b = a then some v else m b) := by
  have : (m a).isSome := by cases hm : m a <;> simp_all
  simp [sto, this]

theorem ld4_ok {m : Mem} {a : Nat} {v0 v1 v2 v3 : Nat} (h0 : m a = some v0)
    (h1 : m (a + 1) = some v1) (h2 : m (a + 2) = some v2) (h3 : m (a + 3) = some v3) :
    ld4 m a = .ok (v0 + 256 * v1 + 65536 * v2 + 16777216 * v3) := by
  simp [ld4, ld_ok h0, ld_ok h1, ld_ok h2, ld_ok h3, Out.bind]

theorem sto4_ok {m : Mem} {a : Nat} (v : Nat) (h0 : m a ≠ none) (h1 : m (a + 1) ≠ none)
    (h2 : m (a + 2) ≠ none) (h3 : m (a + 3) ≠ none) :
    sto4 m a v = .ok (fun b => if b = a + 3 then some (v / 16777216 % 256) else
      if b = a + 2 then some (v / 65536 % 256) else if b = a + 1 then some (v / 256 % 256) else
      if b = a then some (v % 256) else m b) := by
  unfold sto4
  rw [sto_ok _ h0]
  simp only [Out.bind]
  rw [sto_ok _ (by simpa using h1)]
  simp only []
  rw [sto_ok _ (by simpa using h2)]
  simp only []
  rw [sto_ok _ (by simpa using h3)]

/-! ## memset -/

theorem filled_zero (m : Mem) (dst val : Nat) : filled m dst val 0 = m := by
  funext a; simp only [filled]; rw [if_neg (by omega)]

theorem filled_ne {m : Mem} {dst val k p : Nat} (h : m p ≠ none) : filled m dst val k p ≠ none := by
  simp only [filled]; split
  · simp
  · exact h

theorem setByte_ok {m : Mem} {dst val k n : Nat} (h : m (dst + k) ≠ none) :
    setByte val ⟨dst + k, n, filled m dst val k⟩ =
      .ok ⟨dst + (k + 1), n - 1, filled m dst val (k + 1)⟩ := by
  unfold setByte
  simp only []
  rw [sto_ok _ (filled_ne h)]
  simp only [Out.bind, Out.ok.injEq, SetSt.mk.injEq, true_and]
  refine ⟨by omega, ?_⟩
  funext b
  simp only [filled]
  by_cases h1 : b = dst + k
  · rw [if_pos h1, if_pos (by omega)]
  · rw [if_neg h1]
    by_cases h2 : dst ≤ b ∧ b < dst + k
    · rw [if_pos h2, if_pos (by omega)]
    · rw [if_neg h2, if_neg (by omega)]

theorem val4_bytes : ∀ v : Fin 256,
    (v.val <<< 24 ||| v.val <<< 16 ||| v.val <<< 8 ||| v.val) % 256 = v.val ∧
    (v.val <<< 24 ||| v.val <<< 16 ||| v.val <<< 8 ||| v.val) / 256 % 256 = v.val ∧
    (v.val <<< 24 ||| v.val <<< 16 ||| v.val <<< 8 ||| v.val) / 65536 % 256 = v.val ∧
    (v.val <<< 24 ||| v.val <<< 16 ||| v.val <<< 8 ||| v.val) / 16777216 % 256 = v.val := by
  decide +kernel

theorem setWord_ok {m : Mem} {dst val k n : Nat} (hv : val < 256) (h : Acc m (dst + k) 4) :
    setWord (val <<< 24 ||| val <<< 16 ||| val <<< 8 ||| val) ⟨dst + k, n, filled m dst val k⟩ =
      .ok ⟨dst + (k + 4), n - 4, filled m dst val (k + 4)⟩ := by
  unfold setWord
  simp only []
  rw [sto4_ok _ (filled_ne (by simpa using h 0 (by omega))) (filled_ne (h 1 (by omega)))
    (filled_ne (h 2 (by omega))) (filled_ne (h 3 (by omega)))]
  obtain ⟨e0, e1, e2, e3⟩ := val4_bytes ⟨val, hv⟩
  simp only [] at e0 e1 e2 e3
  rw [e0, e1, e2, e3]
  simp only [Out.bind, Out.ok.injEq, SetSt.mk.injEq, true_and]
  refine ⟨by omega, ?_⟩
  funext b
  simp only [filled]
  by_cases h3 : b = dst + k + 3
  · rw [if_pos h3, if_pos (by omega)]
  rw [if_neg h3]
  by_cases h2 : b = dst + k + 2
  · rw [if_pos h2, if_pos (by omega)]
  rw [if_neg h2]
  by_cases h1 : b = dst + k + 1
  · rw [if_pos h1, if_pos (by omega)]
  rw [if_neg h1]
  by_cases h0 : b = dst + k
  · rw [if_pos h0, if_pos (by omega)]
  rw [if_neg h0]
  by_cases hb : dst ≤ b ∧ b < dst + k
  · rw [if_pos hb, if_pos (by omega)]
  · rw [if_neg hb, if_neg (by omega)]

/-- Length of the prologue that reaches an aligned address. -/
def pro (d n : Nat) : Nat := min n ((4 - d % 4) % 4)

theorem pro_spec (d n : Nat) : pro d n ≤ n ∧ (∀ i, i < pro d n → (d + i) % 4 ≠ 0) ∧
    ((d + pro d n) % 4 = 0 ∨ pro d n = n) := by
  unfold pro
  refine ⟨by omega, fun i hi => by omega, by omega⟩

/-- C40 (memset): every byte of the range, and nothing else, becomes the low byte of the value. -/
theorem C40_memset (m : Mem) (dst v size : Nat) (h : Acc m dst size) :
    Term (memset m dst v size) (filled m dst (v % 256) size) := by
  have hv : v % 256 < 256 := Nat.mod_lt _ (by omega)
  obtain ⟨p1, p2, p3⟩ := pro_spec dst size
  unfold memset
  refine Term.bind (Term.while (pro dst size)
    (fun i => ⟨dst + i, size - i, filled m dst (v % 256) i⟩) ?_ ?_ ?_ ?_) ?_
  · simp [filled_zero]
  · intro i hi
    have := p2 i hi
    simp only [Out.ok.injEq, decide_eq_true_eq]; omega
  · intro i hi
    rw [setByte_ok (h i (by omega))]
    simp only [Nat.sub_sub]
  · simp only [Out.ok.injEq, decide_eq_false_iff_not]; omega
  refine Term.bind (Term.while ((size - pro dst size) / 4)
    (fun i => ⟨dst + (pro dst size + 4 * i), size - (pro dst size + 4 * i),
      filled m dst (v % 256) (pro dst size + 4 * i)⟩) ?_ ?_ ?_ ?_) ?_
  · simp
  · intro i hi
    simp only [Out.ok.injEq, decide_eq_true_eq]; omega
  · intro i hi
    rw [setWord_ok hv]
    · simp only [Nat.sub_sub]; rfl
    · intro j hj
      rw [Nat.add_assoc]
      exact h _ (by omega)
  · simp only [Out.ok.injEq, decide_eq_false_iff_not]; omega
  generalize hq : pro dst size + 4 * ((size - pro dst size) / 4) = q
  refine Term.bind (Term.while (size - q)
    (fun i => ⟨dst + (q + i), size - (q + i), filled m dst (v % 256) (q + i)⟩) ?_ ?_ ?_ ?_) ?_
  · simp
  · intro i hi
    simp only [Out.ok.injEq, decide_eq_true_eq]; omega
  · intro i hi
    rw [setByte_ok (h _ (by omega))]
    simp only [Nat.sub_sub]; rfl
  · simp only [Out.ok.injEq, decide_eq_false_iff_not]; omega
  have : q + (size - q) = size := by omega
  simp only [this]
  exact Term.pure _

/-- C40 (bzero). -/
theorem C40_bzero (m : Mem) (dst size : Nat) (h : Acc m dst size) :
    Term (bzero m dst size) (filled m dst 0 size) := C40_memset m dst 0 size h

/-- C40 (wmemset): every element of the range, and nothing else, becomes the value. -/
theorem C40_wmemset (m : Mem) (dst v size : Nat) (h : Acc m dst size) :
    Term (wmemset m dst v size) (filled m dst v size) := by
  unfold wmemset
  refine Term.bind (Term.while size (fun i => ⟨dst + i, size - i, filled m dst v i⟩) ?_ ?_ ?_ ?_) ?_
  · simp [filled_zero]
  · intro i hi
    simp only [Out.ok.injEq, decide_eq_true_eq]; omega
  · intro i hi
    rw [setByte_ok (h i (by omega))]
    simp only [Nat.sub_sub]
  · simp only [Out.ok.injEq, decide_eq_false_iff_not]; omega
  exact Term.pure _

/-! ## Copies -/

theorem copied_zero (m : Mem) (dst src : Nat) : copied m dst src 0 = m := by
  funext a; simp only [copied]; rw [if_neg (by omega)]

theorem copied_ne {m : Mem} {dst src k n p : Nat} (hk : k ≤ n) (hs : Acc m src n)
    (h : m p ≠ none) : copied m dst src k p ≠ none := by
  simp only [copied]; split
  · exact hs _ (by omega)
  · exact h

/-- Going forward does not clobber. -/
def FwdOk (dst src n : Nat) : Prop := dst ≤ src ∨ src + n ≤ dst

theorem copied_src {m : Mem} {dst src k n j : Nat} (hf : FwdOk dst src n) (hj : k + j < n) :
    copied m dst src k (src + k + j) = m (src + k + j) := by
  simp only [copied]; rw [if_neg (by simp only [FwdOk] at hf; omega)]

theorem some_of_ne {m : Mem} {a : Nat} (h : m a ≠ none) : ∃ v, m a = some v := by
  cases hm : m a with
  | none => exact absurd hm h
  | some v => exact ⟨v, rfl⟩

theorem cpByte_ok {m : Mem} {dst src k n : Nat} (hf : FwdOk dst src n) (hk : k < n)
    (hs : Acc m src n) (hd : Acc m dst n) (r : Nat) :
    cpByte ⟨dst + k, src + k, r, copied m dst src k⟩ =
      .ok ⟨dst + (k + 1), src + (k + 1), r - 1, copied m dst src (k + 1)⟩ := by
  obtain ⟨v, hv⟩ := some_of_ne (hs k hk)
  unfold cpByte
  simp only []
  have e := copied_src (m := m) (k := k) (j := 0) hf (by omega)
  simp only [Nat.add_zero] at e
  rw [ld_ok (e.trans hv)]
  simp only [Out.bind]
  rw [sto_ok _ (copied_ne (n := n) (by omega) hs (hd k hk))]
  simp only [Out.ok.injEq, CpSt.mk.injEq, true_and]
  refine ⟨by omega, by omega, ?_⟩
  funext b
  simp only [copied]
  by_cases h1 : b = dst + k
  · rw [if_pos h1, if_pos (by omega), ← hv]; congr 1; omega
  · rw [if_neg h1]
    by_cases h2 : dst ≤ b ∧ b < dst + k
    · rw [if_pos h2, if_pos (by omega)]
    · rw [if_neg h2, if_neg (by omega)]

theorem cpWord_ok {m : Mem} {dst src k n : Nat} (hb : Bytes m) (hf : FwdOk dst src n)
    (hk : k + 3 < n) (hs : Acc m src n) (hd : Acc m dst n) (r : Nat) :
    cpWord ⟨dst + k, src + k, r, copied m dst src k⟩ =
      .ok ⟨dst + (k + 4), src + (k + 4), r - 4, copied m dst src (k + 4)⟩ := by
  obtain ⟨v0, hv0⟩ := some_of_ne (hs k (by omega))
  obtain ⟨v1, hv1⟩ := some_of_ne (hs (k + 1) (by omega))
  obtain ⟨v2, hv2⟩ := some_of_ne (hs (k + 2) (by omega))
  obtain ⟨v3, hv3⟩ := some_of_ne (hs (k + 3) (by omega))
  have b0 := hb _ _ hv0
  have b1 := hb _ _ hv1
  have b2 := hb _ _ hv2
  have b3 := hb _ _ hv3
  unfold cpWord
  simp only []
  have e0 := copied_src (m := m) (k := k) (j := 0) hf (by omega)
  simp only [Nat.add_zero] at e0
  rw [ld4_ok (e0.trans hv0) ((copied_src (m := m) (k := k) (j := 1) hf (by omega)).trans hv1)
    ((copied_src (m := m) (k := k) (j := 2) hf (by omega)).trans hv2)
    ((copied_src (m := m) (k := k) (j := 3) hf (by omega)).trans hv3)]
  simp only [Out.bind]
  rw [sto4_ok _ (copied_ne (n := n) (by omega) hs (hd k (by omega)))
    (copied_ne (n := n) (by omega) hs (hd (k + 1) (by omega)))
    (copied_ne (n := n) (by omega) hs (hd (k + 2) (by omega)))
    (copied_ne (n := n) (by omega) hs (hd (k + 3) (by omega)))]
  simp only [Out.ok.injEq, CpSt.mk.injEq, true_and]
  refine ⟨by omega, by omega, ?_⟩
  funext b
  simp only [copied]
  by_cases h3 : b = dst + k + 3
  · rw [if_pos h3, if_pos (by omega), show src + (b - dst) = src + (k + 3) by omega, hv3]
    congr 1; omega
  rw [if_neg h3]
  by_cases h2 : b = dst + k + 2
  · rw [if_pos h2, if_pos (by omega), show src + (b - dst) = src + (k + 2) by omega, hv2]
    congr 1; omega
  rw [if_neg h2]
  by_cases h1 : b = dst + k + 1
  · rw [if_pos h1, if_pos (by omega), show src + (b - dst) = src + (k + 1) by omega, hv1]
    congr 1; omega
  rw [if_neg h1]
  by_cases h0 : b = dst + k
  · rw [if_pos h0, if_pos (by omega), show src + (b - dst) = src + k by omega, hv0]
    congr 1; omega
  rw [if_neg h0]
  by_cases hb : dst ≤ b ∧ b < dst + k
  · rw [if_pos hb, if_pos (by omega)]
  · rw [if_neg hb, if_neg (by omega)]

theorem cp3_fwd {m : Mem} {dst src n : Nat} (hb : Bytes m) (hf : FwdOk dst src n)
    (hs : Acc m src n) (hd : Acc m dst n) :
    Term (fun fuel => cp3 cpByte cpWord fuel ⟨dst, src, n, m⟩) (copied m dst src n) := by
  obtain ⟨p1, p2, p3⟩ := pro_spec dst n
  unfold cp3
  refine Term.bind (Term.while (pro dst n)
    (fun i => ⟨dst + i, src + i, n - i, copied m dst src i⟩) ?_ ?_ ?_ ?_) ?_
  · simp [copied_zero]
  · intro i hi
    have := p2 i hi
    simp only [cpUnaligned, Out.ok.injEq, decide_eq_true_eq]; omega
  · intro i hi
    rw [cpByte_ok hf (by omega) hs hd]
    simp only [Nat.sub_sub]
  · simp only [cpUnaligned, Out.ok.injEq, decide_eq_false_iff_not]; omega
  refine Term.bind (Term.while ((n - pro dst n) / 4)
    (fun i => ⟨dst + (pro dst n + 4 * i), src + (pro dst n + 4 * i), n - (pro dst n + 4 * i),
      copied m dst src (pro dst n + 4 * i)⟩) ?_ ?_ ?_ ?_) ?_
  · simp
  · intro i hi
    simp only [cpBig, Out.ok.injEq, decide_eq_true_eq]; omega
  · intro i hi
    rw [cpWord_ok hb hf (by omega) hs hd]
    simp only [Nat.sub_sub]; rfl
  · simp only [cpBig, Out.ok.injEq, decide_eq_false_iff_not]; omega
  generalize hq : pro dst n + 4 * ((n - pro dst n) / 4) = q
  refine Term.bind (Term.while (n - q)
    (fun i => ⟨dst + (q + i), src + (q + i), n - (q + i), copied m dst src (q + i)⟩) ?_ ?_ ?_ ?_) ?_
  · simp
  · intro i hi
    simp only [cpSome, Out.ok.injEq, decide_eq_true_eq]; omega
  · intro i hi
    rw [cpByte_ok hf (by omega) hs hd]
    simp only [Nat.sub_sub]; rfl
  · simp only [cpSome, Out.ok.injEq, decide_eq_false_iff_not]; omega
  have : q + (n - q) = n := by omega
  simp only [this]
  exact Term.pure _

theorem cp1_fwd {m : Mem} {dst src n : Nat} (hf : FwdOk dst src n)
    (hs : Acc m src n) (hd : Acc m dst n) :
    Term (fun fuel => cp1 cpByte fuel ⟨dst, src, n, m⟩) (copied m dst src n) := by
  unfold cp1
  refine Term.bind (Term.while n
    (fun i => ⟨dst + i, src + i, n - i, copied m dst src i⟩) ?_ ?_ ?_ ?_) ?_
  · simp [copied_zero]
  · intro i hi
    simp only [cpSome, Out.ok.injEq, decide_eq_true_eq]; omega
  · intro i hi
    rw [cpByte_ok hf (by omega) hs hd]
    simp only [Nat.sub_sub]
  · simp only [cpSome, Out.ok.injEq, decide_eq_false_iff_not]; omega
  exact Term.pure _

/-! Backwards: after `k` bytes the last `k` bytes are copied. -/

/-- Going backward does not clobber. -/
def BwdOk (dst src n : Nat) : Prop := src ≤ dst ∨ dst + n ≤ src

theorem copiedB_src {m : Mem} {dst src k n j : Nat} (hf : BwdOk dst src n) (hj : j + k < n) :
    copied m (dst + n - k) (src + n - k) k (src + j) = m (src + j) := by
  simp only [copied]; rw [if_neg (by simp only [BwdOk] at hf; omega)]

theorem copiedB_ne {m : Mem} {dst src k n p : Nat} (hk : k ≤ n) (hs : Acc m src n)
    (h : m p ≠ none) : copied m (dst + n - k) (src + n - k) k p ≠ none := by
  simp only [copied]; split
  · rw [show src + n - k + (p - (dst + n - k)) = src + (n - k + (p - (dst + n - k))) by omega]
    exact hs _ (by omega)
  · exact h

theorem cpByteB_ok {m : Mem} {dst src k n : Nat} (hf : BwdOk dst src n) (hk : k < n)
    (hs : Acc m src n) (hd : Acc m dst n) (r : Nat) :
    cpByteB ⟨dst + n - k, src + n - k, r, copied m (dst + n - k) (src + n - k) k⟩ =
      .ok ⟨dst + n - (k + 1), src + n - (k + 1), r - 1,
        copied m (dst + n - (k + 1)) (src + n - (k + 1)) (k + 1)⟩ := by
  obtain ⟨v, hv⟩ := some_of_ne (hs (n - k - 1) (by omega))
  unfold cpByteB
  simp only []
  have e := copiedB_src (m := m) (k := k) (j := n - k - 1) hf (by omega)
  rw [show src + n - k - 1 = src + (n - k - 1) by omega, ld_ok (e.trans hv)]
  simp only [Out.bind]
  rw [show dst + n - k - 1 = dst + (n - k - 1) by omega,
    sto_ok _ (copiedB_ne (n := n) (by omega) hs (hd (n - k - 1) (by omega)))]
  simp only [Out.ok.injEq, CpSt.mk.injEq, true_and]
  refine ⟨by omega, by omega, ?_⟩
  funext b
  simp only [copied]
  by_cases h1 : b = dst + (n - k - 1)
  · rw [if_pos h1, if_pos (by omega), ← hv]; congr 1; omega
  · rw [if_neg h1]
    by_cases h2 : dst + n - k ≤ b ∧ b < dst + n - k + k
    · rw [if_pos h2, if_pos (by omega)]; congr 1; omega
    · rw [if_neg h2, if_neg (by omega)]

theorem cpWordB_ok {m : Mem} {dst src k n : Nat} (hb : Bytes m) (hf : BwdOk dst src n)
    (hk : k + 3 < n) (hs : Acc m src n) (hd : Acc m dst n) (r : Nat) :
    cpWordB ⟨dst + n - k, src + n - k, r, copied m (dst + n - k) (src + n - k) k⟩ =
      .ok ⟨dst + n - (k + 4), src + n - (k + 4), r - 4,
        copied m (dst + n - (k + 4)) (src + n - (k + 4)) (k + 4)⟩ := by
  obtain ⟨q, hq⟩ : ∃ q, n = q + 4 + k := ⟨n - 4 - k, by omega⟩
  obtain ⟨v0, hv0⟩ := some_of_ne (hs q (by omega))
  obtain ⟨v1, hv1⟩ := some_of_ne (hs (q + 1) (by omega))
  obtain ⟨v2, hv2⟩ := some_of_ne (hs (q + 2) (by omega))
  obtain ⟨v3, hv3⟩ := some_of_ne (hs (q + 3) (by omega))
  have b0 := hb _ _ hv0
  have b1 := hb _ _ hv1
  have b2 := hb _ _ hv2
  have b3 := hb _ _ hv3
  unfold cpWordB
  simp only []
  rw [show src + n - k - 4 = src + q by omega, show dst + n - k - 4 = dst + q by omega]
  rw [ld4_ok ((copiedB_src (m := m) (k := k) (j := q) hf (by omega)).trans hv0)
    ((copiedB_src (m := m) (k := k) (j := q + 1) hf (by omega)).trans hv1)
    ((copiedB_src (m := m) (k := k) (j := q + 2) hf (by omega)).trans hv2)
    ((copiedB_src (m := m) (k := k) (j := q + 3) hf (by omega)).trans hv3)]
  simp only [Out.bind]
  rw [sto4_ok _ (copiedB_ne (n := n) (by omega) hs (hd q (by omega)))
    (copiedB_ne (n := n) (by omega) hs (hd (q + 1) (by omega)))
    (copiedB_ne (n := n) (by omega) hs (hd (q + 2) (by omega)))
    (copiedB_ne (n := n) (by omega) hs (hd (q + 3) (by omega)))]
  simp only [Out.ok.injEq, CpSt.mk.injEq, true_and]
  refine ⟨by omega, by omega, ?_⟩
  funext b
  simp only [copied]
  by_cases h3 : b = dst + q + 3
  · rw [if_pos h3, if_pos (by omega),
      show src + n - (k + 4) + (b - (dst + n - (k + 4))) = src + (q + 3) by omega, hv3]
    congr 1; omega
  rw [if_neg h3]
  by_cases h2 : b = dst + q + 2
  · rw [if_pos h2, if_pos (by omega),
      show src + n - (k + 4) + (b - (dst + n - (k + 4))) = src + (q + 2) by omega, hv2]
    congr 1; omega
  rw [if_neg h2]
  by_cases h1 : b = dst + q + 1
  · rw [if_pos h1, if_pos (by omega),
      show src + n - (k + 4) + (b - (dst + n - (k + 4))) = src + (q + 1) by omega, hv1]
    congr 1; omega
  rw [if_neg h1]
  by_cases h0 : b = dst + q
  · rw [if_pos h0, if_pos (by omega),
      show src + n - (k + 4) + (b - (dst + n - (k + 4))) = src + q by omega, hv0]
    congr 1; omega
  rw [if_neg h0]
  by_cases hb : dst + n - k ≤ b ∧ b < dst + n - k + k
  · rw [if_pos hb, if_pos (by omega)]; congr 1; omega
  · rw [if_neg hb, if_neg (by omega)]

/-- Length of the prologue that goes down to an aligned address. -/
def proB (e n : Nat) : Nat := min n (e % 4)

theorem proB_spec (e n : Nat) (h : n ≤ e) : proB e n ≤ n ∧ (∀ i, i < proB e n → (e - i) % 4 ≠ 0) ∧
    ((e - proB e n) % 4 = 0 ∨ proB e n = n) := by
  unfold proB
  refine ⟨by omega, fun i hi => by omega, by omega⟩

theorem cp3_bwd {m : Mem} {dst src n : Nat} (hb : Bytes m) (hf : BwdOk dst src n)
    (hs : Acc m src n) (hd : Acc m dst n) :
    Term (fun fuel => cp3 cpByteB cpWordB fuel ⟨dst + n, src + n, n, m⟩) (copied m dst src n) := by
  obtain ⟨p1, p2, p3⟩ := proB_spec (dst + n) n (by omega)
  unfold cp3
  refine Term.bind (Term.while (proB (dst + n) n)
    (fun i => ⟨dst + n - i, src + n - i, n - i, copied m (dst + n - i) (src + n - i) i⟩)
    ?_ ?_ ?_ ?_) ?_
  · simp [copied_zero]
  · intro i hi
    have := p2 i hi
    simp only [cpUnaligned, Out.ok.injEq, decide_eq_true_eq]; omega
  · intro i hi
    rw [cpByteB_ok hf (by omega) hs hd]
    simp only [Nat.sub_sub]
  · simp only [cpUnaligned, Out.ok.injEq, decide_eq_false_iff_not]; omega
  refine Term.bind (Term.while ((n - proB (dst + n) n) / 4)
    (fun i => ⟨dst + n - (proB (dst + n) n + 4 * i), src + n - (proB (dst + n) n + 4 * i),
      n - (proB (dst + n) n + 4 * i),
      copied m (dst + n - (proB (dst + n) n + 4 * i)) (src + n - (proB (dst + n) n + 4 * i))
        (proB (dst + n) n + 4 * i)⟩) ?_ ?_ ?_ ?_) ?_
  · simp
  · intro i hi
    simp only [cpBig, Out.ok.injEq, decide_eq_true_eq]; omega
  · intro i hi
    rw [cpWordB_ok hb hf (by omega) hs hd]
    simp only [Nat.sub_sub]; rfl
  · simp only [cpBig, Out.ok.injEq, decide_eq_false_iff_not]; omega
  generalize hq : proB (dst + n) n + 4 * ((n - proB (dst + n) n) / 4) = q
  refine Term.bind (Term.while (n - q)
    (fun i => ⟨dst + n - (q + i), src + n - (q + i), n - (q + i),
      copied m (dst + n - (q + i)) (src + n - (q + i)) (q + i)⟩) ?_ ?_ ?_ ?_) ?_
  · simp
  · intro i hi
    simp only [cpSome, Out.ok.injEq, decide_eq_true_eq]; omega
  · intro i hi
    rw [cpByteB_ok hf (by omega) hs hd]
    simp only [Nat.sub_sub]; rfl
  · simp only [cpSome, Out.ok.injEq, decide_eq_false_iff_not]; omega
  have : q + (n - q) = n := by omega
  simp only [this, Nat.add_sub_cancel]
  exact Term.pure _

theorem cp1_bwd {m : Mem} {dst src n : Nat} (hf : BwdOk dst src n)
    (hs : Acc m src n) (hd : Acc m dst n) :
    Term (fun fuel => cp1 cpByteB fuel ⟨dst + n, src + n, n, m⟩) (copied m dst src n) := by
  unfold cp1
  refine Term.bind (Term.while n
    (fun i => ⟨dst + n - i, src + n - i, n - i, copied m (dst + n - i) (src + n - i) i⟩)
    ?_ ?_ ?_ ?_) ?_
  · simp [copied_zero]
  · intro i hi
    simp only [cpSome, Out.ok.injEq, decide_eq_true_eq]; omega
  · intro i hi
    rw [cpByteB_ok hf (by omega) hs hd]
    simp only [Nat.sub_sub]
  · simp only [cpSome, Out.ok.injEq, decide_eq_false_iff_not]; omega
  simp only [Nat.add_sub_cancel]
  exact Term.pure _

/-- C40 (memcpy): for non-overlapping ranges (also for `dst` at or below `src`, overlapping or
not), exactly the destination range changes, to the bytes of the source. -/
theorem C40_memcpy (m : Mem) (dst src size : Nat) (hb : Bytes m)
    (hov : dst ≤ src ∨ src + size ≤ dst) (hs : Acc m src size) (hd : Acc m dst size) :
    Term (memcpy m dst src size) (copied m dst src size) := by
  unfold memcpy
  by_cases h : dst % 4 = src % 4
  · simp only [if_pos h]; exact cp3_fwd hb hov hs hd
  · simp only [if_neg h]; exact cp1_fwd hov hs hd

/-- C40 (wmemcpy), in bytes. -/
theorem C40_wmemcpy (m : Mem) (dst src size : Nat) (hb : Bytes m) (hsz : size * 4 < W)
    (hov : dst ≤ src ∨ src + size * 4 ≤ dst) (hs : Acc m src (size * 4))
    (hd : Acc m dst (size * 4)) :
    Term (wmemcpy m dst src size) (copied m dst src (size * 4)) := by
  unfold wmemcpy
  rw [Nat.mod_eq_of_lt hsz]
  exact C40_memcpy m dst src _ hb hov hs hd

/-- C40 (memmove): for all addresses, lengths and overlaps, exactly the destination range changes,
to the bytes the source range had before the call. -/
theorem C40_memmove (m : Mem) (dst src size : Nat) (hb : Bytes m) (hsw : src + size ≤ W)
    (hdw : dst + size ≤ W) (hs : Acc m src size) (hd : Acc m dst size) :
    Term (memmove m dst src size) (copied m dst src size) := by
  by_cases h0 : size = 0
  · subst h0
    have hf : FwdOk dst src 0 := by simp only [FwdOk]; omega
    unfold memmove
    simp only [Nat.zero_le, if_true]
    by_cases h : dst % 4 = src % 4
    · simp only [if_pos h]; exact cp3_fwd hb hf hs hd
    · simp only [if_neg h]; exact cp1_fwd hf hs hd
  unfold memmove
  have hlt : dst < W ∧ src < W := by omega
  have hm : (dst + W - src) % W = if src ≤ dst then dst - src else dst + W - src := by
    split
    · rw [show dst + W - src = (dst - src) + W by omega, Nat.add_mod_right, Nat.mod_eq_of_lt]
      omega
    · exact Nat.mod_eq_of_lt (by omega)
  rw [hm]
  by_cases hc : size ≤ if src ≤ dst then dst - src else dst + W - src
  · have hf : FwdOk dst src size := by
      simp only [FwdOk]
      split at hc <;> omega
    simp only [if_pos hc]
    by_cases h : dst % 4 = src % 4
    · simp only [if_pos h]; exact cp3_fwd hb hf hs hd
    · simp only [if_neg h]; exact cp1_fwd hf hs hd
  · have hf : BwdOk dst src size := by
      simp only [BwdOk]
      split at hc <;> omega
    simp only [if_neg hc]
    by_cases h : dst % 4 = src % 4
    · simp only [if_pos h]; exact cp3_bwd hb hf hs hd
    · simp only [if_neg h]; exact cp1_bwd hf hs hd

/-! ## Searches -/

/-- C40 (memchr, wmemchr), found: the address of the first equal element; the elements after it
need not be accessible. -/
theorem C40_memchr_found (w : Nat) (m : Mem) (mem find size i : Nat) (hi : i < size)
    (hlt : ∀ j, j < i → ∃ v, m (mem + j) = some v ∧ v ≠ find % 2 ^ w)
    (heq : m (mem + i) = some (find % 2 ^ w)) :
    Term (memchr w m mem find size) (some (mem + i)) := by
  refine Term.iter i (fun j => (mem + j, size - j)) rfl ?_ ?_
  · intro j hj
    obtain ⟨v, hv, hne⟩ := hlt j hj
    simp only [if_pos (show 0 < size - j by omega), ld_ok hv, Out.bind, if_neg hne, Nat.sub_sub,
      Nat.add_assoc]
  · simp only [if_pos (show 0 < size - i by omega), ld_ok heq, Out.bind, if_true]

/-- C40 (memchr, wmemchr), not found: NULL. -/
theorem C40_memchr_none (w : Nat) (m : Mem) (mem find size : Nat)
    (h : ∀ j, j < size → ∃ v, m (mem + j) = some v ∧ v ≠ find % 2 ^ w) :
    Term (memchr w m mem find size) none := by
  refine Term.iter size (fun j => (mem + j, size - j)) rfl ?_ ?_
  · intro j hj
    obtain ⟨v, hv, hne⟩ := h j hj
    simp only [if_pos (show 0 < size - j by omega), ld_ok hv, Out.bind, if_neg hne, Nat.sub_sub,
      Nat.add_assoc]
  · simp only [if_neg (show ¬ 0 < size - size by omega)]

/-- C40 (memrchr), found: the address of the last equal byte. -/
theorem C40_memrchr_found (m : Mem) (mem find size i : Nat) (hi : i < size)
    (hgt : ∀ j, i < j → j < size → ∃ v, m (mem + j) = some v ∧ v ≠ find % 256)
    (heq : m (mem + i) = some (find % 256)) :
    Term (memrchr m mem find size) (some (mem + i)) := by
  refine Term.iter (size - 1 - i) (fun j => (mem + size - j, size - j)) rfl ?_ ?_
  · intro j hj
    obtain ⟨v, hv, hne⟩ := hgt (size - j - 1) (by omega) (by omega)
    rw [show mem + (size - j - 1) = mem + size - (j + 1) by omega] at hv
    simp only [if_pos (show 0 < size - j by omega), Nat.sub_sub, ld_ok hv, Out.bind, if_neg hne]
  · simp only [if_pos (show 0 < size - (size - 1 - i) by omega),
      show mem + size - (size - 1 - i) - 1 = mem + i by omega, ld_ok heq, Out.bind, if_true]

/-- C40 (memrchr), not found: NULL. -/
theorem C40_memrchr_none (m : Mem) (mem find size : Nat)
    (h : ∀ j, j < size → ∃ v, m (mem + j) = some v ∧ v ≠ find % 256) :
    Term (memrchr m mem find size) none := by
  refine Term.iter size (fun j => (mem + size - j, size - j)) rfl ?_ ?_
  · intro j hj
    obtain ⟨v, hv, hne⟩ := h (size - j - 1) (by omega)
    rw [show mem + (size - j - 1) = mem + size - (j + 1) by omega] at hv
    simp only [if_pos (show 0 < size - j by omega), Nat.sub_sub, ld_ok hv, Out.bind, if_neg hne]
  · simp only [if_neg (show ¬ 0 < size - size by omega)]

/-- C40 (rawmemchr): the address of the first equal byte. -/
theorem C40_rawmemchr (m : Mem) (mem find i : Nat)
    (hlt : ∀ j, j < i → ∃ v, m (mem + j) = some v ∧ v ≠ find % 256)
    (heq : m (mem + i) = some (find % 256)) :
    Term (rawmemchr m mem find) (mem + i) := by
  refine Term.iter i (fun j => mem + j) rfl ?_ ?_
  · intro j hj
    obtain ⟨v, hv, hne⟩ := hlt j hj
    simp only [ld_ok hv, Out.bind, if_neg hne, Nat.add_assoc]
  · simp only [ld_ok heq, Out.bind, if_true]

/-! ## Comparisons -/

/-- C40 (memcmp), equal ranges: zero. -/
theorem C40_memcmp_eq (m : Mem) (p1 p2 size : Nat)
    (h : ∀ j, j < size → ∃ v, m (p1 + j) = some v ∧ m (p2 + j) = some v) :
    Term (memcmp m p1 p2 size) 0 := by
  refine Term.iter size (fun j => (p1 + j, p2 + j, size - j)) rfl ?_ ?_
  · intro j hj
    obtain ⟨v, h1, h2⟩ := h j hj
    simp only [if_pos (show 0 < size - j by omega), ld_ok h1, ld_ok h2, Out.bind, Int.sub_self,
      ne_eq, not_true_eq_false, if_false, Nat.sub_sub, Nat.add_assoc]
  · simp only [if_neg (show ¬ 0 < size - size by omega)]

/-- C40 (memcmp), first difference at `i`: a result with the sign of the difference as unsigned
bytes; the bytes after it need not be accessible. -/
theorem C40_memcmp_diff (m : Mem) (p1 p2 size i a b : Nat) (hi : i < size)
    (h : ∀ j, j < i → ∃ v, m (p1 + j) = some v ∧ m (p2 + j) = some v)
    (ha : m (p1 + i) = some a) (hb : m (p2 + i) = some b) (hne : a ≠ b) :
    ∃ r, Term (memcmp m p1 p2 size) r ∧ (r < 0 ↔ a < b) ∧ (0 < r ↔ b < a) := by
  refine ⟨(a : Int) - b, ?_, by omega, by omega⟩
  refine Term.iter i (fun j => (p1 + j, p2 + j, size - j)) rfl ?_ ?_
  · intro j hj
    obtain ⟨v, h1, h2⟩ := h j hj
    simp only [if_pos (show 0 < size - j by omega), ld_ok h1, ld_ok h2, Out.bind, Int.sub_self,
      ne_eq, not_true_eq_false, if_false, Nat.sub_sub, Nat.add_assoc]
  · simp only [if_pos (show 0 < size - i by omega), ld_ok ha, ld_ok hb, Out.bind,
      if_pos (show (a : Int) - b ≠ 0 by omega)]

theorem wdiff_self (v : Nat) : wdiff v v = .ok 0 := by
  simp [wdiff]

/-- C40 (wmemcmp), equal ranges: zero. -/
theorem C40_wmemcmp_eq (m : Mem) (p1 p2 size : Nat)
    (h : ∀ j, j < size → ∃ v, m (p1 + j) = some v ∧ m (p2 + j) = some v) :
    Term (wmemcmp m p1 p2 size) 0 := by
  refine Term.iter size (fun j => (p1 + j, p2 + j, size - j)) rfl ?_ ?_
  · intro j hj
    obtain ⟨v, h1, h2⟩ := h j hj
    simp only [if_pos (show 0 < size - j by omega), ld_ok h1, ld_ok h2, Out.bind, wdiff_self,
      ne_eq, not_true_eq_false, if_false, Nat.sub_sub, Nat.add_assoc]
  · simp only [if_neg (show ¬ 0 < size - size by omega)]

/-- C40 (wmemcmp), first difference at `i`.  Partial: only when the difference of the two elements
is an `int`, for instance when both are non-negative; `C40_wmemcmp_overflow` shows the full
statement fails. -/
theorem C40_wmemcmp_diff_partial (m : Mem) (p1 p2 size i a b : Nat) (hi : i < size)
    (h : ∀ j, j < i → ∃ v, m (p1 + j) = some v ∧ m (p2 + j) = some v)
    (ha : m (p1 + i) = some a) (hb : m (p2 + i) = some b) (hne : wval a ≠ wval b)
    (hr : -2 ^ 31 ≤ wval a - wval b ∧ wval a - wval b < 2 ^ 31) :
    ∃ r, Term (wmemcmp m p1 p2 size) r ∧ (r < 0 ↔ wval a < wval b) ∧ (0 < r ↔ wval b < wval a) := by
  refine ⟨wval a - wval b, ?_, by omega, by omega⟩
  refine Term.iter i (fun j => (p1 + j, p2 + j, size - j)) rfl ?_ ?_
  · intro j hj
    obtain ⟨v, h1, h2⟩ := h j hj
    simp only [if_pos (show 0 < size - j by omega), ld_ok h1, ld_ok h2, Out.bind, wdiff_self,
      ne_eq, not_true_eq_false, if_false, Nat.sub_sub, Nat.add_assoc]
  · simp only [if_pos (show 0 < size - i by omega), ld_ok ha, ld_ok hb, Out.bind, wdiff,
      if_pos hr, if_pos (show wval a - wval b ≠ 0 by omega)]

/-- C40: the full statement fails for wmemcmp.  Comparing the one element `0x7fffffff` with the one
element `-1` computes `0x7fffffff - (-1)`, which overflows `int` (with wrap-around: a negative
result though the first is the larger). -/
theorem C40_wmemcmp_overflow :
    Faults (wmemcmp (fun a => if a = 0 then some 0x7fffffff else if a = 1 then some 0xffffffff
      else none) 0 1 1) := by
  refine ⟨1, fun n hn => ?_⟩
  obtain ⟨n, rfl⟩ : ∃ k, n = k + 1 := ⟨n - 1, by omega⟩
  rfl

/-! ## Concrete cases -/

/-- Eleven accessible bytes 1..11 at 1001. -/
def exM : Mem := fun a => if 1001 ≤ a ∧ a < 1012 then some (a - 1000) else none

example : (memmove exM 1005 1001 7 20).bind (fun m => .ok ((List.range 13).map fun i => m (1000 + i)))
    = .ok [none, some 1, some 2, some 3, some 4, some 1, some 2, some 3, some 4, some 5, some 6,
        some 7, none] := by decide +kernel
example : (memmove exM 1001 1004 7 20).bind (fun m => .ok ((List.range 13).map fun i => m (1000 + i)))
    = .ok [none, some 4, some 5, some 6, some 7, some 8, some 9, some 10, some 8, some 9, some 10,
        some 11, none] := by decide +kernel
/-- The memcpy that goes forward would be wrong there. -/
example : (memcpy exM 1005 1001 7 20).bind (fun m => .ok ((List.range 13).map fun i => m (1000 + i)))
    = .ok [none, some 1, some 2, some 3, some 4, some 1, some 2, some 3, some 4, some 1, some 2,
        some 3, none] := by decide +kernel
example : (memset exM 1002 0x1ff 8 20).bind (fun m => .ok ((List.range 13).map fun i => m (1000 + i)))
    = .ok [none, some 1, some 255, some 255, some 255, some 255, some 255, some 255, some 255,
        some 255, some 10, some 11, none] := by decide +kernel
example : Acc exM 1001 11 := by
  intro i hi; simp only [exM]; rw [if_pos (by omega)]; simp
example : Bytes exM := by
  intro a v h
  simp only [exM] at h
  split at h
  · simp only [Option.some.injEq] at h; omega
  · cases h
/-- A range reaching past the accessible bytes faults. -/
example : (memset exM 1002 0 11 20).bind (fun _ => .ok ()) = .fault := by decide +kernel
example : memchr 8 exM 1001 0x105 11 20 = .ok (some 1005) := by decide +kernel
example : memrchr exM 1001 3 11 20 = .ok (some 1003) := by decide +kernel
example : memcmp exM 1001 1002 5 20 = .ok (-1) := by decide +kernel

end Verif.Libc
