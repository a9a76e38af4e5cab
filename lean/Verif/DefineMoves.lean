import Verif.DefineProps
import Verif.DefineSpec

/-
C45: the shadow of a moved byte is that of the byte it comes from.
-/

namespace Verif.Define

open Classical

/-- The forms of an instruction: opcode and immediate, whether the register destination
is described as written in part, the operands with the shadows `src`, and the
number of destination bytes.  Operand sizes are what the slow path gets from
DynamoRIO (slowpath.c:700-746); the sizes for which the code is wrong are not here,
see the theorems after `C45_moves_partial`. -/
inductive Runs : Move → Ins → Bool → (Nat → Nat → Sh) → List Src → Nat → Prop
  | mov (n m v : Nat) (r d fl p src) : n ≤ m →
    Runs (.mov n) ⟨.other, v, d, fl⟩ p src [⟨0, r, n, src 0⟩] m
  | xchg (n v : Nat) (r r' d p src) :
    Runs (.xchg n) ⟨.xchg, v, d, false⟩ p src [⟨0, r, n, src 0⟩, ⟨1, r', n, src 1⟩] (2 * n)
  | bswap (n v : Nat) (p src) :
    Runs (.bswap n) ⟨.bswap, v, true, false⟩ p src [⟨0, true, n, src 0⟩] n
  | unpackLow (n w v : Nat) (r p src) : (n = 8 ∨ n = 16) →
    (w = 1 ∨ w = 2 ∨ w = 4 ∨ w = 8) → 2 * w ≤ n →
    Runs (.unpackLow n w) ⟨.punpckl w, v, true, false⟩ p src
      [⟨0, r, n, src 0⟩, ⟨1, true, n, src 1⟩] n
  | unpackHigh (n w v : Nat) (r p src) : (n = 8 ∨ n = 16) →
    (w = 1 ∨ w = 2 ∨ w = 4 ∨ w = 8) → 2 * w ≤ n →
    Runs (.unpackHigh n w) ⟨.punpckh w, v, true, false⟩ p src
      [⟨0, r, n, src 0⟩, ⟨1, true, n, src 1⟩] n
  | shufps (imm : Nat) (r p src) :
    Runs (.shufps imm) ⟨.shufps, imm, true, false⟩ p src
      [⟨0, r, 16, src 0⟩, ⟨2, true, 16, src 2⟩] 16
  | byteRight (imm k : Nat) (p src) :
    Runs (.byteRight imm) ⟨.psrldq, imm, true, false⟩ p src [⟨k, true, 16, src 0⟩] 16
  | byteLeft (imm k : Nat) (p src) :
    Runs (.byteLeft imm) ⟨.pslldq, imm, true, false⟩ p src [⟨k, true, 16, src 0⟩] 16
  /-- the immediate is not masked by the code: `imm * w < 16` -/
  | extract (w imm n : Nat) (d src) : (w = 1 ∨ w = 2 ∨ w = 4) → imm * w < 16 → w ≤ n →
    Runs (.extract w imm) ⟨.pextr w, imm, d, false⟩ false src [⟨0, true, 16, src 0⟩] n
  | insert (w imm n : Nat) (r src) : (w = 1 ∨ w = 2 ∨ w = 4) → imm * w < 16 → w ≤ n → n ≤ 4 →
    Runs (.insert w imm) ⟨.pinsr w, imm, true, false⟩ true src [⟨0, r, n, src 0⟩] 16
  /-- no zeroed element -/
  | insertps (imm : Nat) (r : Bool) (src) : imm < 256 → imm % 16 = 0 →
    Runs (.insertps imm !r) ⟨.insertps, imm, true, false⟩ true src
      [⟨0, r, if r then 16 else 4, src 0⟩] 16
  /-- movlhps -/
  | toHigh (v : Nat) (src) :
    Runs .toHigh ⟨.movhps, v, true, false⟩ true src [⟨0, true, 16, src 0⟩] 16
  /-- movhps to memory -/
  | store (v : Nat) (p src) :
    Runs .fromHigh ⟨.movhps, v, false, false⟩ p src [⟨0, true, 16, src 0⟩] 8
  /-- movhlps, operand described with 16 bytes -/
  | movhlps (v : Nat) (p src) :
    Runs .fromHigh ⟨.movlps, v, true, false⟩ p src [⟨0, true, 16, src 0⟩] 8
  /-- movlps from memory and to memory -/
  | low (v n : Nat) (r p src) : 8 ≤ n →
    Runs .low ⟨.movlps, v, !r, false⟩ p src [⟨0, r, n, src 0⟩] 8

theorem result_one {I : Ins} (hw : I.op.ok) (part : Bool) (prior : Nat → Sh) {xs : List Src}
    {j : Nat} (x : Src) (hx : x ∈ xs) (b : Nat) (hb : b < x.size)
    (hf : flow I x.num x.size x.reg b j)
    (hu : ∀ y ∈ xs, ∀ c < y.size, flow I y.num y.size y.reg c j → y.sh c = x.sh b) :
    result I part prior xs j = norm (x.sh b) := by
  rw [result_eq I hw, if_pos ⟨x, hx, b, hb, Or.inl hf⟩, norm]
  by_cases h : x.sh b = .undef
  · rw [if_pos ⟨x, hx, b, hb, hf, h⟩, if_pos h]
  · rw [if_neg, if_neg h]
    rintro ⟨y, hy, c, hc, hfc, hs⟩
    exact h ((hu y hy c hc hfc).symm.trans hs)

theorem result_none {I : Ins} (hw : I.op.ok) (part : Bool) (prior : Nat → Sh) {xs : List Src}
    {j : Nat} (h : ∀ y ∈ xs, ∀ c < y.size, ¬ (flow I y.num y.size y.reg c j ∨ fill I c j)) :
    result I part prior xs j =
      if subregNonlow I.op ∧ I.dstReg ∧ part then prior j else .defined := by
  rw [result_eq I hw, if_neg]
  rintro ⟨y, hy, c, hc, hf⟩
  exact h y hy c hc hf

/-- C45: for every form in `Runs`, every shadow of the operands and every byte of the
destination, the new shadow is that of the byte the processor copies there; it is
defined where the processor writes zero, and unchanged where it writes nothing. -/
theorem C45_moves_partial {m : Move} {I : Ins} {part : Bool} {src : Nat → Nat → Sh}
    {xs : List Src} {n : Nat} (h : Runs m I part src xs n) (prior : Nat → Sh) (j : Nat)
    (hj : j < n) : result I part prior xs j = want m src prior j := by
  cases h with
  | mov n m v r d fl p _ hn =>
    simp only [want, Move.org]
    by_cases h : j < n
    · rw [if_pos h]
      exact result_one (by trivial) _ _ ⟨0, r, n, src 0⟩ (by simp) j h rfl
        (by simp [flow]; intros; simp_all)
    · rw [if_neg h, result_none (by trivial)]
      · simp [subregNonlow]
      · simp [flow, fill]; intros; omega
  | xchg n v r r' d p _ =>
    simp only [want, Move.org]
    by_cases h : j < n
    · rw [if_pos h]
      refine result_one (by trivial) _ _ ⟨1, r', n, src 1⟩ (by simp) j h (by simp [flow]) ?_
      simp only [List.mem_cons, List.not_mem_nil, or_false]
      rintro y (rfl | rfl) c hc hf <;> simp only [flow] at hf hc ⊢
      · omega
      · congr 1; omega
    · rw [if_neg h]
      refine result_one (by trivial) _ _ ⟨0, r, n, src 0⟩ (by simp) (j - n)
        (by show j - n < n; omega) (by show j = n * (1 - 0) + (j - n); omega) ?_
      simp only [List.mem_cons, List.not_mem_nil, or_false]
      rintro y (rfl | rfl) c hc hf <;> simp only [flow] at hf hc ⊢
      · congr 1; omega
      · omega
  | bswap n v p _ =>
    simp only [want, Move.org]
    refine result_one (by trivial) _ _ ⟨0, true, n, src 0⟩ (by simp) (n - 1 - j)
      (by show n - 1 - j < n; omega) (by show j = n - 1 - (n - 1 - j); omega) ?_
    simp only [List.mem_cons, List.not_mem_nil, or_false]
    rintro y rfl c hc hf
    simp only [flow] at hf hc ⊢
    congr 1; omega
  | unpackLow n w v r p _ hn hw h2 =>
    simp only [want, Move.org]
    have hw0 : 0 < w := by omega
    by_cases h : j / w % 2 = 0
    · simp only [h, if_true]
      refine result_one (I := ⟨.punpckl w, v, true, false⟩) hw0 _ _ ⟨1, true, n, src 1⟩ (by simp)
        (j / w / 2 * w + j % w) ?_ ?_ ?_
      · rcases hn with rfl | rfl <;> rcases hw with rfl | rfl | rfl | rfl <;>
          simp only [] <;> omega
      · rcases hn with rfl | rfl <;> rcases hw with rfl | rfl | rfl | rfl <;>
          simp only [flow] <;> omega
      · simp only [List.mem_cons, List.not_mem_nil, or_false]
        rintro y (rfl | rfl) c hc hf <;> simp only [flow] at hf hc ⊢
        · exfalso
          rcases hn with rfl | rfl <;> rcases hw with rfl | rfl | rfl | rfl <;> omega
        · congr 1
          rcases hn with rfl | rfl <;> rcases hw with rfl | rfl | rfl | rfl <;> omega
    · simp only [h, if_false]
      refine result_one (I := ⟨.punpckl w, v, true, false⟩) hw0 _ _ ⟨0, r, n, src 0⟩ (by simp)
        (j / w / 2 * w + j % w) ?_ ?_ ?_
      · rcases hn with rfl | rfl <;> rcases hw with rfl | rfl | rfl | rfl <;>
          simp only [] <;> omega
      · rcases hn with rfl | rfl <;> rcases hw with rfl | rfl | rfl | rfl <;>
          simp only [flow] <;> omega
      · simp only [List.mem_cons, List.not_mem_nil, or_false]
        rintro y (rfl | rfl) c hc hf <;> simp only [flow] at hf hc ⊢
        · congr 1
          rcases hn with rfl | rfl <;> rcases hw with rfl | rfl | rfl | rfl <;> omega
        · exfalso
          rcases hn with rfl | rfl <;> rcases hw with rfl | rfl | rfl | rfl <;> omega
  | unpackHigh n w v r p _ hn hw h2 =>
    simp only [want, Move.org]
    have hw0 : 0 < w := by omega
    by_cases h : j / w % 2 = 0
    · simp only [h, if_true]
      refine result_one (I := ⟨.punpckh w, v, true, false⟩) hw0 _ _ ⟨1, true, n, src 1⟩ (by simp)
        (n / 2 + j / w / 2 * w + j % w) ?_ ?_ ?_
      · rcases hn with rfl | rfl <;> rcases hw with rfl | rfl | rfl | rfl <;>
          simp only [] <;> omega
      · rcases hn with rfl | rfl <;> rcases hw with rfl | rfl | rfl | rfl <;>
          simp only [flow] <;> omega
      · simp only [List.mem_cons, List.not_mem_nil, or_false]
        rintro y (rfl | rfl) c hc hf <;> simp only [flow] at hf hc ⊢
        · exfalso
          rcases hn with rfl | rfl <;> rcases hw with rfl | rfl | rfl | rfl <;> omega
        · congr 1
          rcases hn with rfl | rfl <;> rcases hw with rfl | rfl | rfl | rfl <;> omega
    · simp only [h, if_false]
      refine result_one (I := ⟨.punpckh w, v, true, false⟩) hw0 _ _ ⟨0, r, n, src 0⟩ (by simp)
        (n / 2 + j / w / 2 * w + j % w) ?_ ?_ ?_
      · rcases hn with rfl | rfl <;> rcases hw with rfl | rfl | rfl | rfl <;>
          simp only [] <;> omega
      · rcases hn with rfl | rfl <;> rcases hw with rfl | rfl | rfl | rfl <;>
          simp only [flow] <;> omega
      · simp only [List.mem_cons, List.not_mem_nil, or_false]
        rintro y (rfl | rfl) c hc hf <;> simp only [flow] at hf hc ⊢
        · congr 1
          rcases hn with rfl | rfl <;> rcases hw with rfl | rfl | rfl | rfl <;> omega
        · exfalso
          rcases hn with rfl | rfl <;> rcases hw with rfl | rfl | rfl | rfl <;> omega
  | shufps imm r p _ =>
    simp only [want, Move.org]
    have key : ∀ (o : Nat) (x : Src) (b : Nat), x ∈ [(⟨0, r, 16, src 0⟩ : Src), ⟨2, true, 16, src 2⟩] →
        b < 16 → x.sh b = src o b → flow ⟨.shufps, imm, true, false⟩ x.num x.size x.reg b j →
        (∀ y ∈ [(⟨0, r, 16, src 0⟩ : Src), ⟨2, true, 16, src 2⟩], ∀ c < 16,
          flow ⟨.shufps, imm, true, false⟩ y.num y.size y.reg c j → y.num = x.num ∧ c = b) →
        result ⟨.shufps, imm, true, false⟩ part prior [⟨0, r, 16, src 0⟩, ⟨2, true, 16, src 2⟩] j
          = norm (src o b) := by
      intro o x b hx hb ho hf hu
      have hsz : ∀ y ∈ [(⟨0, r, 16, src 0⟩ : Src), ⟨2, true, 16, src 2⟩], y.size = 16 := by simp
      rw [← ho]
      refine result_one (by trivial) _ _ x hx b (by rw [hsz x hx]; exact hb) hf ?_
      intro y hy c hc hfc
      obtain ⟨h1, h2⟩ := hu y hy c (by rw [hsz y hy] at hc; exact hc) hfc
      have : y = x := by
        simp only [List.mem_cons, List.not_mem_nil, or_false] at hx hy
        rcases hx with rfl | rfl <;> rcases hy with rfl | rfl <;> simp_all
      rw [this, h2]
    by_cases h4 : j < 4
    · simp only [h4, if_true]
      refine key 2 ⟨2, true, 16, src 2⟩ _ (by simp) (by omega) rfl (by simp [flow]; omega) ?_
      simp only [List.mem_cons, List.not_mem_nil, or_false]
      rintro y (rfl | rfl) c hc hf <;> simp [flow] at hf ⊢ <;> omega
    by_cases h8 : j < 8
    · simp only [h4, h8, if_true, if_false]
      refine key 2 ⟨2, true, 16, src 2⟩ _ (by simp) (by omega) rfl (by simp [flow]; omega) ?_
      simp only [List.mem_cons, List.not_mem_nil, or_false]
      rintro y (rfl | rfl) c hc hf <;> simp [flow] at hf ⊢ <;> omega
    by_cases h12 : j < 12
    · simp only [h4, h8, h12, if_true, if_false]
      refine key 0 ⟨0, r, 16, src 0⟩ _ (by simp) (by omega) rfl (by simp [flow]; omega) ?_
      simp only [List.mem_cons, List.not_mem_nil, or_false]
      rintro y (rfl | rfl) c hc hf <;> simp [flow] at hf ⊢ <;> omega
    · simp only [h4, h8, h12, if_false]
      refine key 0 ⟨0, r, 16, src 0⟩ _ (by simp) (by omega) rfl (by simp [flow]; omega) ?_
      simp only [List.mem_cons, List.not_mem_nil, or_false]
      rintro y (rfl | rfl) c hc hf <;> simp [flow] at hf ⊢ <;> omega
  | byteRight imm k p _ =>
    simp only [want, Move.org]
    by_cases h : j + imm < 16
    · rw [if_pos h]
      refine result_one (by trivial) _ _ ⟨k, true, 16, src 0⟩ (by simp) (j + imm) h
        (by simp only [flow]; omega) ?_
      simp only [List.mem_cons, List.not_mem_nil, or_false]
      rintro y rfl c hc hf
      simp only [flow] at hf hc ⊢
      congr 1; omega
    · rw [if_neg h, result_none (by trivial)]
      · simp [subregNonlow]
      · simp only [List.mem_cons, List.not_mem_nil, or_false]
        rintro y rfl c hc hf
        simp only [flow, fill, or_false] at hf hc
        omega
  | byteLeft imm k p _ =>
    simp only [want, Move.org]
    by_cases h : imm ≤ j
    · rw [if_pos h]
      refine result_one (by trivial) _ _ ⟨k, true, 16, src 0⟩ (by simp) (j - imm)
        (by show j - imm < 16; omega) (by simp only [flow]; omega) ?_
      simp only [List.mem_cons, List.not_mem_nil, or_false]
      rintro y rfl c hc hf
      simp only [flow] at hf hc ⊢
      congr 1; omega
    · rw [if_neg h, result_none (by trivial)]
      · simp [subregNonlow]
      · simp only [List.mem_cons, List.not_mem_nil, or_false]
        rintro y rfl c hc hf
        simp only [flow, fill, or_false] at hf hc
        omega
  | extract w imm n d _ hw hi hn =>
    simp only [want, Move.org]
    have hw0 : 0 < w := by omega
    have hm : imm % (16 / w) = imm := by
      rcases hw with rfl | rfl | rfl <;> omega
    rw [hm]
    by_cases h : j < w
    · rw [if_pos h]
      refine result_one (I := ⟨.pextr w, imm, d, false⟩) hw0 _ _ ⟨0, true, 16, src 0⟩ (by simp)
        (imm * w + j) ?_ ?_ ?_
      · rcases hw with rfl | rfl | rfl <;> simp only [] <;> omega
      · rcases hw with rfl | rfl | rfl <;> simp only [flow] <;> omega
      · simp only [List.mem_cons, List.not_mem_nil, or_false]
        rintro y rfl c hc hf
        simp only [flow] at hf hc ⊢
        congr 1
        rcases hw with rfl | rfl | rfl <;> omega
    · rw [if_neg h, result_none (I := ⟨.pextr w, imm, d, false⟩) hw0]
      · simp
      · simp only [List.mem_cons, List.not_mem_nil, or_false]
        rintro y rfl c hc hf
        simp only [flow, fill, or_false] at hf hc
        have := Nat.mod_lt c hw0
        omega
  | insert w imm n r _ hw hi hn h4 =>
    simp only [want, Move.org]
    have hw0 : 0 < w := by omega
    have hm : imm % (16 / w) = imm := by
      rcases hw with rfl | rfl | rfl <;> omega
    rw [hm]
    by_cases h : j / w = imm
    · rw [if_pos h]
      refine result_one (I := ⟨.pinsr w, imm, true, false⟩) hw0 _ _ ⟨0, r, n, src 0⟩ (by simp)
        (j % w) ?_ ?_ ?_
      · rcases hw with rfl | rfl | rfl <;> simp only [] <;> omega
      · rcases hw with rfl | rfl | rfl <;> simp only [flow] <;> omega
      · simp only [List.mem_cons, List.not_mem_nil, or_false]
        rintro y rfl c hc hf
        simp only [flow] at hf hc ⊢
        congr 1
        rcases hw with rfl | rfl | rfl <;> omega
    · rw [if_neg h, result_none (I := ⟨.pinsr w, imm, true, false⟩) hw0]
      · simp [subregNonlow]
      · simp only [List.mem_cons, List.not_mem_nil, or_false]
        rintro y rfl c hc hf
        simp only [flow, fill, or_false] at hf hc
        rcases hw with rfl | rfl | rfl <;> omega
  | insertps imm r _ hi hz =>
    simp only [want, Move.org]
    have hbit : ∀ e, e < 4 → imm.testBit e = false := by
      intro e he
      rw [Nat.testBit_eq_decide_div_mod_eq]
      rcases (show e = 0 ∨ e = 1 ∨ e = 2 ∨ e = 3 by omega) with rfl | rfl | rfl | rfl <;>
        simp <;> omega
    have hb := hbit (j / 4) (by omega)
    simp only [hb, Bool.false_eq_true, if_false]
    have hfill : ∀ c, ¬ fill ⟨.insertps, imm, true, false⟩ c j := by
      intro c hf
      simp [fill, hb] at hf
    by_cases h : j / 4 = imm / 16 % 4
    · rw [if_pos h]
      refine result_one (I := ⟨.insertps, imm, true, false⟩) (by trivial) _ _ ⟨0, r, if r then 16 else 4, src 0⟩ (by simp)
        _ ?_ ?_ ?_
      · cases r <;> simp <;> omega
      · cases r <;> simp [flow] <;> omega
      · simp only [List.mem_cons, List.not_mem_nil, or_false]
        rintro y rfl c hc hf
        simp only [flow] at hf hc ⊢
        congr 1
        cases r <;> simp at hf hc ⊢ <;> omega
    · rw [if_neg h, result_none (I := ⟨.insertps, imm, true, false⟩) (by trivial)]
      · simp [subregNonlow]
      · simp only [List.mem_cons, List.not_mem_nil, or_false]
        rintro y rfl c hc (hf | hf)
        · simp only [flow] at hf
          omega
        · exact hfill c hf
  | toHigh v _ =>
    simp only [want, Move.org]
    by_cases h : 8 ≤ j
    · rw [if_pos h]
      refine result_one (by trivial) _ _ ⟨0, true, 16, src 0⟩ (by simp) (j - 8)
        (by show j - 8 < 16; omega) (by simp [flow]; omega) ?_
      simp only [List.mem_cons, List.not_mem_nil, or_false]
      rintro y rfl c hc hf
      simp [flow] at hf hc ⊢
      congr 1; omega
    · rw [if_neg h, result_none (by trivial)]
      · simp [subregNonlow]
      · simp only [List.mem_cons, List.not_mem_nil, or_false]
        rintro y rfl c hc hf
        simp [flow, fill] at hf hc
        omega
  | store v p _ =>
    simp only [want, Move.org]
    refine result_one (by trivial) _ _ ⟨0, true, 16, src 0⟩ (by simp) (8 + j)
      (by show 8 + j < 16; omega) (by simp [flow]) ?_
    simp only [List.mem_cons, List.not_mem_nil, or_false]
    rintro y rfl c hc hf
    simp [flow] at hf hc ⊢
    congr 1; omega
  | movhlps v p _ =>
    simp only [want, Move.org]
    refine result_one (by trivial) _ _ ⟨0, true, 16, src 0⟩ (by simp) (8 + j)
      (by show 8 + j < 16; omega) (by simp [flow]) ?_
    simp only [List.mem_cons, List.not_mem_nil, or_false]
    rintro y rfl c hc hf
    simp [flow] at hf hc ⊢
    congr 1; omega
  | low v n r p _ hn =>
    simp only [want, Move.org]
    have hr : ¬ (r = true ∧ (!r) = true) := by cases r <;> simp
    refine result_one (by trivial) _ _ ⟨0, r, n, src 0⟩ (by simp) j
      (by show j < n; omega) (by simp only [flow, hr, if_false]; exact ⟨hj, trivial⟩) ?_
    simp only [List.mem_cons, List.not_mem_nil, or_false]
    rintro y rfl c hc hf
    simp only [flow, hr, if_false] at hf hc ⊢
    rw [hf.2]

/-- C45: what the shadow calls defined does not depend on undefined bytes.  Two runs
whose operands and old destination agree in every byte that is not undefined store
the same byte wherever the new shadow is not undefined. -/
theorem C45_moves_sound_partial {m : Move} {I : Ins} {part : Bool} {src : Nat → Nat → Sh}
    {xs : List Src} {n : Nat} (h : Runs m I part src xs n) (prior : Nat → Sh)
    (a b : Nat → Nat → Nat) (oa ob : Nat → Nat)
    (hs : ∀ o k, src o k ≠ .undef → a o k = b o k) (ho : ∀ k, prior k ≠ .undef → oa k = ob k)
    (j : Nat) (hj : j < n) (hd : result I part prior xs j ≠ .undef) :
    exec m a oa j = exec m b ob j := by
  rw [C45_moves_partial h prior j hj] at hd
  unfold want at hd
  unfold exec
  cases ho' : m.org j with
  | src o k =>
    simp only [ho'] at hd ⊢
    refine hs o k fun hu => hd ?_
    simp [norm, hu]
  | zero => rfl
  | keep =>
    simp only [ho'] at hd ⊢
    exact ho j hd

/-- shufps with immediate 0x1b on a source with one undefined byte: byte 8 of the
destination gets element 1 of the source. -/
example : Runs (.shufps 0x1b) ⟨.shufps, 0x1b, true, false⟩ false
      (fun o b => if o = 0 ∧ b = 4 then .undef else .defined)
      [⟨0, true, 16, fun b => if 0 = 0 ∧ b = 4 then .undef else .defined⟩,
       ⟨2, true, 16, fun b => if 2 = 0 ∧ b = 4 then .undef else .defined⟩] 16 ∧
    (Move.shufps 0x1b).org 8 = .src 0 4 := ⟨Runs.shufps 0x1b true false _, by decide⟩

end Verif.Define
