import Verif.EspFastThms
import Verif.Umbra32Use
/-!
# `and` across blocks, and cases
-/
set_option linter.unusedSimpArgs false
namespace Verif.EspFast
open Umbra32 (Map W W_eq getBlock view Shared Inv S)

section
variable {c : Umbra32.Cfg} (hc : c.Valid) (hm : c.m = 1) (hg4 : c.g = 4) (g : Gen) {esp s0 s1 s2 s3 : Nat}

include hc hm hg4 in
/-- One block of the decreasing loop. -/
theorem pushBlock {m : Map} (hi : Inv c m) {a0 a r n eax ebx : Nat} {fl : Fl} (ha : (a0 + (W - 4)) % W = a)
    (h4 : a % 4 = 0) (h0 : 0 < r) (hr : r ≤ 536870912) (hn : n = min r (a % 65536 / 4 + 1))
    (hns : ¬ Shared c m (getBlock c m (a / 65536))) :
    ∃ eax' ecx edx fl' m', Reaches (prog g)
      (.at (find .loopShadowLookup (prog g)) ⟨eax, W - r, a0, ebx, esp, s0, s1, s2, s3, fl, m⟩)
      (.at (find .pushOneDone (prog g)) ⟨eax', ecx, edx, (W - (r - n)) % W, esp, s0, s1, s2, s3, fl', m'⟩) ∧
      Marked c (UInt8.ofNat (new8 g)) (fun t => a / 4 < t + n ∧ t ≤ a / 4) m m' := by
  have hHe := H_eq
  have hS := S4 hc hm hg4
  have haW : a < W := by rw [← ha]; exact Nat.mod_lt _ (by rw [W_eq]; omega)
  have r0 := lookupNeg g (esp := esp) (s0 := s0) (s1 := s1) (s2 := s2) (s3 := s3) (m := m) (q := W - r) (a0 := a0)
    (a := a) (eax := eax) (ebx := ebx) (fl := fl) (slt_neg' (by rw [W_eq]; omega) (by rw [W_eq]; omega))
    (by rw [W_eq]; omega) ha
  obtain ⟨fl1, r1⟩ := pushEnter hc hm hg4 g (esp := esp) (s0 := s0) (s1 := s1) (s2 := s2) (s3 := s3) hi
    (eax := eax) (ebx := ebx) (fl := .unk) haW h4 h0 (by omega)
  have hb := hi.bound _ (hi.tbl (a / 65536))
  rw [← hn] at r1
  obtain ⟨e1, e2, e3, f, m1, r2, M⟩ := pushUn hc hS g (esp := esp) (s0 := s0) (s1 := s1) (s2 := s2) (s3 := s3)
    (ebx := (W - (r - n)) % W) (by rw [hS] at hb ⊢; omega) (by rw [hS] at hb; omega) n
    (o := a % 65536 / 4 + 1) (eax := a) (fl := fl1) (edx := getBlock c m (a / 65536) + a % 65536 / 4) hi rfl hns
    (by omega) (by rw [hS]; omega) (by omega)
  rw [hS] at M
  exact ⟨e1, e2, e3, f, m1, (r0.trans r1).trans r2, M.congr (fun t => by omega)⟩

/-- Going on with the next block, for `and`: the new stack pointer is added as if it were a difference. -/
theorem nextAnd {m : Map} {q eax ecx edx ebx a : Nat} {fl : Fl} (hty : g.ty = .and)
    (hq : q < 536870912 ∨ (W - 536870912 ≤ q ∧ q < W)) (hq0 : q ≠ 0) (hebx : ebx = q)
    (ha : ((esp + s1) % W + (W - q * 4 % W)) % W = a) :
    ∃ eax' ebx' fl', Reaches (prog g)
      (.at (find .pushOneDone (prog g)) ⟨eax, ecx, edx, ebx, esp, s0, s1, s2, s3, fl, m⟩)
      (.at (find .loopShadowLookup (prog g)) ⟨eax', q, a, ebx', esp, s0, s1, s2, s3, fl', m⟩) := by
  obtain ⟨r, hr⟩ := F_next g
  have hHe := H_eq
  have hsar : sarv (q * 2 ^ 2 % W) 2 = q := by
    unfold sarv
    rw [W_eq] at hq ⊢
    split <;> omega
  refine ⟨eax, ebx, .unk, ?_⟩
  subst hebx
  rw [F_pushDone]
  stp
  refine jz_f rfl hq0 ?_
  stp; stp
  rw [hr]
  rcases g with ⟨ty, d, lv, u, th⟩
  dsimp only at hty
  subst hty
  simp only [nextTail, nextCode, reduceCtorEq, if_false, if_true, List.cons_append, List.nil_append,
    List.tail_cons, decide_true, decide_false, Bool.false_or, Bool.or_false, Bool.false_eq_true]
  stp; stp; stp; stp; stp; stp
  exact regs _ _ _ _ rfl hsar ha rfl (Reaches.refl _ _)

include hc hm hg4 in
/-- **C60, finding.**  With a swap threshold of 128 KB, the change of the stack pointer 0x30004 to 0x20000 by
`and` is handled by the routine, but most of the marked memory is not on the stack: 0x50004 to 0x60004 is
marked as undefined and 0x20000 to 0x30000 is not. -/
theorem C60_and_wrong (hty : g.ty = .and) (hth : g.thresh = 131072) {m : Map} (hi : Inv c m)
    (h3 : ¬ Shared c m (getBlock c m 3)) (h5 : ¬ Shared c m (getBlock c m 5))
    (h6 : ¬ Shared c m (getBlock c m 6)) {eax ra ebx ah : Nat} {o : Bool} (hah : ah < 256) :
    ∃ s', Reaches (prog g)
        (.at (prog g) ⟨eax, 196612 &&& 4294836224, ra, ebx, 196612, s0, s1, s2, s3, .app ah o, m⟩) (.ret ra s') ∧
      (∀ x, 327684 ≤ x → x < 393220 → shadowOf c s'.map x = some (UInt8.ofNat (new8 g))) ∧
      (∀ x, 131072 ≤ x → x < 196608 → shadowOf c s'.map x = shadowOf c m x) := by
  have hHe := H_eq
  rw [show (196612 : Nat) &&& 4294836224 = 131072 by decide]
  have hval : (131072 : Nat) < W := by rw [W_eq]; omega
  have hesp : (196612 : Nat) < W := by rw [W_eq]; omega
  have habs : isAbs g.ty = true := by rw [hty]; rfl
  have hb : base g 196612 = 196612 := by unfold base; rw [if_neg (by rw [hty]; decide)]
  have hd : diff g 196612 131072 = 4294901756 := by rw [diff_abs g habs, W_eq]
  have hsg : sgn (diff g 196612 131072) = -65540 := by
    unfold sgn; rw [hd, if_neg (by omega), W_eq]; rfl
  have hsw : ¬ Swap g 196612 131072 := by
    rintro ⟨-, h | h⟩ <;> rw [hsg, hth] at h <;> omega
  have hq : sarv (diff g 196612 131072) 2 = W - 16385 := by
    unfold sarv; rw [hd, if_neg (by omega), W_eq]
  obtain ⟨e, t2, t3, f, hsv, r1⟩ := entrySave g (eax := eax) (val := 131072) (ra := ra) (ebx := ebx) (esp := 196612)
    (s0 := s0) (s1 := s1) (s2 := s2) (s3 := s3) (o := o) (m := m) hah
  obtain ⟨f2, r2⟩ := (entryTail g (ebx := ebx) (s0 := ra) (s1 := 131072) (s2 := t2) (s3 := t3) (m := m)
    hesp hval (by omega) (eax' := e) (fl := f)).2 hsw (by rw [hd])
  rw [hq, hb] at r2
  rw [hb] at r1
  obtain ⟨a1, a2, a3, a4, m1, r3, M1⟩ := pushBlock hc hm hg4 g (esp := 196612) (s0 := ra) (s1 := 131072) (s2 := t2)
    (s3 := t3) hi (a0 := 196612) (a := 196608) (r := 16385) (n := 1) (eax := e) (ebx := ebx) (fl := f2)
    (by rw [W_eq]) (by omega) (by omega) (by omega) (by decide) (by simpa using h3)
  obtain ⟨b1, b2, b3, r4⟩ := nextAnd g (esp := 196612) (s0 := ra) (s1 := 131072) (s2 := t2) (s3 := t3) (m := m1)
    (q := W - 16384) (eax := a1) (ecx := a2) (edx := a3) (ebx := (W - (16385 - 1)) % W) (a := 393220) (fl := a4) hty
    (Or.inr (by rw [W_eq]; omega)) (by rw [W_eq]; omega) (by rw [W_eq]) (by rw [W_eq])
  obtain ⟨c1, c2, c3, c4, m2, r5, M2⟩ := pushBlock hc hm hg4 g (esp := 196612) (s0 := ra) (s1 := 131072) (s2 := t2)
    (s3 := t3) M1.inv (a0 := 393220) (a := 393216) (r := 16384) (n := 1) (eax := b1) (ebx := b2) (fl := b3)
    (by rw [W_eq]) (by omega) (by omega) (by omega) (by decide) (by rw [M1.blk, M1.shared]; simpa using h6)
  obtain ⟨d1, d2, d3, r6⟩ := nextAnd g (esp := 196612) (s0 := ra) (s1 := 131072) (s2 := t2) (s3 := t3) (m := m2)
    (q := W - 16383) (eax := c1) (ecx := c2) (edx := c3) (ebx := (W - (16384 - 1)) % W) (a := 393216) (fl := c4) hty
    (Or.inr (by rw [W_eq]; omega)) (by rw [W_eq]; omega) (by rw [W_eq]) (by rw [W_eq])
  obtain ⟨g1, g2, g3, g4, m3, r7, M3⟩ := pushBlock hc hm hg4 g (esp := 196612) (s0 := ra) (s1 := 131072) (s2 := t2)
    (s3 := t3) M2.inv (a0 := 393216) (a := 393212) (r := 16383) (n := 16383) (eax := d1) (ebx := d2) (fl := d3)
    (by rw [W_eq]) (by omega) (by omega) (by omega) (by decide)
    (by rw [M2.blk, M2.shared, M1.blk, M1.shared]; simpa using h5)
  have hz : (W - (16383 - 16383)) % W = 0 := by rw [Nat.sub_self, Nat.sub_zero, Nat.mod_self]
  rw [hz] at r7
  have r8 : Reaches (prog g)
      (.at (find .pushOneDone (prog g)) ⟨g1, g2, g3, 0, 196612, ra, 131072, t2, t3, g4, m3⟩)
      (.at (find .loopDone (prog g)) ⟨g1, g2, g3, 0, 196612, ra, 131072, t2, t3, .cmp 0 0, m3⟩) := by
    rw [F_pushDone]
    stp
    exact jz_t rfl rfl (Reaches.refl _ _)
  obtain ⟨f9, -, r9⟩ := doneRun g (ebx := 0) (esp := 196612) (s0 := ra) (s1 := 131072) (m := m3) (eax0 := g1)
    (ecx := g2) (edx := g3) (fl := .cmp 0 0) hsv
  refine ⟨_, (((((((r1.trans r2).trans r3).trans r4).trans r5).trans r6).trans r7).trans r8).trans r9, ?_, ?_⟩
  · intro x hx1 hx2
    show view c m3 (x / 4) = _
    by_cases h : x < 393216
    · exact M3.hit _ (by omega)
    · rw [M3.miss _ (by omega)]
      exact M2.hit _ (by omega)
  · intro x hx1 hx2
    show view c m3 (x / 4) = view c m (x / 4)
    rw [M3.miss _ (by omega), M2.miss _ (by omega), M1.miss _ (by omega)]

end

/-! ## Cases -/

/-- The scale Dr. Memory uses: one shadow byte per four application bytes. -/
def ex4 : Umbra32.Cfg :=
  { m := 1, g := 4, dflt := 0x55, onTouch := true, rz := 0, rzval := 0, faulty := true }

theorem ex4_valid : ex4.Valid := ⟨Or.inl ⟨rfl, Or.inr (Or.inl rfl)⟩, by simp [ex4]⟩

theorem replace_not_oom {c : Umbra32.Cfg} {al : Umbra32.Alloc} {m : Map} {a : Nat}
    (h : ∃ b, al m.live = some b) : (Umbra32.replaceBlock c al m a).2 ≠ .oom := by
  obtain ⟨b, hb⟩ := h
  rw [Umbra32.replaceBlock]
  cases Umbra32.sharedValue c m a with
  | none => simp
  | some v =>
    dsimp only
    rw [Umbra32.createBlock, hb]
    dsimp only
    split <;> simp

theorem ex4_init : ∃ m0, Umbra32.init ex4 Umbra32.bump (fun _ => 0) = some m0 ∧ m0.live = [1310720] := by
  simp [Umbra32.init, Umbra32.createSpecial, Umbra32.lookupSpecial, Umbra32.specialHelper, Umbra32.createBlock,
      Umbra32.bump, Umbra32.initRedzone, ex4]

/-- A map in which block 2 has its own shadow. -/
theorem ex4_map : ∃ m, Inv ex4 m ∧ ¬ Shared ex4 m (getBlock ex4 m 2) := by
  have hg := Umbra32.bump_good ex4_valid (by simp [ex4])
  obtain ⟨m0, h0, hl⟩ := ex4_init
  have hr : Umbra32.Reach ex4 Umbra32.bump m0 := ⟨_, m0, [], h0, by simp, by simp [Umbra32.runOps], rfl⟩
  rcases Umbra32.replaceBlock_spec ex4_valid hg (hr.inv ex4_valid hg) 131072 with h | ⟨-, h1, h2, -⟩
  · exact absurd h (replace_not_oom ⟨1572864, by rw [hl]; rfl⟩)
  · rw [Umbra32.B_eq] at h2
    exact ⟨_, h1, h2⟩

/-- A change that is handled: the stack pointer is moved from 0x20100 down to 0x20000. -/
example : ∃ m, Inv ex4 m ∧ Handled ex4 m ⟨.absolute, false, true, true, 0x9000⟩ 0x20100 0x20000 ∧
    AndOk ⟨.absolute, false, true, true, 0x9000⟩ 0x20100 0x20000 ∧
    InStack ⟨.absolute, false, true, true, 0x9000⟩ 0x20100 0x20000 0x200fc := by
  obtain ⟨m, hi, h2⟩ := ex4_map
  have hd : diff ⟨.absolute, false, true, true, 0x9000⟩ 0x20100 0x20000 = 4294967040 := by
    rw [diff_abs _ rfl, W_eq]
  have hsg : sgn (diff ⟨.absolute, false, true, true, 0x9000⟩ 0x20100 0x20000) = -256 := by
    rw [hd]; unfold sgn; rw [if_neg (by rw [H_eq]; omega), W_eq]; rfl
  have hlow : low ⟨.absolute, false, true, true, 0x9000⟩ 0x20100 0x20000 = 0x20000 := by
    unfold low; rw [hsg]; rfl
  refine ⟨m, hi, ⟨?_, by rw [hd], Or.inr rfl, ?_⟩, fun h => by simp at h, ?_⟩
  · rintro ⟨-, h⟩
    rw [hsg] at h
    dsimp only at h
    omega
  · rintro ⟨x, hx, hin, hs⟩
    unfold InStack at hin
    rw [hsg, hlow] at hin
    rw [W_eq] at hx hin
    rw [show x / 65536 = 2 by omega] at hs
    exact h2 hs
  · unfold InStack
    rw [hsg, hlow, W_eq]; decide

/-- A removal that is handled, and one that is not because the stack pointer is not aligned. -/
example : ∃ m, Inv ex4 m ∧ Handled ex4 m ⟨.positive, false, false, true, 0x9000⟩ 0x20100 0x100 ∧
    ¬ Handled ex4 m ⟨.positive, false, false, true, 0x9000⟩ 0x20102 0x100 := by
  obtain ⟨m, hi, h2⟩ := ex4_map
  have hW := W_eq
  have hd : ∀ e, e < W → diff ⟨.positive, false, false, true, 0x9000⟩ e 0x100 = 0x100 := fun e he =>
    diff_rel _ he (by rw [W_eq]; omega) rfl
  have hsg : sgn 0x100 = 0x100 := by unfold sgn; rw [if_pos (by rw [H_eq]; omega)]; rfl
  refine ⟨m, hi, ⟨fun h => absurd h.1 (by decide), by rw [hd _ (by omega)], Or.inr rfl, ?_⟩, fun h => ?_⟩
  · rintro ⟨x, hx, hin, hs⟩
    unfold InStack low at hin
    rw [hd _ (by omega), hsg] at hin
    simp only [base] at hin
    rw [if_pos (by decide), if_neg (by decide)] at hin
    rw [W_eq] at hx hin
    rw [show x / 65536 = 2 by omega] at hs
    exact h2 hs
  · have := h.2.2.1
    rw [hd _ (by omega)] at this
    simp [base] at this

end Verif.EspFast
