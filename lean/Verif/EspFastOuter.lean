import Verif.EspFastBlocks
/-!
# The whole loops
-/
namespace Verif.EspFast
open Umbra32 (Map W W_eq getBlock view Shared Inv S)

/-- Some dword of the range has its shadow in one of the shared read-only blocks. -/
def Touches (c : Umbra32.Cfg) (m : Map) (a n : Nat) : Prop :=
  ∃ t, InR a n t ∧ Shared c m (getBlock c m (t / 16384))

section
variable {c : Umbra32.Cfg} (hc : c.Valid) (hm : c.m = 1) (hg4 : c.g = 4) (g : Gen) {esp s0 s1 s2 s3 : Nat}
include hc hm hg4

omit hc hm hg4 in
theorem lookupNeg {m : Map} {q a0 a eax ebx : Nat} {fl : Fl} (h : slt 0 q = false) (hq : q ≠ 0)
    (ha : (a0 + (W - 4)) % W = a) : Reaches (prog g)
        (.at (find .loopShadowLookup (prog g)) ⟨eax, q, a0, ebx, esp, s0, s1, s2, s3, fl, m⟩)
        (.at (find .shadowLookup (prog g)) ⟨eax, q, a, ebx, esp, s0, s1, s2, s3, .unk, m⟩) := by
  rw [F_lookupLoop]
  stp
  refine jg_f rfl h ?_
  refine jz_f rfl hq ?_
  stp
  rw [ha]
  stp
  exact Reaches.refl _ _

/-- The increasing loop over all the blocks. -/
theorem popAll (hesp : esp < W) : ∀ (rem : Nat) {m : Map} {a eax ebx : Nat} {fl : Fl}, Inv c m → a < W → a % 4 = 0 →
    0 < rem → rem < 536870912 → (a + 4 * rem) % W = target g esp s1 →
    (g.ty = .and → a % 65536 / 4 + rem ≤ 16384) →
    (¬ Touches c m a rem ∧ ∃ eax' ecx edx ebx' fl' m', Reaches (prog g)
      (.at (find .loopShadowLookup (prog g)) ⟨eax, rem, a, ebx, esp, s0, s1, s2, s3, fl, m⟩)
      (.at (find .loopDone (prog g)) ⟨eax', ecx, edx, ebx', esp, s0, s1, s2, s3, fl', m'⟩) ∧
      Marked c (UInt8.ofNat (unaddr8 g)) (InR a rem) m m') ∨
    (Touches c m a rem ∧ ∃ eax' ecx edx ebx' fl' m' P, Reaches (prog g)
      (.at (find .loopShadowLookup (prog g)) ⟨eax, rem, a, ebx, esp, s0, s1, s2, s3, fl, m⟩)
      (.at (find .slowpath (prog g)) ⟨eax', ecx, edx, ebx', esp, s0, s1, s2, s3, fl', m'⟩) ∧
      Marked c (UInt8.ofNat (unaddr8 g)) P m m' ∧ ∀ t, P t → InR a rem t) := by
  intro rem
  induction rem using Nat.strongRecOn with
  | ind rem ih =>
    intro m a eax ebx fl hi ha h4 h0 hlt htgt hand
    have hS := S4 hc hm hg4
    have hHe := H_eq
    have hb := hi.bound _ (hi.tbl (a / 65536))
    obtain ⟨fl1, r1⟩ := popEnter hc hm hg4 g (esp := esp) (s0 := s0) (s1 := s1) (s2 := s2) (s3 := s3) hi
      (eax := eax) (ebx := ebx) (fl := .cmp rem 0) ha h4 h0 (by omega)
    have r0 : Reaches (prog g)
        (.at (find .loopShadowLookup (prog g)) ⟨eax, rem, a, ebx, esp, s0, s1, s2, s3, fl, m⟩)
        (.at (find .shadowLookup (prog g)) ⟨eax, rem, a, ebx, esp, s0, s1, s2, s3, .cmp rem 0, m⟩) := by
      rw [F_lookupLoop]
      stp
      exact jg_t rfl (slt_pos h0 (by omega)) (Reaches.refl _ _)
    have r01 := r0.trans r1
    have hn0 : 0 < min rem (16384 - a % 65536 / 4) := by omega
    have hnr : min rem (16384 - a % 65536 / 4) ≤ rem := Nat.min_le_left _ _
    have hnroom : min rem (16384 - a % 65536 / 4) ≤ 16384 - a % 65536 / 4 := Nat.min_le_right _ _
    have hnx : min rem (16384 - a % 65536 / 4) = rem ∨
      min rem (16384 - a % 65536 / 4) = 16384 - a % 65536 / 4 := by omega
    generalize min rem (16384 - a % 65536 / 4) = n at *
    generalize hbg : getBlock c m (a / 65536) = b at *
    have hin : ∀ t, t / 16384 = a / 65536 → a / 65536 * 16384 + a % 65536 / 4 ≤ t →
        t < a / 65536 * 16384 + a % 65536 / 4 + n → InR a rem t := by
      intro t h1 h2 h3
      unfold InR; rw [W_eq] at ha; omega
    by_cases hsh : Shared c m b
    · refine Or.inr ⟨⟨a / 65536 * 16384 + a % 65536 / 4, hin _ (by omega) (by omega) (by omega), ?_⟩, ?_⟩
      · rw [show (a / 65536 * 16384 + a % 65536 / 4) / 16384 = a / 65536 by omega, hbg]; exact hsh
      · obtain ⟨e1, e2, e3, f, r2⟩ := popShared hS g (esp := esp) (s0 := s0) (s1 := s1) (s2 := s2) (s3 := s3)
          (ebx := rem - n) (n := n) (o := a % 65536 / 4) (eax := a) (fl := fl1) hi hbg hsh hn0 (by rw [hS]; omega)
        exact ⟨e1, e2, e3, _, f, m, fun _ => False, r01.trans r2, Marked.refl hi, fun _ h => h.elim⟩
    obtain ⟨e1, e2, e3, f, m1, r2, M⟩ := popUn hc hS g (esp := esp) (s0 := s0) (s1 := s1) (s2 := s2) (s3 := s3)
      (ebx := rem - n) (by rw [hS] at hb ⊢; omega) n (o := a % 65536 / 4) (eax := a) (fl := fl1) hi hbg hsh
      (by rw [hS]; omega)
    rw [hS] at M
    have r012 := r01.trans r2
    rcases Nat.eq_zero_or_pos (rem - n) with hz | hz
    · refine Or.inl ⟨?_, e1, e2, e3, rem - n, .cmp (rem - n) 0, m1, r012.trans ?_, M.congr ?_⟩
      · rintro ⟨t, ht, hst⟩
        have : t / 16384 = a / 65536 := by
          unfold InR at ht; rw [W_eq] at ha; omega
        rw [this, hbg] at hst
        exact hsh hst
      · rw [F_popDone]
        stp
        exact jz_t rfl hz (Reaches.refl _ _)
      · intro t
        unfold InR; rw [W_eq] at ha; omega
    · have hty : g.ty ≠ .and := fun h => by have := hand h; omega
      obtain ⟨x1, x2, f2, r3⟩ := nextRun g (esp := esp) (s0 := s0) (s1 := s1) (s2 := s2) (s3 := s3)
        (m := m1) (q := rem - n) (eax := e1) (edx := e3) (ebx := rem - n) (fl := .cmp (rem - n) 0) hty hesp
        (Or.inl (by omega))
      have r4 : Reaches (prog g)
          (.at (find .popOneDone (prog g)) ⟨e1, e2, e3, rem - n, esp, s0, s1, s2, s3, f, m1⟩)
          (.at (find .loopNextShadow (prog g)) ⟨e1, rem - n, e3, rem - n, esp, s0, s1, s2, s3, .cmp (rem - n) 0, m1⟩) := by
        rw [F_popDone]
        stp
        refine jz_f rfl (by omega) ?_
        stp; stp
        exact Reaches.refl _ _
      have ha' : (target g esp s1 + (W - (rem - n) * 4 % W)) % W = (a + 4 * n) % W := by
        rw [← htgt]; rw [W_eq] at ha ⊢; omega
      rw [ha'] at r3
      have rr := (r012.trans r4).trans r3
      have hT : ∀ t, InR a rem t ↔ (a / 65536 * 16384 + a % 65536 / 4 ≤ t ∧
          t < a / 65536 * 16384 + a % 65536 / 4 + n) ∨ InR ((a + 4 * n) % W) (rem - n) t := by
        intro t
        unfold InR; rw [W_eq] at ha ⊢; omega
      have htou : Touches c m a rem ↔ Touches c m1 ((a + 4 * n) % W) (rem - n) := by
        constructor
        · rintro ⟨t, ht, hst⟩
          rcases (hT t).1 ht with h | h
          · rw [show t / 16384 = a / 65536 by rw [W_eq] at ha; omega, hbg] at hst
            exact absurd hst hsh
          · exact ⟨t, h, by rw [M.blk, M.shared]; exact hst⟩
        · rintro ⟨t, ht, hst⟩
          exact ⟨t, (hT t).2 (Or.inr ht), by rw [M.blk, M.shared] at hst; exact hst⟩
      rcases ih (rem - n) (by omega) (a := (a + 4 * n) % W) (eax := x1) (ebx := x2) (fl := f2) M.inv
        (Nat.mod_lt _ (by rw [W_eq]; omega)) (by rw [W_eq]; omega) hz (by omega)
        (by rw [← htgt]; rw [W_eq]; omega) (fun h => absurd h hty) with h | h
      · obtain ⟨hnt, y1, y2, y3, y4, f5, m5, r5, M5⟩ := h
        exact Or.inl ⟨fun h => hnt (htou.1 h), y1, y2, y3, y4, f5, m5, rr.trans r5,
          (M.trans M5).congr (fun t => (hT t).symm)⟩
      · obtain ⟨ht, y1, y2, y3, y4, f5, m5, P, r5, M5, hP⟩ := h
        refine Or.inr ⟨htou.2 ht, y1, y2, y3, y4, f5, m5, _, rr.trans r5, M.trans M5, ?_⟩
        intro t h
        exact (hT t).2 (h.imp id (hP t))

/-- The decreasing loop over all the blocks; `z` is the new stack pointer. -/
theorem pushAll (hesp : esp < W) {z : Nat} (hz : z < W) (hz4 : z % 4 = 0)
    (htgt : g.ty ≠ .and → z = target g esp s1) :
    ∀ (r : Nat) {m : Map} {a eax ebx : Nat} {fl : Fl}, Inv c m → a = (z + 4 * r) % W →
    0 < r → r ≤ 536870912 →
    (g.ty = .and → r ≤ (a + (W - 4)) % W % 65536 / 4 + 1) →
    (¬ Touches c m z r ∧ ∃ eax' ecx edx ebx' fl' m', Reaches (prog g)
      (.at (find .loopShadowLookup (prog g)) ⟨eax, W - r, a, ebx, esp, s0, s1, s2, s3, fl, m⟩)
      (.at (find .loopDone (prog g)) ⟨eax', ecx, edx, ebx', esp, s0, s1, s2, s3, fl', m'⟩) ∧
      Marked c (UInt8.ofNat (new8 g)) (InR z r) m m') ∨
    (Touches c m z r ∧ ∃ eax' ecx edx ebx' fl' m' P, Reaches (prog g)
      (.at (find .loopShadowLookup (prog g)) ⟨eax, W - r, a, ebx, esp, s0, s1, s2, s3, fl, m⟩)
      (.at (find .slowpath (prog g)) ⟨eax', ecx, edx, ebx', esp, s0, s1, s2, s3, fl', m'⟩) ∧
      Marked c (UInt8.ofNat (new8 g)) P m m' ∧ ∀ t, P t → InR z r t) := by
  intro r
  induction r using Nat.strongRecOn with
  | ind r ih =>
    intro m a0 eax ebx fl hi ha0 h0 hlt hand
    have hS := S4 hc hm hg4
    have hHe := H_eq
    have ha : (a0 + (W - 4)) % W < W := Nat.mod_lt _ (by rw [W_eq]; omega)
    have haz : (a0 + (W - 4)) % W = (z + 4 * (r - 1)) % W := by rw [ha0, W_eq]; omega
    have h4 : (a0 + (W - 4)) % W % 4 = 0 := by rw [haz, W_eq]; omega
    have r0 : Reaches (prog g)
        (.at (find .loopShadowLookup (prog g)) ⟨eax, W - r, a0, ebx, esp, s0, s1, s2, s3, fl, m⟩)
        (.at (find .shadowLookup (prog g)) ⟨eax, W - r, (a0 + (W - 4)) % W, ebx, esp, s0, s1, s2, s3, .unk, m⟩) := by
      exact lookupNeg g (slt_neg' (by rw [W_eq]; omega) (by rw [W_eq]; omega)) (by rw [W_eq]; omega) rfl
    generalize (a0 + (W - 4)) % W = a at *
    have hb := hi.bound _ (hi.tbl (a / 65536))
    obtain ⟨fl1, r1⟩ := pushEnter hc hm hg4 g (esp := esp) (s0 := s0) (s1 := s1) (s2 := s2) (s3 := s3) hi
      (eax := eax) (ebx := ebx) (fl := .unk) ha h4 h0 (by omega)
    have r01 := r0.trans r1
    have hn0 : 0 < min r (a % 65536 / 4 + 1) := by omega
    have hnr : min r (a % 65536 / 4 + 1) ≤ r := Nat.min_le_left _ _
    have hnroom : min r (a % 65536 / 4 + 1) ≤ a % 65536 / 4 + 1 := Nat.min_le_right _ _
    have hnx : min r (a % 65536 / 4 + 1) = r ∨
      min r (a % 65536 / 4 + 1) = a % 65536 / 4 + 1 := by omega
    generalize min r (a % 65536 / 4 + 1) = n at *
    generalize hbg : getBlock c m (a / 65536) = b at *
    by_cases hsh : Shared c m b
    · refine Or.inr ⟨⟨a / 4, ?_, ?_⟩, ?_⟩
      · unfold InR; rw [haz]; rw [W_eq] at hz ⊢; omega
      · rw [show a / 4 / 16384 = a / 65536 by omega, hbg]; exact hsh
      · obtain ⟨e1, e2, e3, f, r2⟩ := pushShared hS g (esp := esp) (s0 := s0) (s1 := s1) (s2 := s2) (s3 := s3)
          (ebx := (W - (r - n)) % W) (n := n) (o := a % 65536 / 4 + 1) (eax := a) (fl := fl1) hi hbg hsh hn0
          (edx := b + a % 65536 / 4) (by rw [W_eq]; omega) (by omega) (by rw [hS]; omega) (by omega)
        exact ⟨e1, e2, e3, _, f, m, fun _ => False, r01.trans r2, Marked.refl hi, fun _ h => h.elim⟩
    obtain ⟨e1, e2, e3, f, m1, r2, M⟩ := pushUn hc hS g (esp := esp) (s0 := s0) (s1 := s1) (s2 := s2) (s3 := s3)
      (ebx := (W - (r - n)) % W) (by rw [hS] at hb ⊢; omega) (by rw [hS] at hb; omega) n
      (o := a % 65536 / 4 + 1) (eax := a) (fl := fl1) (edx := b + a % 65536 / 4) hi hbg hsh (by omega)
      (by rw [hS]; omega) (by omega)
    rw [hS] at M
    have r012 := r01.trans r2
    rcases Nat.eq_zero_or_pos (r - n) with hq | hq
    · have hrn : n = r := by omega
      have hq' : (W - (r - n)) % W = 0 := by rw [hq, Nat.sub_zero, Nat.mod_self]
      rw [hq'] at r012
      refine Or.inl ⟨?_, e1, e2, e3, 0, .cmp 0 0, m1, r012.trans ?_, M.congr ?_⟩
      · rintro ⟨t, ht, hst⟩
        have : t / 16384 = a / 65536 := by
          unfold InR at ht; rw [haz]; rw [haz] at hnroom; rw [W_eq] at hz hnroom ⊢; omega
        rw [this, hbg] at hst
        exact hsh hst
      · rw [F_pushDone]
        stp
        exact jz_t rfl rfl (Reaches.refl _ _)
      · intro t
        unfold InR; rw [haz] at hnroom ⊢; rw [W_eq] at hz hnroom ⊢; omega
    · have hnf : n = a % 65536 / 4 + 1 := by omega
      have hty : g.ty ≠ .and := fun h => by have := hand h; omega
      have hqW : (W - (r - n)) % W = W - (r - n) := by rw [W_eq]; omega
      rw [hqW] at r012
      obtain ⟨x1, x2, f2, r3⟩ := nextRun g (esp := esp) (s0 := s0) (s1 := s1) (s2 := s2) (s3 := s3)
        (m := m1) (q := W - (r - n)) (eax := e1) (edx := e3) (ebx := W - (r - n)) (fl := .cmp (W - (r - n)) 0) hty hesp
        (Or.inr (by rw [W_eq]; omega))
      have r4 : Reaches (prog g)
          (.at (find .pushOneDone (prog g)) ⟨e1, e2, e3, W - (r - n), esp, s0, s1, s2, s3, f, m1⟩)
          (.at (find .loopNextShadow (prog g))
            ⟨e1, W - (r - n), e3, W - (r - n), esp, s0, s1, s2, s3, .cmp (W - (r - n)) 0, m1⟩) := by
        have hne : W - (r - n) ≠ 0 := by rw [W_eq]; omega
        generalize W - (r - n) = q at *
        rw [F_pushDone]
        stp
        refine jz_f rfl hne ?_
        stp; stp
        exact Reaches.refl _ _
      have ha' : (target g esp s1 + (W - (W - (r - n)) * 4 % W)) % W = (z + 4 * (r - n)) % W := by
        rw [← htgt hty]; rw [W_eq] at hz ⊢; omega
      rw [ha'] at r3
      have rr := (r012.trans r4).trans r3
      have hT : ∀ t, InR z r t ↔ (a / 65536 * 16384 + (a % 65536 / 4 + 1) ≤ t + n ∧
          t < a / 65536 * 16384 + (a % 65536 / 4 + 1)) ∨ InR z (r - n) t := by
        intro t
        unfold InR; rw [haz] at hnf ⊢; rw [W_eq] at hz hnf ⊢; omega
      have htou : Touches c m z r ↔ Touches c m1 z (r - n) := by
        constructor
        · rintro ⟨t, ht, hst⟩
          rcases (hT t).1 ht with h | h
          · rw [show t / 16384 = a / 65536 by omega, hbg] at hst
            exact absurd hst hsh
          · exact ⟨t, h, by rw [M.blk, M.shared]; exact hst⟩
        · rintro ⟨t, ht, hst⟩
          exact ⟨t, (hT t).2 (Or.inr ht), by rw [M.blk, M.shared] at hst; exact hst⟩
      rcases ih (r - n) (by omega) (a := (z + 4 * (r - n)) % W) (eax := x1) (ebx := x2) (fl := f2) M.inv
        rfl hq (by omega) (fun h => absurd h hty) with h | h
      · obtain ⟨hnt, y1, y2, y3, y4, f5, m5, r5, M5⟩ := h
        exact Or.inl ⟨fun h => hnt (htou.1 h), y1, y2, y3, y4, f5, m5, rr.trans r5,
          (M.trans M5).congr (fun t => (hT t).symm)⟩
      · obtain ⟨ht, y1, y2, y3, y4, f5, m5, P, r5, M5, hP⟩ := h
        refine Or.inr ⟨htou.2 ht, y1, y2, y3, y4, f5, m5, _, rr.trans r5, M.trans M5, ?_⟩
        intro t h
        exact (hT t).2 (h.imp id (hP t))

end

end Verif.EspFast
