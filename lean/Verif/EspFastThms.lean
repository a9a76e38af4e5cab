import Verif.EspFastEnds
/-!
# What the fast path for stack pointer changes does
-/
set_option linter.unusedSimpArgs false
namespace Verif.EspFast
open Umbra32 (Map W W_eq getBlock view Shared Inv S)

/-- The shadow byte of the dword at address `x`. -/
def shadowOf (c : Umbra32.Cfg) (m : Map) (x : Nat) : Option UInt8 := view c m (x / 4)

/-- The lower end of the memory added to or removed from the stack. -/
def low (g : Gen) (esp val : Nat) : Nat :=
  if 0 ≤ sgn (diff g esp val) then base g esp else target g esp val

/-- The addresses added to or removed from the stack. -/
def InStack (g : Gen) (esp val x : Nat) : Prop :=
  (x + (W - low g esp val)) % W < (sgn (diff g esp val)).natAbs

/-- What that memory is marked as: unaddressable if removed, else undefined or defined. -/
def mark (g : Gen) (esp val : Nat) : UInt8 :=
  if 0 ≤ sgn (diff g esp val) then UInt8.ofNat (unaddr8 g) else UInt8.ofNat (new8 g)

/-- Part of the memory has its shadow in a shared read-only block. -/
def Touched (c : Umbra32.Cfg) (m : Map) (g : Gen) (esp val : Nat) : Prop :=
  ∃ x, x < W ∧ InStack g esp val x ∧ Shared c m (getBlock c m (x / 65536))

/-- The changes the fast path handles itself. -/
def Handled (c : Umbra32.Cfg) (m : Map) (g : Gen) (esp val : Nat) : Prop :=
  ¬ Swap g esp val ∧ diff g esp val % 4 = 0 ∧ (diff g esp val = 0 ∨ base g esp % 4 = 0) ∧
    ¬ Touched c m g esp val

/-- What the generated code before the routine passes for `and` with the mask (stack_x86.c:604-640). -/
def AndOk (g : Gen) (esp val : Nat) : Prop :=
  g.ty = .and → g.thresh < 65536 ∧ ∃ mask, 65536 ≤ mask ∧ mask < W ∧ val = esp &&& mask

theorem InR_stack {g : Gen} {esp val n : Nat} (hl : low g esp val % 4 = 0) (hlW : low g esp val < W)
    (hn : (sgn (diff g esp val)).natAbs = 4 * n) {x : Nat} (hx : x < W) :
    InR (low g esp val) n (x / 4) ↔ InStack g esp val x := by
  unfold InR InStack
  rw [hn]
  generalize low g esp val = l at *
  rw [W_eq] at hlW hx ⊢
  omega

theorem Touches_stack {c : Umbra32.Cfg} {m : Map} {g : Gen} {esp val n : Nat} (hl : low g esp val % 4 = 0)
    (hlW : low g esp val < W) (hn : (sgn (diff g esp val)).natAbs = 4 * n) :
    Touches c m (low g esp val) n ↔ Touched c m g esp val := by
  constructor
  · rintro ⟨t, ht, hs⟩
    have htW : t < 1073741824 := ht.1
    have hx : 4 * t < W := by rw [W_eq]; omega
    refine ⟨4 * t, hx, (InR_stack hl hlW hn hx).1 ?_, ?_⟩
    · rw [show 4 * t / 4 = t by omega]; exact ht
    · rw [show 4 * t / 65536 = t / 16384 by omega]; exact hs
  · rintro ⟨x, hx, hi, hs⟩
    refine ⟨x / 4, (InR_stack hl hlW hn hx).2 hi, ?_⟩
    rw [show x / 4 / 16384 = x / 65536 by omega]; exact hs

theorem and_block {g : Gen} {esp val : Nat} (hesp : esp < W) (ha : AndOk g esp val)
    (hty : g.ty = .and) (hsw : ¬ Swap g esp val) : val / 65536 = esp / 65536 ∧ val ≤ esp := by
  obtain ⟨hth, mask, hm1, hm2, rfl⟩ := ha hty
  have hle : esp &&& mask ≤ esp := Nat.and_le_left
  refine ⟨?_, hle⟩
  have habs : isAbs g.ty = true := by rw [hty]; rfl
  have hHe := H_eq
  have hd : (esp / 65536) &&& (mask / 65536) = (esp &&& mask) / 65536 := by
    have := @Nat.and_div_two_pow esp mask 16
    rw [show (2 : Nat) ^ 16 = 65536 by decide] at this
    exact this.symm
  have hle2 : (esp &&& mask) / 65536 ≤ esp / 65536 := by rw [← hd]; exact Nat.and_le_left
  have h1 : ¬ ((g.thresh : Int) < sgn (diff g esp (esp &&& mask))) := fun h => hsw ⟨habs, Or.inl h⟩
  have h2 : ¬ (sgn (diff g esp (esp &&& mask)) < -(g.thresh : Int)) := fun h => hsw ⟨habs, Or.inr h⟩
  rw [diff_abs g habs] at h1 h2
  have hle3 : (esp &&& mask) % 65536 ≤ esp % 65536 := by
    have := @Nat.and_mod_two_pow esp mask 16
    rw [show (2 : Nat) ^ 16 = 65536 by decide] at this
    rw [this]; exact Nat.and_le_left
  by_cases hf : esp / 65536 = 65535
  · have hm : mask / 65536 % 65536 = (esp &&& mask) / 65536 := by
      rw [← hd, hf, Nat.and_comm, show (65535 : Nat) = 2 ^ 16 - 1 by decide, Nat.and_two_pow_sub_one_eq_mod,
        show (2 : Nat) ^ 16 = 65536 by decide]
    generalize esp &&& mask = v at *
    unfold sgn at h1 h2
    rw [W_eq] at *
    split at h1 <;> rename_i hlt <;> simp only [hlt, if_true, if_false] at h2 <;> omega
  · generalize esp &&& mask = v at *
    unfold sgn at h1 h2
    rw [W_eq] at *
    split at h1 <;> rename_i hlt <;> simp only [hlt, if_true, if_false] at h2 <;> omega

section
variable {c : Umbra32.Cfg} (hc : c.Valid) (hm : c.m = 1) (hg4 : c.g = 4) (g : Gen)
  {eax val ra ebx esp s0 s1 s2 s3 : Nat} {ah : Nat} {o : Bool} {m : Map}
include hc hm hg4

omit hc hm hg4 in
theorem misNeg {q a0 a : Nat} {fl : Fl} (h : slt 0 q = false) (hq : q ≠ 0)
    (ha : (a0 + (W - 4)) % W = a) (h3 : a % 4 ≠ 0) : Reaches (prog g)
      (.at (find .loopShadowLookup (prog g)) ⟨eax, q, a0, ebx, esp, s0, s1, s2, s3, fl, m⟩)
      (.at (find .slowpath (prog g)) ⟨a, q, a, ebx, esp, s0, s1, s2, s3, .cmp (a &&& 3) 0, m⟩) := by
  refine (lookupNeg g h hq ha).trans ?_
  rw [F_lookup]
  stp; stp
  exact jnz_t rfl (by rw [and3]; exact h3) (Reaches.refl _ _)

omit hc hm hg4 in
theorem misPos {q a : Nat} {fl : Fl} (h : slt 0 q = true) (h3 : a % 4 ≠ 0) : Reaches (prog g)
      (.at (find .loopShadowLookup (prog g)) ⟨eax, q, a, ebx, esp, s0, s1, s2, s3, fl, m⟩)
      (.at (find .slowpath (prog g)) ⟨a, q, a, ebx, esp, s0, s1, s2, s3, .cmp (a &&& 3) 0, m⟩) := by
  rw [F_lookupLoop]
  stp
  refine jg_t rfl h ?_
  rw [F_lookup]
  stp; stp
  exact jnz_t rfl (by rw [and3]; exact h3) (Reaches.refl _ _)

/-- The loop at the end of the entry. -/
theorem loopRun (hi : Inv c m) (hesp : esp < W) (hval : val < W) (hsw : ¬ Swap g esp val)
    (h4 : diff g esp val % 4 = 0) (hand : AndOk g esp val) {fl : Fl} :
    let s : St := ⟨eax, sarv (diff g esp val) 2, base g esp, ebx, esp, s0, val, s2, s3, fl, m⟩
    (Handled c m g esp val → ∃ eax' ecx edx ebx' fl' m', Reaches (prog g)
      (.at (find .loopShadowLookup (prog g)) s)
      (.at (find .loopDone (prog g)) ⟨eax', ecx, edx, ebx', esp, s0, val, s2, s3, fl', m'⟩) ∧ Inv c m' ∧
      ∀ x, x < W → (InStack g esp val x → shadowOf c m' x = some (mark g esp val)) ∧
        (¬ InStack g esp val x → shadowOf c m' x = shadowOf c m x)) ∧
    (¬ Handled c m g esp val → ∃ eax' ecx edx ebx' fl' m', Reaches (prog g)
      (.at (find .loopShadowLookup (prog g)) s)
      (.at (find .slowpath (prog g)) ⟨eax', ecx, edx, ebx', esp, s0, val, s2, s3, fl', m'⟩) ∧ Inv c m' ∧
      (base g esp % 4 ≠ 0 → m' = m) ∧
      ∀ x, x < W → shadowOf c m' x = shadowOf c m x ∨
        (InStack g esp val x ∧ shadowOf c m' x = some (mark g esp val))) := by
  intro s
  have hHe := H_eq
  have hdW := diff_lt g esp val
  have hbW := base_lt g hesp
  have htW := target_lt g (esp := esp) hval
  have hdd : diff g esp val = (target g esp val + (W - base g esp)) % W := rfl
  by_cases hz : diff g esp val = 0
  · have hn : ∀ x, ¬ InStack g esp val x := by
      intro x h
      unfold InStack at h
      rw [hz] at h
      have : (sgn 0).natAbs = 0 := by unfold sgn; rw [if_pos (by omega)]; rfl
      omega
    refine ⟨fun _ => ?_, fun h => ?_⟩
    · refine ⟨eax, 0, base g esp, ebx, .cmp 0 0, m, ?_, hi, fun x _ => ⟨fun h => absurd h (hn x), fun _ => rfl⟩⟩
      have h0 : sarv (diff g esp val) 2 = 0 := by
        rw [hz]; unfold sarv; rw [if_pos (by omega)]
      simp only [s]
      rw [h0, F_lookupLoop]
      stp
      refine jg_f rfl (slt_pos' (by omega)) ?_
      exact jz_t rfl rfl (Reaches.refl _ _)
    · exact absurd ⟨hsw, h4, Or.inl hz, fun ⟨x, _, h, _⟩ => hn x h⟩ h
  by_cases hb4 : base g esp % 4 ≠ 0
  · refine ⟨fun h => absurd h.2.2.1 (by omega), fun _ => ?_⟩
    by_cases hp : diff g esp val < H
    · have hq : 0 < sarv (diff g esp val) 2 ∧ sarv (diff g esp val) 2 < H := by
        unfold sarv; rw [if_pos hp]; omega
      exact ⟨_, _, _, _, _, m, misPos g (slt_pos hq.1 hq.2) hb4, hi, fun _ => rfl, fun x _ => Or.inl rfl⟩
    · have hq : H ≤ sarv (diff g esp val) 2 ∧ sarv (diff g esp val) 2 < W := by
        unfold sarv; rw [if_neg hp, W_eq]; rw [W_eq] at hdW; omega
      have h3 : (base g esp + (W - 4)) % W % 4 ≠ 0 := by rw [W_eq] at hbW ⊢; omega
      exact ⟨_, _, _, _, _, m, misNeg g (slt_neg' hq.1 hq.2) (by omega) rfl h3, hi, fun _ => rfl,
        fun x _ => Or.inl rfl⟩
  have hb4' : base g esp % 4 = 0 := by omega
  by_cases hp : diff g esp val < H
  · have hsg : sgn (diff g esp val) = diff g esp val := by unfold sgn; rw [if_pos hp]
    have hlow : low g esp val = base g esp := by unfold low; rw [hsg, if_pos (by omega)]
    have hmark : mark g esp val = UInt8.ofNat (unaddr8 g) := by unfold mark; rw [hsg, if_pos (by omega)]
    have hn : (sgn (diff g esp val)).natAbs = 4 * (diff g esp val / 4) := by rw [hsg]; omega
    have hl4 : low g esp val % 4 = 0 := by rw [hlow]; exact hb4'
    have hlW : low g esp val < W := by rw [hlow]; exact hbW
    have hq : sarv (diff g esp val) 2 = diff g esp val / 4 := by unfold sarv; rw [if_pos hp]
    have hT := Touches_stack (c := c) (m := m) hl4 hlW hn
    have hR := fun {x : Nat} (hx : x < W) => InR_stack hl4 hlW hn hx
    rw [hlow] at hT hR
    have := popAll hc hm hg4 g (esp := esp) (s0 := s0) (s1 := val) (s2 := s2) (s3 := s3) hesp
      (diff g esp val / 4) (m := m) (a := base g esp) (eax := eax) (ebx := ebx) (fl := fl) hi hbW hb4'
      (by omega) (by omega) (by rw [hdd]; rw [W_eq] at hbW htW ⊢; rw [hdd, W_eq] at h4; omega)
      (fun hty => by
        obtain ⟨h1, h2⟩ := and_block hesp hand hty hsw
        have habs : isAbs g.ty = true := by rw [hty]; rfl
        have hbe : base g esp = esp := by unfold base; rw [if_neg (by rw [hty]; decide)]
        rw [diff_abs g habs] at hz hp ⊢
        rw [W_eq] at hz hp ⊢; rw [W_eq] at hesp
        omega)
    simp only [s]
    rw [hq]
    rcases this with ⟨hnt, e1, e2, e3, e4, f, m', r, M⟩ | ⟨ht, e1, e2, e3, e4, f, m', P, r, M, hP⟩
    · refine ⟨fun _ => ⟨e1, e2, e3, e4, f, m', r, M.inv, fun x hx => ⟨fun h => ?_, fun h => ?_⟩⟩,
        fun h => absurd ⟨hsw, h4, Or.inr hb4', fun h => hnt (hT.2 h)⟩ h⟩
      · rw [hmark]; exact M.hit _ ((hR hx).2 h)
      · exact M.miss _ (fun h' => h ((hR hx).1 h'))
    · refine ⟨fun h => absurd (hT.1 ht) h.2.2.2, fun _ => ⟨e1, e2, e3, e4, f, m', r, M.inv,
        fun h => absurd hb4' h, fun x hx => ?_⟩⟩
      by_cases hx' : P (x / 4)
      · exact Or.inr ⟨(hR hx).1 (hP _ hx'), by rw [hmark]; exact M.hit _ hx'⟩
      · exact Or.inl (M.miss _ hx')
  · have hsg : sgn (diff g esp val) = (diff g esp val : Int) - (W : Nat) := by unfold sgn; rw [if_neg hp]
    have hneg : ¬ (0 ≤ sgn (diff g esp val)) := by rw [hsg]; omega
    have hlow : low g esp val = target g esp val := by unfold low; rw [if_neg hneg]
    have hmark : mark g esp val = UInt8.ofNat (new8 g) := by unfold mark; rw [if_neg hneg]
    have hn : (sgn (diff g esp val)).natAbs = 4 * ((W - diff g esp val) / 4) := by
      rw [hsg]; rw [W_eq] at hdW ⊢; omega
    have ht4 : target g esp val % 4 = 0 := by
      rw [hdd] at h4; rw [W_eq] at hbW htW h4; omega
    have hl4 : low g esp val % 4 = 0 := by rw [hlow]; exact ht4
    have hlW : low g esp val < W := by rw [hlow]; exact htW
    have hq : sarv (diff g esp val) 2 = W - (W - diff g esp val) / 4 := by
      unfold sarv; rw [if_neg hp]; rw [W_eq] at hdW ⊢; omega
    have hT := Touches_stack (c := c) (m := m) hl4 hlW hn
    have hR := fun {x : Nat} (hx : x < W) => InR_stack hl4 hlW hn hx
    rw [hlow] at hT hR
    have := pushAll hc hm hg4 g (esp := esp) (s0 := s0) (s1 := val) (s2 := s2) (s3 := s3) hesp
      htW ht4 (fun _ => rfl) ((W - diff g esp val) / 4) (m := m) (a := base g esp) (eax := eax) (ebx := ebx)
      (fl := fl) hi
      (by rw [hdd] at h4 hp ⊢; rw [W_eq] at hbW htW h4 hp ⊢; omega)
      (by rw [W_eq] at hdW ⊢; omega) (by rw [W_eq] at hdW ⊢; omega)
      (fun hty => by
        obtain ⟨h1, h2⟩ := and_block hesp hand hty hsw
        have habs : isAbs g.ty = true := by rw [hty]; rfl
        have hbe : base g esp = esp := by unfold base; rw [if_neg (by rw [hty]; decide)]
        rw [hbe] at hb4' ⊢
        rw [diff_abs g habs] at hz hp ⊢
        rw [W_eq] at hz hp ⊢; rw [W_eq] at hesp
        omega)
    simp only [s]
    rw [hq]
    rcases this with ⟨hnt, e1, e2, e3, e4, f, m', r, M⟩ | ⟨ht, e1, e2, e3, e4, f, m', P, r, M, hP⟩
    · refine ⟨fun _ => ⟨e1, e2, e3, e4, f, m', r, M.inv, fun x hx => ⟨fun h => ?_, fun h => ?_⟩⟩,
        fun h => absurd ⟨hsw, h4, Or.inr hb4', fun h => hnt (hT.2 h)⟩ h⟩
      · rw [hmark]; exact M.hit _ ((hR hx).2 h)
      · exact M.miss _ (fun h' => h ((hR hx).1 h'))
    · refine ⟨fun h => absurd (hT.1 ht) h.2.2.2, fun _ => ⟨e1, e2, e3, e4, f, m', r, M.inv,
        fun h => absurd hb4' h, fun x hx => ?_⟩⟩
      by_cases hx' : P (x / 4)
      · exact Or.inr ⟨(hR hx).1 (hP _ hx'), by rw [hmark]; exact M.hit _ hx'⟩
      · exact Or.inl (M.miss _ hx')

/-- **C60, handled changes.**  If the change is handled, the routine returns to the address it was given,
with `eax`, the stack pointer and (if live) the flags as before; exactly the memory between the old and the
new stack pointer is marked. -/
theorem C60_return_partial (hi : Inv c m) (hesp : esp < W) (hval : val < W) (hth : g.thresh < H)
    (hand : AndOk g esp val) (hah : ah < 256) (h : Handled c m g esp val) :
    ∃ s', Reaches (prog g) (.at (prog g) ⟨eax, val, ra, ebx, esp, s0, s1, s2, s3, .app ah o, m⟩) (.ret ra s') ∧
      s'.eax = eax ∧ s'.esp = esp ∧ (g.live = true → s'.fl = .app ah o) ∧ Inv c s'.map ∧
      ∀ x, x < W → (InStack g esp val x → shadowOf c s'.map x = some (mark g esp val)) ∧
        (¬ InStack g esp val x → shadowOf c s'.map x = shadowOf c m x) := by
  obtain ⟨e, t2, t3, f, hsv, r1⟩ := entrySave g (eax := eax) (val := val) (ra := ra) (ebx := ebx) (esp := esp)
    (s0 := s0) (s1 := s1) (s2 := s2) (s3 := s3) (o := o) (m := m) hah
  obtain ⟨f2, r2⟩ := (entryTail g (ebx := ebx) (s0 := ra) (s1 := val) (s2 := t2) (s3 := t3) (m := m)
    hesp hval hth (eax' := e) (fl := f)).2 h.1 h.2.1
  obtain ⟨e1, e2, e3, e4, f3, m', r3, hi', hx⟩ := (loopRun hc hm hg4 g (eax := e) (ebx := ebx) (s0 := ra) (s2 := t2)
    (s3 := t3) (fl := f2) hi hesp hval h.1 h.2.1 hand).1 h
  obtain ⟨f4, hf4, r4⟩ := doneRun g (ebx := e4) (esp := esp) (s0 := ra) (s1 := val) (m := m') (eax0 := e1)
    (ecx := e2) (edx := e3) (fl := f3) hsv
  exact ⟨_, ((r1.trans r2).trans r3).trans r4, rfl, rfl, hf4, hi', hx⟩

/-- **C60, other changes.**  If the change is not handled, the routine continues in the slow path with the
arguments, `eax`, the stack pointer and (if live) the flags as they were at the call; only memory between
the old and the new stack pointer may have been marked, and nothing is if the change may be a stack swap or
is not aligned. -/
theorem C60_slow_partial (hi : Inv c m) (hesp : esp < W) (hval : val < W) (hth : g.thresh < H)
    (hand : AndOk g esp val) (hah : ah < 256) (h : ¬ Handled c m g esp val) :
    ∃ s', Reaches (prog g) (.at (prog g) ⟨eax, val, ra, ebx, esp, s0, s1, s2, s3, .app ah o, m⟩) (.slow false s') ∧
      s'.eax = eax ∧ s'.esp = esp ∧ s'.edx = ra ∧ (g.live = true → s'.fl = .app ah o) ∧
      s'.ecx = (if g.ty = .negative then (W - val) % W else val) ∧ Inv c s'.map ∧
      (Swap g esp val ∨ diff g esp val % 4 ≠ 0 ∨ base g esp % 4 ≠ 0 → s'.map = m) ∧
      ∀ x, x < W → shadowOf c s'.map x = shadowOf c m x ∨
        (InStack g esp val x ∧ shadowOf c s'.map x = some (mark g esp val)) := by
  obtain ⟨e, t2, t3, f, hsv, r1⟩ := entrySave g (eax := eax) (val := val) (ra := ra) (ebx := ebx) (esp := esp)
    (s0 := s0) (s1 := s1) (s2 := s2) (s3 := s3) (o := o) (m := m) hah
  have tail := entryTail g (ebx := ebx) (s0 := ra) (s1 := val) (s2 := t2) (s3 := t3) (m := m)
    hesp hval hth (eax' := e) (fl := f)
  by_cases hs : Swap g esp val ∨ diff g esp val % 4 ≠ 0
  · obtain ⟨e2, f2, r2⟩ := tail.1 hs
    obtain ⟨f4, hf4, r4⟩ := slowRun g (ebx := ebx) (esp := esp) (s0 := ra) (s1 := val) (m := m) (eax0 := e)
      (ecx := e2) (edx := base g esp) (fl := f2) hsv
    exact ⟨_, (r1.trans r2).trans r4, rfl, rfl, rfl, hf4, rfl, hi, fun _ => rfl, fun x _ => Or.inl rfl⟩
  · have hsw : ¬ Swap g esp val := fun h => hs (Or.inl h)
    have h4 : diff g esp val % 4 = 0 := by omega
    obtain ⟨f2, r2⟩ := tail.2 hsw h4
    obtain ⟨e1, e2, e3, e4, f3, m', r3, hi', hb, hx⟩ := (loopRun hc hm hg4 g (eax := e) (ebx := ebx) (s0 := ra)
      (s2 := t2) (s3 := t3) (fl := f2) hi hesp hval hsw h4 hand).2 h
    obtain ⟨f4, hf4, r4⟩ := slowRun g (ebx := e4) (esp := esp) (s0 := ra) (s1 := val) (m := m') (eax0 := e1)
      (ecx := e2) (edx := e3) (fl := f3) hsv
    refine ⟨_, ((r1.trans r2).trans r3).trans r4, rfl, rfl, rfl, hf4, rfl, hi', ?_, hx⟩
    rintro (h | h | h)
    · exact absurd h hsw
    · exact absurd h4 h
    · exact hb h

end

/-! ## One outcome only -/

theorem exec_final {p : List I} {z : Cfg} (hz : step p z = z) (n : Nat) : exec p n z = z := by
  induction n with
  | zero => rfl
  | succ n ih => rw [exec, hz, ih]

theorem Reaches.unique {p : List I} {x y z : Cfg} (hy : step p y = y) (hz : step p z = z)
    (h : Reaches p x y) (h' : Reaches p x z) : y = z := by
  obtain ⟨n, h⟩ := h
  obtain ⟨k, h'⟩ := h'
  rcases Nat.le_total n k with hnk | hnk
  · have := exec_add p n (k - n) x
    rw [show n + (k - n) = k by omega, h', h, exec_final hy] at this
    exact this.symm
  · have := exec_add p k (n - k) x
    rw [show k + (n - k) = n by omega, h, h', exec_final hz] at this
    exact this

/-- **C60, exactly when.**  The routine returns if and only if the change is one it handles. -/
theorem C60_handled_iff_partial {c : Umbra32.Cfg} (hc : c.Valid) (hm : c.m = 1) (hg4 : c.g = 4) (g : Gen)
    {eax val ra ebx esp s0 s1 s2 s3 : Nat} {ah : Nat} {o : Bool} {m : Map} (hi : Inv c m) (hesp : esp < W)
    (hval : val < W) (hth : g.thresh < H) (hand : AndOk g esp val) (hah : ah < 256) :
    (∃ a s', Reaches (prog g) (.at (prog g) ⟨eax, val, ra, ebx, esp, s0, s1, s2, s3, .app ah o, m⟩) (.ret a s')) ↔
      Handled c m g esp val := by
  constructor
  · rintro ⟨a, s', h⟩
    refine Classical.byContradiction (fun hn => ?_)
    obtain ⟨s2', h', -⟩ := C60_slow_partial hc hm hg4 g (eax := eax) (ra := ra) (ebx := ebx) (s0 := s0) (s1 := s1)
      (s2 := s2) (s3 := s3) (o := o) hi hesp hval hth hand hah hn
    exact absurd (Reaches.unique rfl rfl h h') (by intro h; cases h)
  · intro h
    obtain ⟨s', h', -⟩ := C60_return_partial hc hm hg4 g (eax := eax) (ra := ra) (ebx := ebx) (s0 := s0) (s1 := s1)
      (s2 := s2) (s3 := s3) (o := o) hi hesp hval hth hand hah h
    exact ⟨ra, s', h'⟩

/-- **C60, finding.**  A routine generated to mark new memory as defined leaves what it does not handle to
the slow path that marks it as undefined (stack_x86.c:1216-1217), never to the one for defined memory. -/
theorem C60_defined_slow {c : Umbra32.Cfg} (hc : c.Valid) (hm : c.m = 1) (hg4 : c.g = 4) (g : Gen)
    {eax val ra ebx esp s0 s1 s2 s3 : Nat} {ah : Nat} {o : Bool} {m : Map} (hi : Inv c m) (hesp : esp < W)
    (hval : val < W) (hth : g.thresh < H) (hand : AndOk g esp val) (hah : ah < 256)
    (_ : g.defined = true) (hn : ¬ Handled c m g esp val) :
    (∃ s', Reaches (prog g) (.at (prog g) ⟨eax, val, ra, ebx, esp, s0, s1, s2, s3, .app ah o, m⟩) (.slow false s')) ∧
    ¬ ∃ s', Reaches (prog g) (.at (prog g) ⟨eax, val, ra, ebx, esp, s0, s1, s2, s3, .app ah o, m⟩) (.slow true s') := by
  obtain ⟨s2', h', -⟩ := C60_slow_partial hc hm hg4 g (eax := eax) (ra := ra) (ebx := ebx) (s0 := s0) (s1 := s1)
    (s2 := s2) (s3 := s3) (o := o) hi hesp hval hth hand hah hn
  refine ⟨⟨s2', h'⟩, fun ⟨s', h⟩ => ?_⟩
  exact absurd (Reaches.unique rfl rfl h h') (by intro h; cases h)

/-- **C60, the values.**  A shadow byte of removed memory says unaddressable for each of the four bytes;
one of new memory says undefined, or defined if the routine is generated for that. -/
theorem C60_values (g : Gen) :
    (g.uninit = true → ∀ i, i < 4 → unaddr8 g / 4 ^ i % 4 = 1 ∧ new8 g / 4 ^ i % 4 = if g.defined then 0 else 3) ∧
    (g.uninit = false → unaddr8 g = 1 ∧ new8 g = if g.defined then 0 else 3) := by
  refine ⟨fun h => ?_, fun h => ?_⟩
  · unfold unaddr8 new8
    rw [h]
    cases g.defined <;> decide
  · unfold unaddr8 new8
    rw [h]
    cases g.defined <;> decide

end Verif.EspFast
