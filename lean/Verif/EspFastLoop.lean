import Verif.EspFastRun
/-!
# The loops of the fast path inside one shadow block
-/
namespace Verif.EspFast
open Umbra32 (Map W W_eq getBlock view Shared Inv S)

/-! ## Single steps that depend on the state -/

section
variable {p : List I} {z : Cfg} {l : L} {r : List I} {s : St} {a b : Nat}

theorem jcc_t {c : CC} (h : c.eval s.fl = some true) (h' : Reaches p (.at (find l p) s) z) :
    Reaches p (.at (.jcc c l :: r) s) z := by
  refine Reaches.head ?_
  simp only [step]
  rw [h]; exact h'

theorem jcc_f {c : CC} (h : c.eval s.fl = some false) (h' : Reaches p (.at r s) z) :
    Reaches p (.at (.jcc c l :: r) s) z := by
  refine Reaches.head ?_
  simp only [step]
  rw [h]; exact h'

theorem jz_t (h : s.fl = .cmp a b) (hab : a = b) (h' : Reaches p (.at (find l p) s) z) :
    Reaches p (.at (.jcc .z l :: r) s) z := jcc_t (by rw [h]; simp [CC.eval, hab]) h'
theorem jz_f (h : s.fl = .cmp a b) (hab : a ≠ b) (h' : Reaches p (.at r s) z) :
    Reaches p (.at (.jcc .z l :: r) s) z := jcc_f (by rw [h]; simp [CC.eval, hab]) h'
theorem jnz_t (h : s.fl = .cmp a b) (hab : a ≠ b) (h' : Reaches p (.at (find l p) s) z) :
    Reaches p (.at (.jcc .nz l :: r) s) z := jcc_t (by rw [h]; simp [CC.eval, hab]) h'
theorem jnz_f (h : s.fl = .cmp a b) (hab : a = b) (h' : Reaches p (.at r s) z) :
    Reaches p (.at (.jcc .nz l :: r) s) z := jcc_f (by rw [h]; simp [CC.eval, hab]) h'
theorem jae_t (h : s.fl = .cmp a b) (hab : b ≤ a) (h' : Reaches p (.at (find l p) s) z) :
    Reaches p (.at (.jcc .ae l :: r) s) z := jcc_t (by rw [h]; simp [CC.eval, hab]) h'
theorem jae_f (h : s.fl = .cmp a b) (hab : ¬ b ≤ a) (h' : Reaches p (.at r s) z) :
    Reaches p (.at (.jcc .ae l :: r) s) z := jcc_f (by rw [h]; simp only [CC.eval, hab, decide_false]) h'
theorem jbe_t (h : s.fl = .cmp a b) (hab : a ≤ b) (h' : Reaches p (.at (find l p) s) z) :
    Reaches p (.at (.jcc .be l :: r) s) z := jcc_t (by rw [h]; simp [CC.eval, hab]) h'
theorem jbe_f (h : s.fl = .cmp a b) (hab : ¬ a ≤ b) (h' : Reaches p (.at r s) z) :
    Reaches p (.at (.jcc .be l :: r) s) z := jcc_f (by rw [h]; simp only [CC.eval, hab, decide_false]) h'
theorem jg_t (h : s.fl = .cmp a b) (hab : slt b a = true) (h' : Reaches p (.at (find l p) s) z) :
    Reaches p (.at (.jcc .g l :: r) s) z := jcc_t (by rw [h]; simp only [CC.eval, hab]) h'
theorem jg_f (h : s.fl = .cmp a b) (hab : slt b a = false) (h' : Reaches p (.at r s) z) :
    Reaches p (.at (.jcc .g l :: r) s) z := jcc_f (by rw [h]; simp only [CC.eval, hab]) h'
theorem jl_t (h : s.fl = .cmp a b) (hab : slt a b = true) (h' : Reaches p (.at (find l p) s) z) :
    Reaches p (.at (.jcc .l l :: r) s) z := jcc_t (by rw [h]; simp only [CC.eval, hab]) h'
theorem jl_f (h : s.fl = .cmp a b) (hab : slt a b = false) (h' : Reaches p (.at r s) z) :
    Reaches p (.at (.jcc .l l :: r) s) z := jcc_f (by rw [h]; simp only [CC.eval, hab]) h'

theorem st8_ok {rb : R} {v : Nat} {m' : Map}
    (h : Umbra32.store s.map (s.get rb) 1 (fun _ => UInt8.ofNat v) = some m')
    (h' : Reaches p (.at r { s with map := m' }) z) : Reaches p (.at (.st8 rb v :: r) s) z := by
  refine Reaches.head ?_
  simp only [step]
  rw [h]; exact h'

theorem st8_fault {rb : R} {v : Nat}
    (h : Umbra32.store s.map (s.get rb) 1 (fun _ => UInt8.ofNat v) = none)
    (h' : Reaches p (.at (find .slowpath p) s) z) : Reaches p (.at (.st8 rb v :: r) s) z := by
  refine Reaches.head ?_
  simp only [step]
  rw [h]; exact h'

theorem st32_ok {rb : R} {v : Nat} {m' : Map}
    (h : Umbra32.store s.map (s.get rb) 4 (fun i => UInt8.ofNat (v / 256 ^ i % 256)) = some m')
    (h' : Reaches p (.at r { s with map := m' }) z) : Reaches p (.at (.st32 rb v :: r) s) z := by
  refine Reaches.head ?_
  simp only [step]
  rw [h]; exact h'

theorem st32_fault {rb : R} {v : Nat}
    (h : Umbra32.store s.map (s.get rb) 4 (fun i => UInt8.ofNat (v / 256 ^ i % 256)) = none)
    (h' : Reaches p (.at (find .slowpath p) s) z) : Reaches p (.at (.st32 rb v :: r) s) z := by
  refine Reaches.head ?_
  simp only [step]
  rw [h]; exact h'

end

theorem and3 (x : Nat) : x &&& 3 = x % 4 := Nat.and_two_pow_sub_one_eq_mod x 2

/-- The 32-bit immediate for unaddressable memory repeats the 8-bit one. -/
theorem unaddr_rep (g : Gen) (i : Nat) (h : i < 4) :
    UInt8.ofNat (unaddr32 g / 256 ^ i % 256) = UInt8.ofNat (unaddr8 g) := by
  unfold unaddr32 unaddr8
  match i, h with
  | 0, _ => cases g.uninit <;> rfl
  | 1, _ => cases g.uninit <;> rfl
  | 2, _ => cases g.uninit <;> rfl
  | 3, _ => cases g.uninit <;> rfl

/-- The 32-bit immediate for new memory repeats the 8-bit one. -/
theorem new_rep (g : Gen) (i : Nat) (h : i < 4) :
    UInt8.ofNat (new32 g / 256 ^ i % 256) = UInt8.ofNat (new8 g) := by
  unfold new32 new8
  match i, h with
  | 0, _ => cases g.uninit <;> cases g.defined <;> rfl
  | 1, _ => cases g.uninit <;> cases g.defined <;> rfl
  | 2, _ => cases g.uninit <;> cases g.defined <;> rfl
  | 3, _ => cases g.uninit <;> cases g.defined <;> rfl

section
variable {c : Umbra32.Cfg} (hc : c.Valid) (hS : S c = 16384) (g : Gen) {k b ebx esp s0 s1 s2 s3 : Nat}
include hc hS

/-! ## Increasing addresses -/

theorem popTail (hbW : b + S c < W) (n : Nat) : ∀ {m : Map} {o eax : Nat} {fl : Fl}, Inv c m → getBlock c m k = b →
    ¬ Shared c m b → o + n ≤ S c →
    ∃ ecx edx fl' m', Reaches (prog g)
      (.at (find .popUnalignedLoop (prog g)) ⟨eax, n, b + o, ebx, esp, s0, s1, s2, s3, fl, m⟩)
      (.at (find .popOneDone (prog g)) ⟨eax, ecx, edx, ebx, esp, s0, s1, s2, s3, fl', m'⟩) ∧
      Marked c (UInt8.ofNat (unaddr8 g)) (fun t => k * S c + o ≤ t ∧ t < k * S c + o + n) m m' := by
  induction n with
  | zero =>
    intro m o eax fl hi hb hns hon
    refine ⟨0, b + o, .cmp 0 0, m, ?_, (Marked.refl hi).congr (fun t => ⟨False.elim, fun h => by omega⟩)⟩
    rw [F_popTail]
    stp
    refine jz_t rfl rfl ?_
    rw [F_popTailDone]
    stp
    exact Reaches.refl _ _
  | succ n ih =>
    intro m o eax fl hi hb hns hon
    obtain ⟨m1, e1, k1⟩ := store_marked hc hi (k := k) (o := o) (n := 1) (v := UInt8.ofNat (unaddr8 g))
      (f := fun _ => UInt8.ofNat (unaddr8 g)) (fun _ _ => rfl) (by rw [hb]; exact hns) (by omega)
    obtain ⟨ecx, edx, fl', m', r, k2⟩ := ih (o := o + 1) (eax := eax) (fl := .unk) k1.inv ((k1.blk k).trans hb)
      (fun h => hns ((k1.shared b).1 h)) (by omega)
    refine ⟨ecx, edx, fl', m', ?_, (k1.trans k2).congr (fun t => by omega)⟩
    rw [F_popTail]
    stp
    refine jz_f rfl (by omega) ?_
    refine st8_ok (m' := m1) (by rw [← e1, hb]; rfl) ?_
    stp; stp; stp
    refine regs eax n (b + (o + 1)) ebx rfl ?_ ?_ rfl r
    · rw [W_eq] at hbW ⊢; omega
    · rw [W_eq] at hbW ⊢; omega

theorem popQuads (hbW : b + S c < W) (j : Nat) : ∀ {m : Map} {o eax : Nat} {fl : Fl}, Inv c m → getBlock c m k = b →
    ¬ Shared c m b → o + 4 * j ≤ S c →
    ∃ fl' m', Reaches (prog g)
      (.at (find .popAlignedLoop (prog g)) ⟨eax, j, b + o, ebx, esp, s0, s1, s2, s3, fl, m⟩)
      (.at (find .popAlignedDone (prog g)) ⟨eax, 0, b + (o + 4 * j), ebx, esp, s0, s1, s2, s3, fl', m'⟩) ∧
      Marked c (UInt8.ofNat (unaddr8 g)) (fun t => k * S c + o ≤ t ∧ t < k * S c + o + 4 * j) m m' := by
  induction j with
  | zero =>
    intro m o eax fl hi hb hns hon
    refine ⟨.cmp 0 0, m, ?_, (Marked.refl hi).congr (fun t => ⟨False.elim, fun h => by omega⟩)⟩
    rw [F_popAlLoop]
    stp
    refine jz_t rfl rfl ?_
    exact Reaches.refl _ _
  | succ n ih =>
    intro m o eax fl hi hb hns hon
    obtain ⟨m1, e1, k1⟩ := store_marked hc hi (k := k) (o := o) (n := 4) (v := UInt8.ofNat (unaddr8 g))
      (f := fun i => UInt8.ofNat (unaddr32 g / 256 ^ i % 256)) (unaddr_rep g) (by rw [hb]; exact hns) (by omega)
    obtain ⟨fl', m', r, k2⟩ := ih (o := o + 4) (eax := eax) (fl := .unk) k1.inv ((k1.blk k).trans hb)
      (fun h => hns ((k1.shared b).1 h)) (by omega)
    refine ⟨fl', m', ?_, (k1.trans k2).congr (fun t => by omega)⟩
    rw [F_popAlLoop]
    stp
    refine jz_f rfl (by omega) ?_
    refine st32_ok (m' := m1) (by rw [← e1, hb]; rfl) ?_
    stp; stp; stp
    rw [show b + (o + 4 * (n + 1)) = b + (o + 4 + 4 * n) by omega]
    refine regs eax n (b + (o + 4)) ebx rfl ?_ ?_ rfl r
    · rw [W_eq] at hbW ⊢; omega
    · rw [W_eq] at hbW ⊢; omega

/-- From the aligned part on. -/
theorem popAl (hbW : b + S c < W) {n : Nat} {m : Map} {o eax : Nat} {fl : Fl} (hi : Inv c m)
    (hb : getBlock c m k = b) (hns : ¬ Shared c m b) (hon : o + n ≤ S c) :
    ∃ eax' ecx edx fl' m', Reaches (prog g)
      (.at (find .popAligned (prog g)) ⟨eax, n, b + o, ebx, esp, s0, s1, s2, s3, fl, m⟩)
      (.at (find .popOneDone (prog g)) ⟨eax', ecx, edx, ebx, esp, s0, s1, s2, s3, fl', m'⟩) ∧
      Marked c (UInt8.ofNat (unaddr8 g)) (fun t => k * S c + o ≤ t ∧ t < k * S c + o + n) m m' := by
  obtain ⟨fl1, m1, r1, k1⟩ := popQuads hc hS g (k := k) (ebx := ebx) (esp := esp) (s0 := s0) (s1 := s1) (s2 := s2)
    (s3 := s3) hbW (n / 4) (o := o) (eax := n) (fl := .unk) hi hb hns (by omega)
  obtain ⟨ecx, edx, fl2, m2, r2, k2⟩ := popTail hc hS g (k := k) (ebx := ebx) (esp := esp) (s0 := s0) (s1 := s1)
    (s2 := s2) (s3 := s3) hbW (n % 4) (o := o + 4 * (n / 4)) (eax := n) (fl := .unk) k1.inv ((k1.blk k).trans hb)
    (fun h => hns ((k1.shared b).1 h)) (by omega)
  refine ⟨n, ecx, edx, fl2, m2, ?_, (k1.trans k2).congr (fun t => by omega)⟩
  rw [F_popAl]
  stp; stp; stp
  refine Reaches.trans r1 ?_
  rw [F_popAlDone]
  stp; stp; stp
  rw [and3]
  exact r2

/-- The increasing loop inside one private block marks `n` bytes from offset `o` on. -/
theorem popUn (hbW : b + S c < W) (n : Nat) : ∀ {m : Map} {o eax : Nat} {fl : Fl}, Inv c m → getBlock c m k = b →
    ¬ Shared c m b → o + n ≤ S c →
    ∃ eax' ecx edx fl' m', Reaches (prog g)
      (.at (find .popUnaligned (prog g)) ⟨eax, n, b + o, ebx, esp, s0, s1, s2, s3, fl, m⟩)
      (.at (find .popOneDone (prog g)) ⟨eax', ecx, edx, ebx, esp, s0, s1, s2, s3, fl', m'⟩) ∧
      Marked c (UInt8.ofNat (unaddr8 g)) (fun t => k * S c + o ≤ t ∧ t < k * S c + o + n) m m' := by
  induction n with
  | zero =>
    intro m o eax fl hi hb hns hon
    refine ⟨eax, 0, b + o, .cmp 0 0, m, ?_, (Marked.refl hi).congr (fun t => ⟨False.elim, fun h => by omega⟩)⟩
    rw [F_popUn]
    stp
    refine jz_t rfl rfl ?_
    exact Reaches.refl _ _
  | succ n ih =>
    intro m o eax fl hi hb hns hon
    by_cases h4 : (b + o) % 4 = 0
    · obtain ⟨eax', ecx, edx, fl', m', r, k1⟩ := popAl hc hS g (k := k) (ebx := ebx) (esp := esp) (s0 := s0)
        (s1 := s1) (s2 := s2) (s3 := s3) hbW (n := n + 1) (o := o) (eax := eax)
        (fl := .cmp ((b + o) &&& 3) 0) hi hb hns hon
      refine ⟨eax', ecx, edx, fl', m', ?_, k1⟩
      rw [F_popUn]
      stp
      refine jz_f rfl (by omega) ?_
      stp
      refine jz_t rfl (by rw [and3]; exact h4) ?_
      exact r
    · obtain ⟨m1, e1, k1⟩ := store_marked hc hi (k := k) (o := o) (n := 1) (v := UInt8.ofNat (unaddr8 g))
        (f := fun _ => UInt8.ofNat (unaddr8 g)) (fun _ _ => rfl) (by rw [hb]; exact hns) (by omega)
      obtain ⟨eax', ecx, edx, fl', m', r, k2⟩ := ih (o := o + 1) (eax := eax) (fl := .unk) k1.inv
        ((k1.blk k).trans hb) (fun h => hns ((k1.shared b).1 h)) (by omega)
      refine ⟨eax', ecx, edx, fl', m', ?_, (k1.trans k2).congr (fun t => by omega)⟩
      rw [F_popUn]
      stp
      refine jz_f rfl (by omega) ?_
      stp
      refine jz_f rfl (by rw [and3]; exact h4) ?_
      refine st8_ok (m' := m1) (by rw [← e1, hb]; rfl) ?_
      stp; stp; stp
      refine regs eax n (b + (o + 1)) ebx rfl ?_ ?_ rfl r
      · rw [W_eq] at hbW ⊢; omega
      · rw [W_eq] at hbW ⊢; omega

omit hc in
/-- In a shared block the first store faults. -/
theorem popShared {n : Nat} {m : Map} {o eax : Nat} {fl : Fl} (hi : Inv c m)
    (hb : getBlock c m k = b) (hs : Shared c m b) (hn : 0 < n) (hon : o + n ≤ S c) :
    ∃ eax' ecx edx fl', Reaches (prog g)
      (.at (find .popUnaligned (prog g)) ⟨eax, n, b + o, ebx, esp, s0, s1, s2, s3, fl, m⟩)
      (.at (find .slowpath (prog g)) ⟨eax', ecx, edx, ebx, esp, s0, s1, s2, s3, fl', m⟩) := by
  have hst : ∀ (q : Nat) (f : Nat → UInt8), 0 < q → Umbra32.store m (b + o) q f = none := by
    intro q f hq
    have := store_shared hi (k := k) (o := o) (n := q) (f := f) (by rw [hb]; exact hs) hq (by omega)
    rwa [hb] at this
  by_cases h4 : (b + o) % 4 = 0
  · by_cases hq : n / 4 = 0
    · apply Exists.intro; apply Exists.intro; apply Exists.intro; apply Exists.intro
      rw [F_popUn]
      stp
      refine jz_f rfl (by omega) ?_
      stp
      refine jz_t rfl (by rw [and3]; exact h4) ?_
      rw [F_popAl]
      stp; stp; stp
      rw [F_popAlLoop]
      stp
      refine jz_t rfl (by omega) ?_
      rw [F_popAlDone]
      stp; stp; stp
      rw [F_popTail]
      stp
      refine jz_f rfl (by rw [and3]; omega) ?_
      refine st8_fault (hst 1 _ (by omega)) ?_
      exact Reaches.refl _ _
    · apply Exists.intro; apply Exists.intro; apply Exists.intro; apply Exists.intro
      rw [F_popUn]
      stp
      refine jz_f rfl (by omega) ?_
      stp
      refine jz_t rfl (by rw [and3]; exact h4) ?_
      rw [F_popAl]
      stp; stp; stp
      rw [F_popAlLoop]
      stp
      refine jz_f rfl (by omega) ?_
      refine st32_fault (hst 4 _ (by omega)) ?_
      exact Reaches.refl _ _
  · apply Exists.intro; apply Exists.intro; apply Exists.intro; apply Exists.intro
    rw [F_popUn]
    stp
    refine jz_f rfl (by omega) ?_
    stp
    refine jz_f rfl (by rw [and3]; exact h4) ?_
    refine st8_fault (hst 1 _ (by omega)) ?_
    exact Reaches.refl _ _

/-! ## Decreasing addresses: `n` bytes, the highest one at offset `o` -/

theorem pushTail (hbW : b + S c < W) (hb0 : 0 < b) (n : Nat) : ∀ {m : Map} {o eax edx : Nat} {fl : Fl}, Inv c m →
    getBlock c m k = b → ¬ Shared c m b → n ≤ o → o ≤ S c → edx = b + o - 1 →
    ∃ ecx edx' fl' m', Reaches (prog g)
      (.at (find .pushUnalignedLoop (prog g)) ⟨eax, n, edx, ebx, esp, s0, s1, s2, s3, fl, m⟩)
      (.at (find .pushOneDone (prog g)) ⟨eax, ecx, edx', ebx, esp, s0, s1, s2, s3, fl', m'⟩) ∧
      Marked c (UInt8.ofNat (new8 g)) (fun t => k * S c + o ≤ t + n ∧ t < k * S c + o) m m' := by
  induction n with
  | zero =>
    intro m o eax edx fl hi hb hns hno hon hedx
    refine ⟨0, edx, .cmp 0 0, m, ?_, (Marked.refl hi).congr (fun t => ⟨False.elim, fun h => by omega⟩)⟩
    rw [F_pushTail]
    stp
    refine jz_t rfl rfl ?_
    rw [F_pushTailDone]
    stp
    exact Reaches.refl _ _
  | succ n ih =>
    intro m o eax edx fl hi hb hns hno hon hedx
    obtain ⟨m1, e1, k1⟩ := store_marked hc hi (k := k) (o := o - 1) (n := 1) (v := UInt8.ofNat (new8 g))
      (f := fun _ => UInt8.ofNat (new8 g)) (fun _ _ => rfl) (by rw [hb]; exact hns) (by omega)
    obtain ⟨ecx, edx', fl', m', r, k2⟩ := ih (o := o - 1) (eax := eax) (edx := b + (o - 1) - 1) (fl := .unk) k1.inv
      ((k1.blk k).trans hb) (fun h => hns ((k1.shared b).1 h)) (by omega) (by omega) rfl
    refine ⟨ecx, edx', fl', m', ?_, (k1.trans k2).congr (fun t => by omega)⟩
    rw [F_pushTail]
    stp
    refine jz_f rfl (by omega) ?_
    refine st8_ok (m' := m1) (by rw [← e1, hb, show b + (o - 1) = edx by omega]; rfl) ?_
    stp; stp; stp
    refine regs eax n (b + (o - 1) - 1) ebx rfl ?_ ?_ rfl r
    · rw [W_eq] at hbW ⊢; omega
    · rw [W_eq] at hbW ⊢; omega

theorem pushQuads (hbW : b + S c < W) (hb4 : 4 ≤ b) (j : Nat) : ∀ {m : Map} {o eax edx : Nat} {fl : Fl}, Inv c m →
    getBlock c m k = b → ¬ Shared c m b → 4 * j ≤ o → o ≤ S c → edx = b + o - 4 →
    ∃ fl' m', Reaches (prog g)
      (.at (find .pushAlignedLoop (prog g)) ⟨eax, j, edx, ebx, esp, s0, s1, s2, s3, fl, m⟩)
      (.at (find .pushAlignedDone (prog g)) ⟨eax, 0, b + (o - 4 * j) - 4, ebx, esp, s0, s1, s2, s3, fl', m'⟩) ∧
      Marked c (UInt8.ofNat (new8 g)) (fun t => k * S c + o ≤ t + 4 * j ∧ t < k * S c + o) m m' := by
  induction j with
  | zero =>
    intro m o eax edx fl hi hb hns hno hon hedx
    refine ⟨.cmp 0 0, m, ?_, (Marked.refl hi).congr (fun t => ⟨False.elim, fun h => by omega⟩)⟩
    rw [F_pushAlLoop]
    stp
    refine jz_t rfl rfl ?_
    refine regs eax 0 (b + (o - 4 * 0) - 4) ebx rfl rfl (by omega) rfl ?_
    exact Reaches.refl _ _
  | succ n ih =>
    intro m o eax edx fl hi hb hns hno hon hedx
    obtain ⟨m1, e1, k1⟩ := store_marked hc hi (k := k) (o := o - 4) (n := 4) (v := UInt8.ofNat (new8 g))
      (f := fun i => UInt8.ofNat (new32 g / 256 ^ i % 256)) (new_rep g) (by rw [hb]; exact hns) (by omega)
    obtain ⟨fl', m', r, k2⟩ := ih (o := o - 4) (eax := eax) (edx := b + (o - 4) - 4) (fl := .unk) k1.inv
      ((k1.blk k).trans hb) (fun h => hns ((k1.shared b).1 h)) (by omega) (by omega) rfl
    refine ⟨fl', m', ?_, (k1.trans k2).congr (fun t => by omega)⟩
    rw [F_pushAlLoop]
    stp
    refine jz_f rfl (by omega) ?_
    refine st32_ok (m' := m1) (by rw [← e1, hb, show b + (o - 4) = edx by omega]; rfl) ?_
    stp; stp; stp
    rw [show b + (o - 4 * (n + 1)) - 4 = b + (o - 4 - 4 * n) - 4 by omega]
    refine regs eax n (b + (o - 4) - 4) ebx rfl ?_ ?_ rfl r
    · rw [W_eq] at hbW ⊢; omega
    · rw [W_eq] at hbW ⊢; omega

/-- From the aligned part on: the highest byte is at `o`, `n + 1` bytes remain. -/
theorem pushAl (hbW : b + S c < W) (hb4 : 4 ≤ b) {n : Nat} {m : Map} {o eax : Nat} {fl : Fl} (hi : Inv c m)
    (hb : getBlock c m k = b) (hns : ¬ Shared c m b) (hno : n ≤ o) (hon : o < S c) :
    ∃ eax' ecx edx fl' m', Reaches (prog g)
      (.at (find .pushAligned (prog g)) ⟨eax, W - (n + 1), b + o, ebx, esp, s0, s1, s2, s3, fl, m⟩)
      (.at (find .pushOneDone (prog g)) ⟨eax', ecx, edx, ebx, esp, s0, s1, s2, s3, fl', m'⟩) ∧
      Marked c (UInt8.ofNat (new8 g)) (fun t => k * S c + o ≤ t + n ∧ t ≤ k * S c + o) m m' := by
  obtain ⟨m1, e1, k1⟩ := store_marked hc hi (k := k) (o := o) (n := 1) (v := UInt8.ofNat (new8 g))
    (f := fun _ => UInt8.ofNat (new8 g)) (fun _ _ => rfl) (by rw [hb]; exact hns) (by omega)
  obtain ⟨fl2, m2, r2, k2⟩ := pushQuads hc hS g (k := k) (ebx := ebx) (esp := esp) (s0 := s0) (s1 := s1) (s2 := s2)
    (s3 := s3) hbW hb4 (n / 4) (o := o) (eax := n) (edx := b + o - 4) (fl := .unk) k1.inv ((k1.blk k).trans hb)
    (fun h => hns ((k1.shared b).1 h)) (by omega) (by omega) rfl
  have k12 := k1.trans k2
  obtain ⟨ecx, edx, fl3, m3, r3, k3⟩ := pushTail hc hS g (k := k) (ebx := ebx) (esp := esp) (s0 := s0) (s1 := s1)
    (s2 := s2) (s3 := s3) hbW (by omega) (n % 4) (o := o - 4 * (n / 4)) (eax := n)
    (edx := b + (o - 4 * (n / 4)) - 1) (fl := .unk) k2.inv ((k12.blk k).trans hb)
    (fun h => hns ((k12.shared b).1 h)) (by omega) (by omega) rfl
  refine ⟨n, ecx, edx, fl3, m3, ?_, (k12.trans k3).congr (fun t => by omega)⟩
  rw [F_pushAl]
  refine st8_ok (m' := m1) (by rw [← e1, hb]; rfl) ?_
  stp; stp; stp; stp; stp; stp
  have hW := W_eq
  have hH := H_eq
  have e3 : (W - (W - (n + 1) + 1) % W) % W = n := by rw [W_eq] at hbW ⊢; omega
  rw [e3]
  refine regs n (n / 4) (b + o - 4) ebx rfl ?_ ?_ rfl ?_
  · rw [sarv, if_pos (by omega)]
  · rw [W_eq] at hbW ⊢; omega
  refine Reaches.trans r2 ?_
  rw [F_pushAlDone]
  stp; stp; stp; stp
  rw [and3]
  refine regs n (n % 4) (b + (o - 4 * (n / 4)) - 1) ebx rfl rfl ?_ rfl r3
  rw [W_eq] at hbW ⊢; omega

/-- The decreasing loop inside one private block marks `n` bytes down from offset `o`. -/
theorem pushUn (hbW : b + S c < W) (hb4 : 4 ≤ b) (n : Nat) : ∀ {m : Map} {o eax edx : Nat} {fl : Fl}, Inv c m →
    getBlock c m k = b → ¬ Shared c m b → n ≤ o → o ≤ S c → edx = b + o - 1 →
    ∃ eax' ecx edx' fl' m', Reaches (prog g)
      (.at (find .pushUnaligned (prog g)) ⟨eax, (W - n) % W, edx, ebx, esp, s0, s1, s2, s3, fl, m⟩)
      (.at (find .pushOneDone (prog g)) ⟨eax', ecx, edx', ebx, esp, s0, s1, s2, s3, fl', m'⟩) ∧
      Marked c (UInt8.ofNat (new8 g)) (fun t => k * S c + o ≤ t + n ∧ t < k * S c + o) m m' := by
  induction n with
  | zero =>
    intro m o eax edx fl hi hb hns hno hon hedx
    have h0 : (W - 0) % W = 0 := by rw [Nat.sub_zero, Nat.mod_self]
    rw [h0]
    refine ⟨eax, 0, edx, .cmp 0 0, m, ?_,
      (Marked.refl hi).congr (fun t => ⟨False.elim, fun h => by omega⟩)⟩
    rw [F_pushUn]
    stp
    refine jz_t rfl rfl ?_
    exact Reaches.refl _ _
  | succ n ih =>
    intro m o eax edx fl hi hb hns hno hon hedx
    have hn : (W - (n + 1)) % W = W - (n + 1) := by rw [W_eq]; omega
    have hn0 : W - (n + 1) ≠ 0 := by rw [W_eq] at hbW ⊢; omega
    rw [hn]
    have he : edx = b + (o - 1) := by omega
    by_cases h4 : edx % 4 = 0
    · obtain ⟨eax', ecx, edx', fl', m', r, k1⟩ := pushAl hc hS g (k := k) (ebx := ebx) (esp := esp) (s0 := s0)
        (s1 := s1) (s2 := s2) (s3 := s3) hbW hb4 (n := n) (o := o - 1) (eax := eax)
        (fl := .cmp (edx &&& 3) 0) hi hb hns (by omega) (by omega)
      refine ⟨eax', ecx, edx', fl', m', ?_, k1.congr (fun t => by omega)⟩
      rw [F_pushUn]
      stp
      refine jz_f rfl hn0 ?_
      stp
      refine jz_t rfl (by rw [and3]; exact h4) ?_
      rw [← he] at r
      exact r
    · obtain ⟨m1, e1, k1⟩ := store_marked hc hi (k := k) (o := o - 1) (n := 1) (v := UInt8.ofNat (new8 g))
        (f := fun _ => UInt8.ofNat (new8 g)) (fun _ _ => rfl) (by rw [hb]; exact hns) (by omega)
      obtain ⟨eax', ecx, edx', fl', m', r, k2⟩ := ih (o := o - 1) (eax := eax) (edx := b + (o - 1) - 1) (fl := .unk)
        k1.inv ((k1.blk k).trans hb) (fun h => hns ((k1.shared b).1 h)) (by omega) (by omega) rfl
      refine ⟨eax', ecx, edx', fl', m', ?_, (k1.trans k2).congr (fun t => by omega)⟩
      rw [F_pushUn]
      stp
      refine jz_f rfl hn0 ?_
      stp
      refine jz_f rfl (by rw [and3]; exact h4) ?_
      refine st8_ok (m' := m1) (by rw [← e1, hb, ← he]; rfl) ?_
      stp; stp; stp
      refine regs eax ((W - n) % W) (b + (o - 1) - 1) ebx rfl ?_ ?_ rfl r
      · rw [W_eq] at hbW ⊢; omega
      · rw [W_eq] at hbW ⊢; omega

omit hc in
/-- In a shared block the first store faults. -/
theorem pushShared {n : Nat} {m : Map} {o eax edx : Nat} {fl : Fl} (hi : Inv c m)
    (hb : getBlock c m k = b) (hs : Shared c m b) (hn : 0 < n) (hnW : n < W) (ho : 0 < o) (hon : o ≤ S c)
    (hedx : edx = b + (o - 1)) :
    ∃ eax' ecx edx' fl', Reaches (prog g)
      (.at (find .pushUnaligned (prog g)) ⟨eax, (W - n) % W, edx, ebx, esp, s0, s1, s2, s3, fl, m⟩)
      (.at (find .slowpath (prog g)) ⟨eax', ecx, edx', ebx, esp, s0, s1, s2, s3, fl', m⟩) := by
  have hst : ∀ (q : Nat) (f : Nat → UInt8), 0 < q → Umbra32.store m edx q f = none := by
    intro q f hq
    have := store_shared hi (k := k) (o := o - 1) (n := q) (f := f) (by rw [hb]; exact hs) hq (by omega)
    rwa [hb, ← hedx] at this
  have hn0 : (W - n) % W ≠ 0 := by rw [W_eq] at hnW ⊢; omega
  by_cases h4 : edx % 4 = 0
  · apply Exists.intro; apply Exists.intro; apply Exists.intro; apply Exists.intro
    rw [F_pushUn]
    stp
    refine jz_f rfl hn0 ?_
    stp
    refine jz_t rfl (by rw [and3]; exact h4) ?_
    rw [F_pushAl]
    refine st8_fault (hst 1 _ (by omega)) ?_
    exact Reaches.refl _ _
  · apply Exists.intro; apply Exists.intro; apply Exists.intro; apply Exists.intro
    rw [F_pushUn]
    stp
    refine jz_f rfl hn0 ?_
    stp
    refine jz_f rfl (by rw [and3]; exact h4) ?_
    refine st8_fault (hst 1 _ (by omega)) ?_
    exact Reaches.refl _ _

end

end Verif.EspFast
