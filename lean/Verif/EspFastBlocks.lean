import Verif.EspFastLoop
/-!
# From block to block
-/
set_option linter.unusedSimpArgs false
namespace Verif.EspFast
open Umbra32 (Map W W_eq getBlock view Shared Inv S)

/-- The shadow indices of the `n` dwords from address `a` on (addresses wrap at 2^32). -/
def InR (a n t : Nat) : Prop := t < 1073741824 ∧ (t + (1073741824 - a / 4)) % 1073741824 < n

/-- Where the change of the stack pointer starts: after the return address for `ret n`. -/
def base (g : Gen) (esp : Nat) : Nat := if g.ty = .retImmed then (esp + 4) % W else esp

/-- The new stack pointer, from the argument of the routine: the value itself or a difference. -/
def target (g : Gen) (esp val : Nat) : Nat := if isAbs g.ty then val else (base g esp + val) % W

theorem slt_pos {x : Nat} (h : 0 < x) (h' : x < H) : slt 0 x = true := by
  have := H_eq
  unfold slt
  rw [decide_eq_true_eq, W_eq]; omega

theorem slt_pos' {x : Nat} (h' : x < H) : slt x 0 = false := by
  have := H_eq
  unfold slt
  rw [decide_eq_false_iff_not, W_eq]; omega

theorem slt_neg {x : Nat} (h : H ≤ x) (h' : x < W) : slt x 0 = true := by
  have := H_eq
  rw [W_eq] at h'
  unfold slt
  rw [decide_eq_true_eq, W_eq]; omega

theorem slt_neg' {x : Nat} (h : H ≤ x) (h' : x < W) : slt 0 x = false := by
  have := H_eq
  rw [W_eq] at h'
  unfold slt
  rw [decide_eq_false_iff_not, W_eq]; omega

theorem addTable_ok {p r : List I} {s : St} {z : Cfg} {d x : R} (h : s.get x < 65536)
    (h' : Reaches p (.at r (s.arith d ((s.get d + s.map.table (s.get x)) % W))) z) :
    Reaches p (.at (.addTable d x :: r) s) z := by
  refine Reaches.head ?_
  simp only [step]
  rw [if_pos h]; exact h'

theorem dec_sub {p r : List I} {z : Cfg} {b d e e' eax ecx esp s0 s1 s2 s3 : Nat} {fl : Fl} {m : Map}
    (h1 : (b + (W - 1)) % W = e) (h2 : (e + (W - d)) % W = e')
    (h : ∀ fl, Reaches p (.at r ⟨eax, ecx, d, e', esp, s0, s1, s2, s3, fl, m⟩) z) :
    Reaches p (.at (.dec .ebx :: .sub .ebx .edx :: r) ⟨eax, ecx, d, b, esp, s0, s1, s2, s3, fl, m⟩) z := by
  stp
  rw [h1]
  stp
  rw [h2]
  exact h _

section
variable {c : Umbra32.Cfg} (hc : c.Valid) (hm : c.m = 1) (hg4 : c.g = 4) (g : Gen) {esp s0 s1 s2 s3 : Nat}
include hc hm hg4

theorem S4 : S c = 16384 := by
  rw [Umbra32.S_eq hc, hm, hg4, Umbra32.B_eq]

/-- The inserted lookup finds the block and the offset in it. -/
theorem lookup_addr {m : Map} (hi : Inv c m) {a : Nat} (ha : a < W) :
    (a / 2 ^ 2 + m.table (a / 2 ^ 16)) % W = getBlock c m (a / 65536) + a % 65536 / 4 := by
  have h := Umbra32.C59_inserted_x86 hc m ha
  rw [Umbra32.appToShadow_eq hc hi, Umbra32.genX86, Umbra32.B_eq] at h
  unfold Umbra32.scale at h
  rw [hm, hg4, Nat.mul_one, Nat.mul_one] at h
  rw [Nat.mod_eq_of_lt (show a / 4 < W by omega),
    Nat.mod_eq_of_lt (show a % 65536 / 4 < W by rw [W_eq]; omega)] at h
  exact h

/-- Translation and choice of the number of bytes in this block, increasing. -/
theorem popEnter {m : Map} (hi : Inv c m) {a rem eax ebx : Nat} {fl : Fl} (ha : a < W) (h4 : a % 4 = 0)
    (h0 : 0 < rem) (hH : rem < H) :
    ∃ fl', Reaches (prog g)
      (.at (find .shadowLookup (prog g)) ⟨eax, rem, a, ebx, esp, s0, s1, s2, s3, fl, m⟩)
      (.at (find .popUnaligned (prog g))
        ⟨a, min rem (16384 - a % 65536 / 4), getBlock c m (a / 65536) + a % 65536 / 4,
          rem - min rem (16384 - a % 65536 / 4), esp, s0, s1, s2, s3, fl', m⟩) := by
  have hS := S4 hc hm hg4
  have hb := hi.bound _ (hi.tbl (a / 65536))
  have hHe := H_eq
  have hla := lookup_addr hc hm hg4 hi ha
  generalize hbg : getBlock c m (a / 65536) = b at *
  rw [hS] at hb
  have ebx_ok : ((W - a % 65536 / 2 ^ 2) % W + (b + a % 65536 / 4)) % W = b := by
    rw [W_eq] at hb ⊢; omega
  have room_ok : ((b + blockSize) % W + (W - (b + a % 65536 / 4))) % W = 16384 - a % 65536 / 4 := by
    unfold blockSize; rw [W_eq] at hb ⊢; omega
  by_cases hr : rem ≤ 16384 - a % 65536 / 4
  · refine ⟨.unk, ?_⟩
    rw [F_lookup]
    stp; stp
    refine jnz_f rfl (by rw [and3]; exact h4) ?_
    stp; stp; stp
    refine addTable_ok (by show a / 2 ^ 16 < 65536; rw [W_eq] at ha; omega) ?_
    simp only [St.get, St.set, St.arith]
    rw [hla]
    stp; stp; stp; stp; stp
    rw [ebx_ok]
    stp
    refine jl_f rfl (slt_pos' hH) ?_
    stp; stp
    rw [room_ok]
    stp
    refine jae_t rfl hr ?_
    rw [F_popOne]
    stp; stp
    rw [Nat.min_eq_left hr, Nat.sub_self]
    exact Reaches.refl _ _
  · refine ⟨.unk, ?_⟩
    rw [F_lookup]
    stp; stp
    refine jnz_f rfl (by rw [and3]; exact h4) ?_
    stp; stp; stp
    refine addTable_ok (by show a / 2 ^ 16 < 65536; rw [W_eq] at ha; omega) ?_
    simp only [St.get, St.set, St.arith]
    rw [hla]
    stp; stp; stp; stp; stp
    rw [ebx_ok]
    stp
    refine jl_f rfl (slt_pos' hH) ?_
    stp; stp
    rw [room_ok]
    stp
    refine jae_f rfl hr ?_
    stp; stp; stp
    rw [Nat.min_eq_right (by omega)]
    refine regs a (16384 - a % 65536 / 4) (b + a % 65536 / 4) (rem - (16384 - a % 65536 / 4)) rfl rfl rfl ?_ ?_
    · rw [W_eq]; omega
    exact Reaches.refl _ _

/-- Translation and choice of the number of bytes in this block, decreasing. -/
theorem pushEnter {m : Map} (hi : Inv c m) {a r eax ebx : Nat} {fl : Fl} (ha : a < W) (h4 : a % 4 = 0)
    (h0 : 0 < r) (hH : r ≤ H) :
    ∃ fl', Reaches (prog g)
      (.at (find .shadowLookup (prog g)) ⟨eax, W - r, a, ebx, esp, s0, s1, s2, s3, fl, m⟩)
      (.at (find .pushUnaligned (prog g))
        ⟨a, (W - min r (a % 65536 / 4 + 1)) % W, getBlock c m (a / 65536) + a % 65536 / 4,
          (W - (r - min r (a % 65536 / 4 + 1))) % W, esp, s0, s1, s2, s3, fl', m⟩) := by
  have hS := S4 hc hm hg4
  have hb := hi.bound _ (hi.tbl (a / 65536))
  have hHe := H_eq
  have hla := lookup_addr hc hm hg4 hi ha
  generalize hbg : getBlock c m (a / 65536) = b at *
  rw [hS] at hb
  have ebx_ok : ((W - a % 65536 / 2 ^ 2) % W + (b + a % 65536 / 4)) % W = b := by
    rw [W_eq] at hb ⊢; omega
  have room_ok : ((b + (W - 1)) % W + (W - (b + a % 65536 / 4))) % W = W - (a % 65536 / 4 + 1) := by
    rw [W_eq] at hb ⊢; omega
  have hneg : slt (W - r) 0 = true := slt_neg (by rw [W_eq]; omega) (by rw [W_eq]; omega)
  have hrW : (W - r) % W = W - r := by rw [W_eq]; omega
  by_cases hr : r ≤ a % 65536 / 4 + 1
  · refine ⟨.unk, ?_⟩
    rw [F_lookup]
    stp; stp
    refine jnz_f rfl (by rw [and3]; exact h4) ?_
    stp; stp; stp
    refine addTable_ok (by show a / 2 ^ 16 < 65536; rw [W_eq] at ha; omega) ?_
    simp only [St.get, St.set, St.arith]
    rw [hla]
    stp; stp; stp; stp; stp
    rw [ebx_ok]
    stp
    refine jl_t rfl hneg ?_
    rw [F_push]
    refine dec_sub rfl room_ok (fun fl => ?_)
    stp
    refine jbe_t rfl (by omega) ?_
    rw [F_pushOne]
    stp; stp
    rw [Nat.min_eq_left hr, Nat.sub_self, hrW, Nat.sub_zero, Nat.mod_self]
    exact Reaches.refl _ _
  · refine ⟨.unk, ?_⟩
    rw [F_lookup]
    stp; stp
    refine jnz_f rfl (by rw [and3]; exact h4) ?_
    stp; stp; stp
    refine addTable_ok (by show a / 2 ^ 16 < 65536; rw [W_eq] at ha; omega) ?_
    simp only [St.get, St.set, St.arith]
    rw [hla]
    stp; stp; stp; stp; stp
    rw [ebx_ok]
    stp
    refine jl_t rfl hneg ?_
    rw [F_push]
    refine dec_sub rfl room_ok (fun fl => ?_)
    stp
    refine jbe_f rfl (by rw [W_eq]; omega) ?_
    stp; stp; stp
    rw [Nat.min_eq_right (by omega)]
    refine regs a ((W - (a % 65536 / 4 + 1)) % W) (b + a % 65536 / 4) ((W - (r - (a % 65536 / 4 + 1))) % W)
      rfl ?_ rfl ?_ ?_
    · rw [W_eq]; omega
    · rw [W_eq]; omega
    exact Reaches.refl _ _

omit hc hm hg4 in
/-- Going on with the next block: the address is computed from the target and the remaining count. -/
theorem nextRun {m : Map} {q eax edx ebx : Nat} {fl : Fl} (hty : g.ty ≠ .and) (hesp : esp < W)
    (hq : q < 536870912 ∨ (W - 536870912 ≤ q ∧ q < W)) :
    ∃ eax' ebx' fl', Reaches (prog g)
      (.at (find .loopNextShadow (prog g)) ⟨eax, q, edx, ebx, esp, s0, s1, s2, s3, fl, m⟩)
      (.at (find .loopShadowLookup (prog g))
        ⟨eax', q, (target g esp s1 + (W - q * 4 % W)) % W, ebx', esp, s0, s1, s2, s3, fl', m⟩) := by
  obtain ⟨r, hr⟩ := F_next g
  rw [hr]
  have hHe := H_eq
  have hsar : sarv (q * 2 ^ 2 % W) 2 = q := by
    unfold sarv
    rw [W_eq] at hq ⊢
    split <;> omega
  rcases g with ⟨ty, d, lv, u, th⟩
  cases ty
  case absolute =>
    refine ⟨eax, (s1 + (W - esp)) % W, .unk, ?_⟩
    simp only [nextTail, nextCode, reduceCtorEq, if_false, if_true, List.cons_append, List.nil_append,
      List.tail_cons, decide_true, decide_false, Bool.true_or, Bool.or_true]
    stp; stp; stp; stp; stp; stp; stp; stp
    refine regs eax q ((target ⟨.absolute, d, lv, u, th⟩ esp s1 + (W - q * 4 % W)) % W) _ rfl hsar ?_ rfl ?_
    · simp only [target, isAbs, decide_true, Bool.true_or, if_true]
      rw [W_eq] at hesp ⊢; omega
    exact Reaches.refl _ _
  case absolutePostpop =>
    refine ⟨eax, (s1 + (W - esp)) % W, .unk, ?_⟩
    simp only [nextTail, nextCode, reduceCtorEq, if_false, if_true, List.cons_append, List.nil_append,
      List.tail_cons, decide_true, decide_false, Bool.true_or, Bool.or_true]
    stp; stp; stp; stp; stp; stp; stp; stp
    refine regs eax q ((target ⟨.absolutePostpop, d, lv, u, th⟩ esp s1 + (W - q * 4 % W)) % W) _ rfl hsar ?_ rfl ?_
    · simp only [target, isAbs, decide_true, Bool.true_or, Bool.or_true, if_true]
      rw [W_eq] at hesp ⊢; omega
    exact Reaches.refl _ _
  case negative =>
    refine ⟨eax, ebx, .unk, ?_⟩
    simp only [nextTail, nextCode, reduceCtorEq, if_false, if_true, List.cons_append, List.nil_append,
      List.tail_cons, decide_true, decide_false, Bool.false_or, Bool.or_false, Bool.false_eq_true]
    stp; stp; stp; stp; stp; stp
    refine regs eax q ((target ⟨.negative, d, lv, u, th⟩ esp s1 + (W - q * 4 % W)) % W) _ rfl hsar ?_ rfl ?_
    · simp only [target, isAbs, base, reduceCtorEq, decide_false, Bool.or_false, if_false, Bool.false_eq_true]
    exact Reaches.refl _ _
  case positive =>
    refine ⟨eax, ebx, .unk, ?_⟩
    simp only [nextTail, nextCode, reduceCtorEq, if_false, if_true, List.cons_append, List.nil_append,
      List.tail_cons, decide_true, decide_false, Bool.false_or, Bool.or_false, Bool.false_eq_true]
    stp; stp; stp; stp; stp; stp
    refine regs eax q ((target ⟨.positive, d, lv, u, th⟩ esp s1 + (W - q * 4 % W)) % W) _ rfl hsar ?_ rfl ?_
    · simp only [target, isAbs, base, reduceCtorEq, decide_false, Bool.or_false, if_false, Bool.false_eq_true]
    exact Reaches.refl _ _
  case retImmed =>
    refine ⟨eax, ebx, .unk, ?_⟩
    simp only [nextTail, nextCode, reduceCtorEq, if_false, if_true, List.cons_append, List.nil_append,
      List.tail_cons, decide_true, decide_false, Bool.false_or, Bool.or_false, Bool.false_eq_true]
    stp; stp; stp; stp; stp; stp; stp
    refine regs eax q ((target ⟨.retImmed, d, lv, u, th⟩ esp s1 + (W - q * 4 % W)) % W) _ rfl hsar ?_ rfl ?_
    · simp only [target, isAbs, base, reduceCtorEq, decide_false, Bool.or_false, if_false, if_true, Bool.false_eq_true]
    exact Reaches.refl _ _
  case and => exact absurd rfl hty

end

end Verif.EspFast
