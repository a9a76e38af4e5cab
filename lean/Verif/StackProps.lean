import Verif.Stack

/-!
# What the shadow of the stack means

C51, stated with the stack pointer of the machine: the bytes of a stack are addressable
exactly from the red zone up; memory that has been given back is not considered
initialised until it is written again.
-/

namespace Verif.Stack

open Verif.Define (Sh)
open Verif.MemRef

/-- The stack pointer of the machine after an instruction. -/
def Ev.sp (ptr : Nat) (sp : Nat) : Ev → Nat
  | .push n _ => sp - n
  | .pop n _ => sp + n
  | .sub n => ((sp : Int) - n).toNat
  | .add n => ((sp : Int) + n).toNat
  | .mov v => v
  | .and k => sp &&& k
  | .leave bp => bp + ptr
  | .retImm n => sp + ptr + n
  | .enter n _ => sp - ptr - n
  | .ref .. => sp

/-- One instruction. -/
def step (c : Cfg) (thresh : Nat) (act : Action) (m : M) (e : Ev) : M :=
  ⟨e.sp c.ptr m.sp, e.shadow c thresh act m⟩

/-- The stack `[lo, hi)` with the stack pointer `sp` and a red zone of `rz` bytes. -/
structure Ok (lo hi rz : Nat) (m : M) : Prop where
  low : lo + rz ≤ m.sp
  high : m.sp ≤ hi
  addr : ∀ a, lo ≤ a → a < hi → (m.sh a = .unaddr ↔ a + rz < m.sp)
  plain : ∀ a, m.sh a ≠ .bitlevel

/-- Instructions that use the stack as a stack.  An absolute move is either below the
swap threshold or from inside the stack to inside the stack. -/
def Legal (lo hi : Nat) (c : Cfg) (thresh : Nat) (sp : Nat) : Ev → Prop
  | .push n val => n ≤ sp ∧ lo + c.mem.redzone ≤ sp - n ∧ (c.mem.redzone = 0 ∨ n ≤ c.mem.redzone) ∧
      ∀ j, val j = .defined ∨ val j = .undef
  | .pop n _ => sp + n ≤ hi ∧ (c.mem.redzone = 0 ∨ n ≤ c.mem.redzone)
  | .sub n => (lo + c.mem.redzone : Int) ≤ sp - n ∧ (sp : Int) - n ≤ hi
  | .add n => (lo + c.mem.redzone : Int) ≤ sp + n ∧ (sp : Int) + n ≤ hi
  | .mov v => lo + c.mem.redzone ≤ v ∧ v ≤ hi ∧
      ((v ≤ sp + thresh ∧ sp ≤ v + thresh) ∨ (sp < hi ∧ v < hi))
  | .and k => lo + c.mem.redzone ≤ sp &&& k ∧ (sp ≤ (sp &&& k) + thresh ∨ sp < hi)
  | .leave bp => sp ≤ bp ∧ bp + c.ptr ≤ hi ∧ (bp ≤ sp + thresh ∨ bp < hi) ∧
      (c.mem.redzone = 0 ∨ c.ptr ≤ c.mem.redzone)
  | .retImm n => sp + c.ptr + n ≤ hi ∧ (c.mem.redzone = 0 ∨ c.ptr ≤ c.mem.redzone) ∧ c.ptr = 4
  | .enter .. => False
  | .ref _ _ _ _ val => ∀ j, val j = .defined ∨ val j = .undef

/-- The bounds of the stack are known. -/
def Known (lo hi : Nat) (c : Cfg) : Prop := ∀ a, lo ≤ a → a < hi → c.bounds a = some (lo, hi - lo)

/-! ## One adjustment -/

theorem move_addr {c : Cfg} {act : Action} {sp sp' : Nat} {sh : Nat → Sh} {delta : Int}
    (hd : delta = (sp' : Int) - sp) (a : Nat) :
    move c false act sp delta sh a =
      if sp' = sp then sh a
      else if a + c.mem.redzone < sp' then
        (if sp ≤ a + c.mem.redzone then .unaddr else sh a)
      else if c.mem.redzone > 0 ∧ a < sp' then fresh act
      else if a + c.mem.redzone < sp then fresh act
      else sh a := by
  subst hd
  rcases Nat.lt_trichotomy sp sp' with hlt | heq | hgt
  · have e1 : (sp' : Int) - sp > 0 := by omega
    unfold move setRange
    rw [if_pos (show (sp' : Int) - sp ≠ 0 by omega), if_neg (show ¬ sp' = sp by omega)]
    simp only [e1, if_true, Bool.false_eq_true, if_false]
    by_cases hr : c.mem.redzone > 0
    · simp only [hr, if_true, true_and]
      repeat' split
      all_goals first | rfl | (exfalso; omega)
    · simp only [hr, if_false, false_and]
      repeat' split
      all_goals first | rfl | (exfalso; omega)
  · subst heq
    unfold move
    rw [if_neg (by omega), if_pos rfl]
  · have e1 : ¬ (sp' : Int) - sp > 0 := by omega
    unfold move setRange
    rw [if_pos (show (sp' : Int) - sp ≠ 0 by omega), if_neg (show ¬ sp' = sp by omega)]
    simp only [e1, Bool.false_eq_true, if_false]
    by_cases hr : c.mem.redzone > 0
    · simp only [hr, if_true, true_and]
      repeat' split
      all_goals first | rfl | (exfalso; omega)
    · simp only [hr, if_false, false_and]
      repeat' split
      all_goals first | rfl | (exfalso; omega)

/-- The move of `leave`: the slot at `bp` has been popped before. -/
theorem move_leave {c : Cfg} {act : Action} {sp bp : Nat} {sh : Nat → Sh} (h2 : sp ≤ bp)
    (a : Nat) :
    move c true act sp ((bp : Int) - sp) sh a =
      if bp = sp then sh a
      else if a + c.mem.redzone < bp then (if sp ≤ a + c.mem.redzone then .unaddr else sh a)
      else if c.mem.redzone > 0 ∧ bp + c.ptr ≤ a + c.mem.redzone ∧ a < bp + c.ptr then fresh act
      else sh a := by
  by_cases heq : bp = sp
  · subst heq
    unfold move
    rw [if_neg (by omega), if_pos rfl]
  · have e1 : (bp : Int) - sp > 0 := by omega
    unfold move setRange
    rw [if_pos (show (bp : Int) - sp ≠ 0 by omega), if_neg heq]
    simp only [e1, if_true]
    by_cases hr : c.mem.redzone > 0
    · simp only [hr, if_true, true_and]
      repeat' split
      all_goals first | rfl | (exfalso; omega)
    · simp only [hr, if_false, false_and]
      repeat' split
      all_goals first | rfl | (exfalso; omega)

theorem fresh_ne (act : Action) : fresh act ≠ .unaddr ∧ fresh act ≠ .bitlevel := by
  cases act <;> decide

theorem ok_move {lo hi : Nat} {c : Cfg} {act : Action} {m : M} (h : Ok lo hi c.mem.redzone m)
    {sp' : Nat} {delta : Int} (hd : delta = (sp' : Int) - m.sp) (h1 : lo + c.mem.redzone ≤ sp')
    (h2 : sp' ≤ hi) : Ok lo hi c.mem.redzone ⟨sp', move c false act m.sp delta m.sh⟩ := by
  refine ⟨h1, h2, ?_, ?_⟩
  · intro a ha1 ha2
    dsimp only
    rw [move_addr hd]
    have := h.addr a ha1 ha2
    have hf := (fresh_ne act).1
    repeat' split
    · rename_i e; rw [this, e]
    · simp only [true_iff]; omega
    · rw [this]; omega
    · constructor
      · exact fun e => absurd e hf
      · intro e; omega
    · constructor
      · exact fun e => absurd e hf
      · intro e; omega
    · rw [this]; omega
  · intro a
    dsimp only
    rw [move_addr hd]
    have := h.plain a
    have hf := (fresh_ne act).2
    repeat' split
    all_goals first | exact this | exact hf | decide

theorem ok_ref {lo hi : Nat} {c : Cfg} (hc : c.mem.map4 = false) {m : M}
    (h : Ok lo hi c.mem.redzone m) {w d : Bool} {addr n : Nat} {val : Nat → Sh}
    (hv : ∀ j, val j = .defined ∨ val j = .undef) :
    Ok lo hi c.mem.redzone ⟨m.sp, (memRef (refFlags w d) c.mem val addr n m.sh).sh⟩ := by
  refine ⟨h.low, h.high, ?_, ?_⟩
  · intro a ha1 ha2
    dsimp only
    rw [C50_addressability (f := refFlags w d) rfl hc hv addr n m.sh rfl rfl]
    exact h.addr a ha1 ha2
  · intro a
    dsimp only
    cases w with
    | false =>
      rw [C50_read_shadow (f := refFlags false d) rfl hc val addr n m.sh rfl rfl]
      split
      · decide
      · exact h.plain a
    | true =>
      rw [C50_write_shadow_partial (f := refFlags true d) rfl hc val addr n m.sh rfl rfl rfl
        (fun m hm => by cases hm)]
      split
      · rename_i hh; exact hh.2.2.2.2
      · exact h.plain a

/-- A pop of addressable bytes. -/
theorem pop_addr {c : Cfg} (hc : c.mem.map4 = false) (d : Bool) {addr n : Nat} {sh : Nat → Sh}
    (hr : c.mem.redzone = 0 ∨ n ≤ c.mem.redzone) (ha : c.mem.redzone ≤ addr)
    (hs : ∀ j < n, sh (addr + j) ≠ .unaddr) (b : Nat) :
    (memRef (popFlags d) c.mem (fun _ => .defined) addr n sh).sh b =
      if addr ≤ b ∧ b < addr + n then (if c.mem.redzone > 0 then .undef else .unaddr)
      else if addr ≤ b + c.mem.redzone ∧ b + c.mem.redzone < addr + n then .unaddr else sh b := by
  by_cases h0 : c.mem.redzone > 0
  · rw [C50_pop_redzone (f := popFlags d) rfl hc _ addr n (by omega) h0 ha rfl rfl rfl hs, if_pos h0]
  · have h0' : c.mem.redzone = 0 := by omega
    rw [C50_pop (f := popFlags d) rfl hc h0' _ addr n sh rfl rfl rfl, if_neg h0]
    split
    · rfl
    · rw [if_neg (by omega)]

/-- A push. -/
theorem push_addr {c : Cfg} (hc : c.mem.map4 = false) {addr n : Nat} {sh val : Nat → Sh}
    (hv : ∀ j, val j = .defined ∨ val j = .undef)
    (hr : c.mem.redzone = 0 ∨ n ≤ c.mem.redzone) (ha : c.mem.redzone ≤ addr)
    (hs : ∀ a, sh a ≠ .bitlevel) (b : Nat) :
    (memRef pushFlags c.mem val addr n sh).sh b =
      if addr ≤ b ∧ b < addr + n then val (b - addr)
      else if addr ≤ b + c.mem.redzone ∧ b + c.mem.redzone < addr + n then .undef else sh b := by
  have hst : ∀ j, stored pushFlags val sh j = val j := by
    intro j
    unfold stored pushFlags offset
    simp
  by_cases h0 : c.mem.redzone > 0
  · rw [C50_push_redzone (f := pushFlags) rfl hc _ addr n _ (by omega) h0 ha rfl rfl rfl rfl, hst]
  · have h0' : c.mem.redzone = 0 := by omega
    rw [C50_push (f := pushFlags) rfl hc h0'
      (fun j => by rcases hv j with e | e <;> rw [e] <;> decide) addr n (fun j _ => hs _)
      rfl rfl rfl rfl, hst]
    split
    · rfl
    · rw [if_neg (by omega)]

theorem ok_pop {lo hi : Nat} {c : Cfg} (hc : c.mem.map4 = false) {m : M} (d : Bool) {n : Nat}
    (h : Ok lo hi c.mem.redzone m) (hr : c.mem.redzone = 0 ∨ n ≤ c.mem.redzone)
    (hh : m.sp + n ≤ hi) :
    Ok lo hi c.mem.redzone
      ⟨m.sp + n, (memRef (popFlags d) c.mem (fun _ => .defined) m.sp n m.sh).sh⟩ := by
  have hlow := h.low
  have hhigh := h.high
  have hs : ∀ j < n, m.sh (m.sp + j) ≠ .unaddr := by
    intro j hj e
    have := (h.addr (m.sp + j) (by omega) (by omega)).1 e
    omega
  refine ⟨by dsimp only; omega, hh, ?_, ?_⟩
  · intro a ha1 ha2
    dsimp only
    rw [pop_addr hc d hr (by omega) hs]
    have := h.addr a ha1 ha2
    repeat' split
    · constructor
      · intro e; cases e
      · intro e; omega
    · simp only [true_iff]; omega
    · simp only [true_iff]; omega
    · rw [this]; omega
  · intro a
    dsimp only
    rw [pop_addr hc d hr (by omega) hs]
    have := h.plain a
    repeat' split
    all_goals first | exact this | decide

theorem ok_push {lo hi : Nat} {c : Cfg} (hc : c.mem.map4 = false) {m : M} {n : Nat}
    {val : Nat → Sh} (h : Ok lo hi c.mem.redzone m) (hv : ∀ j, val j = .defined ∨ val j = .undef)
    (hr : c.mem.redzone = 0 ∨ n ≤ c.mem.redzone) (hn : n ≤ m.sp)
    (hh : lo + c.mem.redzone ≤ m.sp - n) :
    Ok lo hi c.mem.redzone ⟨m.sp - n, (memRef pushFlags c.mem val (m.sp - n) n m.sh).sh⟩ := by
  have hlow := h.low
  have hhigh := h.high
  have hv' : ∀ j, val j ≠ .unaddr ∧ val j ≠ .bitlevel := by
    intro j
    rcases hv j with e | e <;> rw [e] <;> decide
  refine ⟨hh, by dsimp only; omega, ?_, ?_⟩
  · intro a ha1 ha2
    dsimp only
    rw [push_addr hc hv hr (by omega) h.plain]
    have := h.addr a ha1 ha2
    repeat' split
    · constructor
      · exact fun e => absurd e (hv' _).1
      · intro e; omega
    · constructor
      · intro e; cases e
      · intro e; omega
    · rw [this]; omega
  · intro a
    dsimp only
    rw [push_addr hc hv hr (by omega) h.plain]
    have := h.plain a
    repeat' split
    all_goals first | exact this | exact (hv' _).2 | decide

end Verif.Stack
