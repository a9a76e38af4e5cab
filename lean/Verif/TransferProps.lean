import Verif.Transfer
/-!
# C81: the shadow of the stack when the kernel moves a thread elsewhere

Property theorems.  The specification: what lies below the stack pointer (less the red zone of the ABI)
is unaddressable, what lies above is not (`Spec.Stack`); a signal or callback makes its frame defined,
and after it everything is as before.
-/
namespace Verif.Transfer
open Verif.Mapping (Sh Shadow setRange)

namespace Spec

/-- A stack from `lo` on with the stack pointer `s` and a red zone of `rz` bytes: below the red zone
nothing may be accessed, the red zone and the byte at the stack pointer may. -/
structure Stack (rz lo s : Nat) (sh : Shadow) : Prop where
  room : lo + rz ≤ s
  below : ∀ x, lo ≤ x → x < s - rz → sh x = .unaddr
  zone : ∀ x, s - rz ≤ x → x ≤ s → sh x ≠ .unaddr

/-- The kernel's alternate stack after a call: `SS_AUTODISARM`, bit 31, is no part of the mode. -/
def kernelAlt (alt : Alt) (c : Option Stk × Bool) : Alt :=
  if c.2 then
    match c.1 with
    | none => alt
    | some stk => if stk.flags % 2 ^ 31 = 2 then none else some (stk.sp + stk.size, stk.size)
  else alt

/-- The registers that the two parts of a context hold (`CONTEXT_CONTROL`, `CONTEXT_INTEGER`). -/
def contextRegs (x64 control integer : Bool) (r : Reg) : Bool :=
  match r with
  | .sp => control
  | .bp => if x64 then integer else control
  | .ax | .cx | .dx | .bx | .si | .di => integer
  | _ => x64 && integer

end Spec
open Spec

theorem set_eq (sh : Shadow) (a b : Nat) (v : Sh) (x : Nat) :
    setRange sh a b v x = if a ≤ x ∧ x < b then v else sh x := rfl

theorem walk_spec : ∀ (n : Nat) (sh : Shadow) (sp : Nat),
    sp ≤ (walk n sh sp).2 ∧ (walk n sh sp).2 ≤ sp + n ∧
    (∀ x, sp ≤ x → x < (walk n sh sp).2 → sh x = .unaddr) ∧
    ((walk n sh sp).2 < sp + n → sh (walk n sh sp).2 ≠ .unaddr) ∧
    ∀ x, (walk n sh sp).1 x = if sp ≤ x ∧ x < (walk n sh sp).2 then .defined else sh x
  | 0, sh, sp => by
    refine ⟨Nat.le_refl _, Nat.le_refl _, fun x h1 h2 => ?_, fun h => ?_, fun x => ?_⟩
    · simp only [walk] at h2; omega
    · simp only [walk] at h; omega
    · have h0 : walk 0 sh sp = (sh, sp) := rfl
      rw [h0]
      dsimp only
      rw [if_neg (by omega)]
  | n + 1, sh, sp => by
    by_cases h : sh sp = .unaddr
    · have he : walk (n + 1) sh sp = walk n (setRange sh sp (sp + 1) .defined) (sp + 1) := by
        rw [walk, if_pos h]
      rw [he]
      obtain ⟨i1, i2, i3, i4, i5⟩ := walk_spec n (setRange sh sp (sp + 1) .defined) (sp + 1)
      generalize walk n (setRange sh sp (sp + 1) .defined) (sp + 1) = r at *
      refine ⟨by omega, by omega, fun x h1 h2 => ?_, fun h1 => ?_, fun x => ?_⟩
      · by_cases hx : x = sp
        · rw [hx]; exact h
        · have := i3 x (by omega) h2
          rwa [set_eq, if_neg (by omega)] at this
      · have := i4 (by omega)
        rwa [set_eq, if_neg (by omega)] at this
      · rw [i5 x, set_eq]
        by_cases hx : sp + 1 ≤ x ∧ x < r.2
        · rw [if_pos hx, if_pos (by omega)]
        · rw [if_neg hx]
          by_cases hy : sp ≤ x ∧ x < sp + 1
          · rw [if_pos hy, if_pos (by omega)]
          · rw [if_neg hy, if_neg (by omega)]
    · have he : walk (n + 1) sh sp = (sh, sp) := by rw [walk, if_neg h]
      rw [he]
      dsimp only
      refine ⟨Nat.le_refl _, by omega, fun x h1 h2 => by omega, fun _ => h, fun x => ?_⟩
      rw [if_neg (by omega)]

/-! ## Signals -/

/-- C81: when a signal is delivered on the stack it interrupts, the frame (everything down from the red
zone of the interrupted code) becomes defined, a red zone below it undefined, and nothing else changes;
it is a stack again with the new stack pointer.  For frames of at most 1024 bytes: see
`C81_big_frame`. -/
theorem C81_deliver_partial {rz lo s x : Nat} {alt : Alt} {sh : Shadow} (hs : Stack rz lo s sh)
    (hx : lo + rz ≤ x) (hxs : x ≤ s - rz) (hf : s - rz - x ≤ 1024)
    (ha : ∀ base, onAlt alt x = some base → s - rz ≤ base) :
    (∀ a, deliver true rz alt sh x a =
      if x ≤ a ∧ a < s - rz then .defined
      else if x - rz ≤ a ∧ a < x then .undef else sh a) ∧
    Stack rz lo x (deliver true rz alt sh x) := by
  have hstop : s - rz ≤ stopAt alt x := by
    unfold stopAt maxFrame
    split
    · rename_i base hb
      have := ha base hb
      omega
    · omega
  obtain ⟨w1, w2, w3, w4, w5⟩ := walk_spec (stopAt alt x - x) sh x
  have he : (walk (stopAt alt x - x) sh x).2 = s - rz := by
    apply Nat.le_antisymm
    · apply Nat.le_of_not_lt
      intro hlt
      exact hs.zone (s - rz) (Nat.le_refl _) (by omega) (w3 (s - rz) hxs hlt)
    · apply Nat.le_of_not_lt
      intro hlt
      exact w4 (by omega) (hs.below _ (by omega) hlt)
  rw [he] at w5
  have hv : ∀ a, deliver true rz alt sh x a =
      if x ≤ a ∧ a < s - rz then .defined
      else if x - rz ≤ a ∧ a < x then .undef else sh a := by
    intro a
    unfold deliver
    rw [if_pos rfl]
    by_cases hr : 0 < rz
    · rw [if_pos hr, set_eq, w5 a]
      by_cases h1 : x - rz ≤ a ∧ a < x
      · rw [if_pos h1, if_neg (by omega)]
        rw [if_pos h1]
      · rw [if_neg h1, if_neg h1]
    · rw [if_neg hr, w5 a]
      by_cases h1 : x ≤ a ∧ a < s - rz
      · rw [if_pos h1, if_pos h1]
      · rw [if_neg h1, if_neg h1, if_neg (by omega)]
  refine ⟨hv, hx, ?_, ?_⟩
  · intro a h1 h2
    rw [hv a, if_neg (by omega), if_neg (by omega)]
    exact hs.below a h1 (by omega)
  · intro a h1 h2
    rw [hv a]
    by_cases h3 : x ≤ a ∧ a < s - rz
    · rw [if_pos h3]; exact Sh.noConfusion
    · rw [if_neg h3]
      by_cases h4 : x - rz ≤ a ∧ a < x
      · rw [if_pos h4]; exact Sh.noConfusion
      · rw [if_neg h4]
        exact hs.zone a (by omega) (by omega)

/-- A stack with the stack pointer 9000 interrupted by a frame of 800 bytes. -/
example : ∃ sh : Shadow, Stack 128 4096 9000 sh ∧ 4096 + 128 ≤ 8072 ∧ 8072 ≤ 9000 - 128 ∧
    9000 - 128 - 8072 ≤ 1024 :=
  ⟨fun a => if a < 8872 then .unaddr else .defined,
    ⟨by omega, fun x _ h => if_pos (by omega), fun x h _ => by
      rw [if_neg (by omega)]; exact Sh.noConfusion⟩, by omega, by omega, by omega⟩

/-- C81, against the code: of a larger frame (with the state of vector registers it is) the bytes above
the first 1024 stay unaddressable, though the kernel wrote them for the handler to read. -/
theorem C81_big_frame {rz lo s x : Nat} {alt : Alt} {sh : Shadow} (hs : Stack rz lo s sh)
    (hx : lo ≤ x) {a : Nat} (h1 : x + 1024 ≤ a) (h2 : a < s - rz) :
    deliver true rz alt sh x a = .unaddr := by
  have hstop : stopAt alt x ≤ x + 1024 := by
    unfold stopAt maxFrame
    split <;> omega
  obtain ⟨_, w2, _, _, w5⟩ := walk_spec (stopAt alt x - x) sh x
  have hw : (walk (stopAt alt x - x) sh x).1 a = .unaddr := by
    rw [w5 a, if_neg (by omega)]
    exact hs.below a (by omega) h2
  unfold deliver
  rw [if_pos rfl]
  by_cases hr : 0 < rz
  · rw [if_pos hr, set_eq, if_neg (by omega), hw]
  · rw [if_neg hr, hw]

/-- C81: however large the frame, what was addressable before stays as it was, but for the new red
zone. -/
theorem C81_deliver_keeps {rz x a : Nat} {alt : Alt} {sh : Shadow} (h : sh a ≠ .unaddr)
    (hz : ¬ (x - rz ≤ a ∧ a < x)) (bounds : Bool) : deliver bounds rz alt sh x a = sh a := by
  unfold deliver
  cases bounds with
  | false => rfl
  | true =>
    rw [if_pos rfl]
    obtain ⟨_, _, w3, _, w5⟩ := walk_spec (stopAt alt x - x) sh x
    have hw : (walk (stopAt alt x - x) sh x).1 a = sh a := by
      rw [w5 a, if_neg]
      rintro ⟨h1, h2⟩
      exact h (w3 a h1 h2)
    split
    · rw [set_eq, if_neg hz, hw]
    · exact hw

/-- C81: when a handler returns to the stack it was called on, with less than 1024 bytes between, these
bytes become unaddressable and nothing else changes. -/
theorem C81_return_partial {alt : Alt} {sh : Shadow} {sp new : Nat} (h1 : sp < new)
    (h2 : new - sp < 1024) (a : Nat) :
    sigreturn true alt sh sp new a = if sp ≤ a ∧ a < new then .unaddr else sh a := by
  unfold sigreturn maxFrame
  rw [if_pos rfl, if_pos ⟨h1, h2⟩, set_eq]

/-- C81, against the code: after a larger frame nothing changes, so that it stays addressable. -/
theorem C81_big_return {alt : Alt} {sh : Shadow} {sp new : Nat} (h : 1024 ≤ new - sp)
    (ha : onAlt alt sp = none) : sigreturn true alt sh sp new = sh := by
  unfold sigreturn maxFrame
  rw [if_pos rfl, if_neg (by omega), ha]

/-- C81: without a red zone (32 bits), a signal leaves no trace: if the handler keeps what is outside
the frame, and returns with the stack pointer `y` in it having given up what lies below, the shadow is
as before the signal. -/
theorem C81_round_partial {lo s x y : Nat} {alt : Alt} {sh h : Shadow} (hs : Stack 0 lo s sh)
    (hx : lo ≤ x) (hxy : x ≤ y) (hys : y < s) (hf : s - x ≤ 1024) (hy : s - y < 1024)
    (ha : ∀ base, onAlt alt x = some base → s ≤ base)
    (hout : ∀ a, ¬ (x ≤ a ∧ a < s) → h a = deliver true 0 alt sh x a)
    (hpop : ∀ a, x ≤ a → a < y → h a = .unaddr) :
    sigreturn true alt h y s = sh := by
  obtain ⟨hd, _⟩ := C81_deliver_partial hs (by omega) (by omega : x ≤ s - 0) (by omega)
    (fun b hb => by have := ha b hb; omega)
  funext a
  rw [C81_return_partial hys hy]
  by_cases h1 : y ≤ a ∧ a < s
  · rw [if_pos h1, hs.below a (by omega) (by omega)]
  · rw [if_neg h1]
    by_cases h2 : x ≤ a ∧ a < s
    · rw [hpop a h2.1 (by omega), hs.below a (by omega) (by omega)]
    · rw [hout a h2, hd a, if_neg (by omega), if_neg (by omega)]

example : ∃ sh h : Shadow, Stack 0 4096 9000 sh ∧
    (∀ a, ¬ (8200 ≤ a ∧ a < 9000) → h a = deliver true 0 none sh 8200 a) ∧
    (∀ a, 8200 ≤ a → a < 8204 → h a = .unaddr) := by
  have hs : Stack 0 4096 9000 (fun a => if a < 9000 then .unaddr else .defined) :=
    ⟨by omega, fun x _ h => if_pos (by omega), fun x h _ => by
      rw [if_neg (by omega)]; exact Sh.noConfusion⟩
  refine ⟨_, setRange (deliver true 0 none (fun a => if a < 9000 then .unaddr else .defined) 8200)
    8200 8204 .unaddr, hs, fun a ha => ?_, fun a h1 h2 => ?_⟩
  · rw [set_eq, if_neg (by omega)]
  · rw [set_eq, if_pos ⟨h1, h2⟩]

/-- C81, against the code: the red zone of the interrupted code becomes unaddressable on return from
every signal, although the code may keep data there. -/
theorem C81_redzone {rz s y : Nat} {alt : Alt} {h : Shadow} (hy : y < s) (hf : s - y < 1024) {a : Nat}
    (hya : y ≤ s - rz) (h1 : s - rz ≤ a) (h2 : a < s) : sigreturn true alt h y s a = .unaddr := by
  rw [C81_return_partial hy hf, if_pos ⟨Nat.le_trans hya h1, h2⟩]

/-- A leaf function with data in the last byte of its red zone, interrupted by a frame of 800 bytes:
the byte is defined before and unaddressable after. -/
example : ∃ sh : Shadow, Stack 128 4096 9000 sh ∧ sh 8999 = .defined ∧
    sigreturn true none (deliver true 128 none sh 8072) 8080 9000 8999 = .unaddr := by
  refine ⟨fun a => if a < 8872 then .unaddr else .defined,
    ⟨by omega, fun x _ h => if_pos (by omega), fun x h _ => by
      rw [if_neg (by omega)]; exact Sh.noConfusion⟩, rfl, ?_⟩
  exact C81_redzone (rz := 128) (by omega) (by omega) (by omega) (by omega) (by omega)

/-- C81, against the code: the red zone of the handler stays addressable after it returned. -/
theorem C81_leftover {rz lo s y : Nat} {alt : Alt} {h : Shadow} (hs : Stack rz lo y h) (hy : y < s)
    (hf : s - y < 1024) {a : Nat} (h1 : y - rz ≤ a) (h2 : a < y) :
    sigreturn true alt h y s a ≠ .unaddr := by
  rw [C81_return_partial hy hf, if_neg (by omega)]
  exact hs.zone a h1 (by omega)

/-- C81: without `-check_stack_bounds` nothing is done. -/
theorem C81_off (rz g base pre : Nat) (alt : Alt) (sh : Shadow) (sp new : Nat) :
    deliver false rz alt sh sp = sh ∧ sigreturn false alt sh sp new = sh ∧
    (handleKi false g base sh sp).1 = sh ∧ cbret false sh sp pre = sh := ⟨rfl, rfl, rfl, rfl⟩

/-! ## The alternate stack -/

/-- C81: when a handler on the alternate stack returns to a stack elsewhere, the alternate stack from the
stack pointer up becomes unaddressable, and nothing else changes. -/
theorem C81_alt_return_partial {base size sp new : Nat} {sh : Shadow} (h1 : sp < base)
    (h2 : base - sp < size) (h3 : new ≤ sp ∨ 1024 ≤ new - sp) (a : Nat) :
    sigreturn true (some (base, size)) sh sp new a =
      if sp ≤ a ∧ a < base then .unaddr else sh a := by
  have hon : onAlt (some (base, size)) sp = some base := by
    unfold onAlt
    dsimp only
    rw [if_pos ⟨h1, h2⟩]
  unfold sigreturn maxFrame
  rw [if_pos rfl, if_neg (by omega), hon]
  rfl

/-- C81, against the code: a signal during a handler on the alternate stack, with a frame of 1024 bytes or
more, leaves the interrupted handler with a stack that is unaddressable. -/
theorem C81_nested {base size sp new : Nat} {sh : Shadow} (h2 : base - sp < size)
    (h3 : 1024 ≤ new - sp) (h4 : new < base) {a : Nat} (ha : new ≤ a) (hb : a < base) :
    sigreturn true (some (base, size)) sh sp new a = .unaddr := by
  rw [C81_alt_return_partial (by omega) h2 (.inr h3), if_pos (by omega)]

/-- C81: the next signal on an alternate stack of which the part above `sp` is unaddressable has its frame
marked, up to the top of the stack and not beyond. -/
theorem C81_alt_deliver {rz base size x : Nat} {sh : Shadow} (h1 : x < base) (h2 : base - x < size)
    (h3 : base - x ≤ 1024) (hu : ∀ a, x ≤ a → a < base → sh a = .unaddr) (hrz : rz ≤ x) (a : Nat) :
    deliver true rz (some (base, size)) sh x a =
      if x ≤ a ∧ a < base then .defined else if x - rz ≤ a ∧ a < x then .undef else sh a := by
  have hon : onAlt (some (base, size)) x = some base := by
    unfold onAlt
    dsimp only
    rw [if_pos ⟨h1, h2⟩]
  have hstop : stopAt (some (base, size)) x = base := by
    unfold stopAt maxFrame
    rw [hon]
    dsimp only
    omega
  obtain ⟨w1, w2, w3, w4, w5⟩ := walk_spec (stopAt (some (base, size)) x - x) sh x
  rw [hstop] at w1 w2 w3 w4 w5
  have he : (walk (base - x) sh x).2 = base := by
    apply Nat.le_antisymm
    · omega
    · apply Nat.le_of_not_lt
      intro hlt
      exact w4 (by omega) (hu _ w1 hlt)
  rw [he] at w5
  unfold deliver
  rw [if_pos rfl, hstop]
  by_cases hr : 0 < rz
  · rw [if_pos hr, set_eq, w5 a]
    by_cases g1 : x - rz ≤ a ∧ a < x
    · rw [if_pos g1, if_neg (by omega), if_pos g1]
    · rw [if_neg g1, if_neg g1]
  · rw [if_neg hr, w5 a]
    by_cases g1 : x ≤ a ∧ a < base
    · rw [if_pos g1, if_pos g1]
    · rw [if_neg g1, if_neg g1, if_neg (by omega)]

/-- C81: after any calls, successful or not, the tool's alternate stack is the kernel's.  For flags
without `SS_AUTODISARM`: see `C81_autodisarm`. -/
theorem C81_alt_history_partial (bounds : Bool) (s : Sig) (cs : List (Option Stk × Bool))
    (hf : ∀ c ∈ cs, ∀ stk, c.1 = some stk → stk.flags < 2 ^ 31) :
    (cs.foldl (sigaltCall bounds) s).alt = cs.foldl kernelAlt s.alt := by
  induction cs generalizing s with
  | nil => rfl
  | cons c cs ih =>
    rw [List.foldl_cons, List.foldl_cons, ih _ fun d hd => hf d (List.mem_cons_of_mem _ hd)]
    congr 1
    obtain ⟨arg, ok⟩ := c
    unfold sigaltCall sigaltPost sigaltPre kernelAlt
    cases arg with
    | none => cases ok <;> rfl
    | some stk =>
      have hlt := hf _ List.mem_cons_self stk rfl
      dsimp only
      rw [Nat.mod_eq_of_lt hlt]
      unfold ssDisable
      by_cases h : stk.flags = 2
      · rw [if_pos h, if_pos h]; cases ok <;> rfl
      · rw [if_neg h, if_neg h]; cases ok <;> rfl

/-- Set, refused, asked, switched off. -/
example : ([(some ⟨4096, 0, 8192⟩, true), (some ⟨0, 0, 1⟩, false), (none, true)].foldl
    (sigaltCall true) ⟨none, none, fun _ => .defined⟩).alt = some (12288, 8192) := rfl

/-- C81, against the code: `SS_DISABLE` together with `SS_AUTODISARM` switches the alternate stack off in
the kernel, but not in the tool. -/
theorem C81_autodisarm (bounds : Bool) (s : Sig) (a n : Nat) :
    kernelAlt s.alt (some ⟨a, 2 ^ 31 + 2, n⟩, true) = none ∧
    (sigaltCall bounds s (some ⟨a, 2 ^ 31 + 2, n⟩, true)).alt = some (a + n, n) := by
  constructor
  · unfold kernelAlt
    rw [if_pos rfl]
    dsimp only
    rw [if_pos (by decide +kernel)]
  · unfold sigaltCall sigaltPost sigaltPre ssDisable
    rw [if_pos rfl]
    dsimp only
    rw [if_neg (by decide +kernel)]

/-- C81, against the code: with `-check_stack_bounds` a new alternate stack is defined as a whole, though
nothing was written to it; the frame of a signal changes nothing. -/
theorem C81_alt_defined {s : Sig} {stk : Stk} (hf : stk.flags ≠ 2) {ok : Bool} {a : Nat}
    (h1 : stk.sp ≤ a) (h2 : a < stk.sp + stk.size) :
    (sigaltCall true s (some stk, ok)).sh a = .defined := by
  have hp : (sigaltPre true s (some stk)).sh a = .defined := by
    unfold sigaltPre ssDisable
    dsimp only
    rw [if_neg hf]
    dsimp only
    rw [set_eq, if_pos ⟨h1, h2⟩, if_pos rfl]
  unfold sigaltCall sigaltPost
  split
  · exact hp
  · exact hp

/-- C81, against the code: without `-check_stack_bounds`, where nothing is done for a signal, the whole
alternate stack is unaddressable: each access of a handler to its stack is an error. -/
theorem C81_alt_unaddr {s : Sig} {stk : Stk} (hf : stk.flags ≠ 2) {ok : Bool} {a x rz : Nat} {alt : Alt}
    (h1 : stk.sp ≤ a) (h2 : a < stk.sp + stk.size) :
    deliver false rz alt (sigaltCall false s (some stk, ok)).sh x a = .unaddr := by
  have hp : (sigaltPre false s (some stk)).sh a = .unaddr := by
    unfold sigaltPre ssDisable
    dsimp only
    rw [if_neg hf]
    dsimp only
    rw [set_eq, if_pos ⟨h1, h2⟩, if_neg (by simp)]
  have : deliver false rz alt (sigaltCall false s (some stk, ok)).sh x =
      (sigaltCall false s (some stk, ok)).sh := rfl
  rw [this]
  unfold sigaltCall sigaltPost
  split
  · exact hp
  · exact hp

/-- C81: a call changes no byte outside the stack it names, and a call that names none changes nothing.
Missing: a call that fails should change nothing (`C81_alt_defined`, which holds for both). -/
theorem C81_alt_outside_partial {bounds : Bool} {s : Sig} {arg : Option Stk} {ok : Bool} {a : Nat}
    (h : ∀ stk, arg = some stk → stk.flags = 2 ∨ ¬ (stk.sp ≤ a ∧ a < stk.sp + stk.size)) :
    (sigaltCall bounds s (arg, ok)).sh a = s.sh a := by
  have hp : (sigaltPre bounds s arg).sh a = s.sh a := by
    unfold sigaltPre ssDisable
    cases arg with
    | none => rfl
    | some stk =>
      dsimp only
      by_cases hd : stk.flags = 2
      · rw [if_pos hd]
      · rw [if_neg hd]
        dsimp only
        rw [set_eq, if_neg]
        rcases h stk rfl with h | h
        · exact absurd h hd
        · exact h
  unfold sigaltCall sigaltPost
  split
  · exact hp
  · exact hp

/-! ## Windows -/

theorem kiWalk_run {g : Nat} (hg : 0 < g) (stop : Option Nat) : ∀ (k n : Nat) (sh : Shadow) (sp : Nat),
    k ≤ n → (∀ i, i < k → sh (sp + g * i) = .unaddr ∧ inside stop (sp + g * i) = true) →
    (k = n ∨ sh (sp + g * k) ≠ .unaddr ∨ inside stop (sp + g * k) = false) →
    kiWalk g stop n sh sp = (setRange sh sp (sp + g * k) .defined, sp + g * k)
  | 0, n, sh, sp, _, _, hend => by
    have h0 : kiWalk g stop n sh sp = (sh, sp) := by
      cases n with
      | zero => rfl
      | succ n =>
        rw [kiWalk, if_neg]
        rintro ⟨h1, h2⟩
        rcases hend with h | h | h
        · omega
        · exact h (by rw [Nat.mul_zero, Nat.add_zero]; exact h2)
        · rw [Nat.mul_zero, Nat.add_zero, h1] at h; cases h
    rw [h0, Nat.mul_zero, Nat.add_zero]
    congr 1
    funext x
    rw [set_eq, if_neg (by omega)]
  | k + 1, 0, sh, sp, hk, _, _ => by omega
  | k + 1, n + 1, sh, sp, hk, hun, hend => by
    have h0 := hun 0 (by omega)
    rw [Nat.mul_zero, Nat.add_zero] at h0
    have hshift : ∀ i, sp + g * (i + 1) = sp + g + g * i := by
      intro i; rw [Nat.mul_add, Nat.mul_one]; omega
    have hsame : ∀ i, setRange sh sp (sp + g) .defined (sp + g + g * i) = sh (sp + g + g * i) := by
      intro i
      rw [set_eq, if_neg (by omega)]
    rw [kiWalk, if_pos ⟨h0.2, h0.1⟩]
    rw [kiWalk_run hg stop k n _ _ (by omega)]
    · rw [hshift]
      congr 1
      funext x
      rw [set_eq, set_eq, set_eq]
      by_cases h1 : sp + g ≤ x ∧ x < sp + g + g * k
      · rw [if_pos h1, if_pos (by omega)]
      · rw [if_neg h1]
        by_cases h2 : sp ≤ x ∧ x < sp + g
        · rw [if_pos h2, if_pos (by omega)]
        · rw [if_neg h2, if_neg (by omega)]
    · intro i hi
      rw [hsame, ← hshift]
      exact hun (i + 1) (by omega)
    · rw [hsame, ← hshift]
      rcases hend with h | h | h
      · exact .inl (by omega)
      · exact .inr (.inl h)
      · exact .inr (.inr h)

/-- C81: for a callback, exception or asynchronous call, what the kernel put on the stack becomes defined,
up to the first addressable byte, which is remembered as the old stack pointer, and nothing else changes.
`g` is the number of bytes with a common state; the data has `g * k` bytes, at most 32 KiB: see
`C81_ki_long`. -/
theorem C81_ki_partial {g base sp k : Nat} {sh : Shadow} (hg : g = 1 ∨ g = 4) (hk : g * k ≤ 32 * 1024)
    (hu : ∀ i, i < k → sh (sp + g * i) = .unaddr) (he : sh (sp + g * k) ≠ .unaddr)
    (hb : base ≤ sp ∨ sp + g * k ≤ base) :
    handleKi true g base sh sp = (setRange sh sp (sp + g * k) .defined, sp + g * k) := by
  unfold handleKi
  rw [if_pos rfl]
  have hkn : k ≤ stackMin / g := by
    unfold stackMin
    rcases hg with rfl | rfl <;> omega
  apply kiWalk_run (by omega) _ _ _ _ _ hkn
  · intro i hi
    refine ⟨hu i hi, ?_⟩
    have hlt : g * i < g * k := Nat.mul_lt_mul_of_pos_left hi (by omega)
    unfold inside
    by_cases h : sp < base ∧ base - sp < stackMin
    · rw [if_pos h]
      dsimp only
      rw [decide_eq_true_iff]
      omega
    · rw [if_neg h]
  · exact .inr (.inl he)

/-- Twelve bytes for an exception. -/
example : handleKi true 4 9000 (fun a => if a < 8012 then .unaddr else .defined) 8000 =
    (setRange (fun a => if a < 8012 then .unaddr else .defined) 8000 (8000 + 4 * 3) .defined, 8000 + 4 * 3) :=
  C81_ki_partial (.inr rfl) (by omega) (fun i hi => if_pos (by omega)) (by simp) (.inr (by omega))

/-- C81: at the bottom of a thread's stack the walk ends at its base. -/
theorem C81_ki_base {g sp k : Nat} {sh : Shadow} (hg : g = 1 ∨ g = 4) (hk0 : 0 < k)
    (hk : g * k < 32 * 1024) (hu : ∀ i, i < k → sh (sp + g * i) = .unaddr) :
    handleKi true g (sp + g * k) sh sp = (setRange sh sp (sp + g * k) .defined, sp + g * k) := by
  have hpos : 0 < g * k := Nat.mul_pos (by omega) hk0
  unfold handleKi
  rw [if_pos rfl, if_pos (by unfold stackMin; omega)]
  apply kiWalk_run (by omega)
  · unfold stackMin
    rcases hg with rfl | rfl <;> omega
  · intro i hi
    refine ⟨hu i hi, ?_⟩
    have hlt : g * i < g * k := Nat.mul_lt_mul_of_pos_left hi (by omega)
    unfold inside
    dsimp only
    rw [decide_eq_true_iff]
    omega
  · right; right
    unfold inside
    dsimp only
    rw [decide_eq_false_iff_not]
    omega

/-- C81, against the code: of more than 32 KiB (a context with large vector state, an asynchronous call on
an empty stack next to free memory) only the first 32 KiB are marked, and the wrong stack pointer is
remembered. -/
theorem C81_ki_long {g base sp : Nat} {sh : Shadow} (hg : g = 1 ∨ g = 4)
    (hu : ∀ i, g * i < 32 * 1024 → sh (sp + g * i) = .unaddr)
    (hb : base ≤ sp ∨ sp + 32 * 1024 ≤ base) :
    handleKi true g base sh sp = (setRange sh sp (sp + 32 * 1024) .defined, sp + 32 * 1024) := by
  have hgk : g * (32 * 1024 / g) = 32 * 1024 := by
    rcases hg with rfl | rfl <;> omega
  unfold handleKi
  rw [if_pos rfl, if_neg (by unfold stackMin; omega)]
  have := kiWalk_run (g := g) (by omega) none (32 * 1024 / g) (stackMin / g) sh sp (Nat.le_refl _) (by
    intro i hi
    refine ⟨hu i ?_, rfl⟩
    have : g * i < g * (32 * 1024 / g) := Nat.mul_lt_mul_of_pos_left hi (by omega)
    omega) (.inl rfl)
  rw [this, hgk]

/-- C81: a callback leaves no trace: if it keeps what is above the old stack pointer, and ends at `y` with
what lies below as before, the shadow after it is that before it. -/
theorem C81_callback_partial {g base sp k y : Nat} {sh h : Shadow} (hg : g = 1 ∨ g = 4)
    (hk : g * k ≤ 32 * 1024) (hu : ∀ i, i < k → sh (sp + g * i) = .unaddr)
    (he : sh (sp + g * k) ≠ .unaddr) (hb : base ≤ sp ∨ sp + g * k ≤ base)
    (hlow : ∀ a, y ≤ a → a < sp + g * k → sh a = .unaddr)
    (habove : ∀ a, sp + g * k ≤ a → h a = (handleKi true g base sh sp).1 a)
    (hbelow : ∀ a, a < y → a < sp + g * k → h a = sh a) :
    cbret true h y (handleKi true g base sh sp).2 = sh := by
  rw [C81_ki_partial hg hk hu he hb] at habove ⊢
  funext a
  unfold cbret
  rw [if_pos rfl, set_eq]
  dsimp only at habove ⊢
  by_cases h1 : y ≤ a ∧ a < sp + g * k
  · rw [if_pos h1, hlow a h1.1 h1.2]
  · rw [if_neg h1]
    by_cases h2 : sp + g * k ≤ a
    · rw [habove a h2, set_eq, if_neg (by omega)]
    · exact hbelow a (by omega) (by omega)

/-- C81: `NtContinue` and `NtRaiseException` move the stack pointer to that of the context: bytes between
become undefined or unaddressable, unless the distance reaches the threshold for another stack. -/
theorem C81_adjust (thresh : Nat) (sh : Shadow) (sp cxt a : Nat) :
    adjust thresh sh sp cxt a =
      if cxt ≤ a ∧ a < sp ∧ sp - cxt < thresh then .undef
      else if sp ≤ a ∧ a < cxt ∧ cxt - sp < thresh then .unaddr else sh a := by
  unfold adjust
  by_cases h1 : cxt < sp
  · rw [if_pos h1]
    by_cases h2 : sp - cxt < thresh
    · rw [if_pos h2, set_eq]
      by_cases h3 : cxt ≤ a ∧ a < sp
      · rw [if_pos h3, if_pos ⟨h3.1, h3.2, h2⟩]
      · rw [if_neg h3, if_neg fun q => h3 ⟨q.1, q.2.1⟩, if_neg (by omega)]
    · rw [if_neg h2, if_neg fun q => h2 q.2.2, if_neg (by omega)]
  · rw [if_neg h1]
    rw [if_neg (by omega : ¬ (cxt ≤ a ∧ a < sp ∧ sp - cxt < thresh))]
    by_cases h2 : cxt - sp < thresh
    · rw [if_pos h2, set_eq]
      by_cases h3 : sp ≤ a ∧ a < cxt
      · rw [if_pos h3, if_pos ⟨h3.1, h3.2, h2⟩]
      · rw [if_neg h3, if_neg fun q => h3 ⟨q.1, q.2.1⟩]
    · rw [if_neg h2, if_neg fun q => h2 q.2.2]

/-- C81: on 32 bits `NtContinue` gives exactly the registers that the context holds the state they have
in it (`r8` to `r15` do not exist). -/
theorem C81_continue_partial {thresh : Nat} {rs cr : Reg → Sh} {sh : Shadow} {sp cxt : Nat}
    {control integer : Bool} (r : Reg) :
    (ntContinue false thresh rs cr sh sp cxt control integer).1 r =
      if contextRegs false control integer r = true then cr r else rs r := by
  unfold ntContinue continueRegs contextRegs
  cases control <;> cases integer <;> cases r <;> rfl

/-- C81, against the code: on 64 bits `r8` to `r15` keep the state they had before, though the kernel loads
them from the context; the others are right. -/
theorem C81_continue_high {thresh : Nat} {rs cr : Reg → Sh} {sh : Shadow} {sp cxt : Nat}
    {control integer : Bool} (r : Reg) :
    (ntContinue true thresh rs cr sh sp cxt control integer).1 r =
      if contextRegs true control integer r = true ∧
          r ∉ [.r8, .r9, .r10, .r11, .r12, .r13, .r14, .r15] then cr r else rs r := by
  unfold ntContinue continueRegs contextRegs
  cases control <;> cases integer <;> cases r <;> rfl

/-- C81: the stack is adjusted iff the context holds the control registers. -/
theorem C81_continue_stack {x64 : Bool} {thresh : Nat} {rs cr : Reg → Sh} {sh : Shadow} {sp cxt : Nat}
    {control integer : Bool} :
    (ntContinue x64 thresh rs cr sh sp cxt control integer).2 =
      if control = true then adjust thresh sh sp cxt else sh := rfl

/-! ## The tool's allocator on the application's stack -/

/-- C81: the tool's frame on the application's stack: its bytes get the state asked for, the red zone below
it becomes undefined, nothing else changes, and it is a stack again.  For frames no larger than the red
zone (the callers ask for one pointer), or none: see `C81_client_big`. -/
theorem C81_client_partial {rz lo a b : Nat} {dfd : Bool} {sh : Shadow} (hs : Stack rz lo b sh)
    (hab : a ≤ b) (hn : rz = 0 ∨ b - a ≤ rz) (hlo : lo + rz ≤ a) :
    (∀ x, stackAlloc rz sh a b dfd x =
      if a ≤ x ∧ x < b then (if dfd then .defined else .undef)
      else if a - rz ≤ x ∧ x < b - rz then .undef else sh x) ∧
    Stack rz lo a (stackAlloc rz sh a b dfd) := by
  have hv : ∀ x, stackAlloc rz sh a b dfd x =
      if a ≤ x ∧ x < b then (if dfd then .defined else .undef)
      else if a - rz ≤ x ∧ x < b - rz then .undef else sh x := by
    intro x
    unfold stackAlloc
    by_cases hr : 0 < rz
    · rw [if_pos hr, set_eq, set_eq]
      by_cases h1 : a - rz ≤ x ∧ x < b - rz
      · rw [if_pos h1, if_neg (by omega), if_pos h1]
      · rw [if_neg h1, if_neg h1]
    · rw [if_neg hr, set_eq]
      by_cases h1 : a ≤ x ∧ x < b
      · rw [if_pos h1, if_pos h1]
      · rw [if_neg h1, if_neg h1, if_neg (by omega)]
  refine ⟨hv, hlo, ?_, ?_⟩
  · intro x h1 h2
    rw [hv x, if_neg (by omega), if_neg (by omega)]
    exact hs.below x h1 (by omega)
  · intro x h1 h2
    rw [hv x]
    by_cases h3 : a ≤ x ∧ x < b
    · rw [if_pos h3]; cases dfd <;> exact Sh.noConfusion
    · rw [if_neg h3]
      by_cases h4 : a - rz ≤ x ∧ x < b - rz
      · rw [if_pos h4]; exact Sh.noConfusion
      · rw [if_neg h4]
        exact hs.zone x (by omega) (by omega)

/-- C81, against the code: of a frame larger than the red zone, asked to be defined, the part below its
last `rz` bytes is undefined. -/
theorem C81_client_big {rz a b : Nat} {dfd : Bool} {sh : Shadow} (hr : 0 < rz) {x : Nat} (h1 : a ≤ x)
    (h2 : x < b - rz) : stackAlloc rz sh a b dfd x = .undef := by
  unfold stackAlloc
  rw [if_pos hr, set_eq, if_pos (by omega)]

/-- C81: giving the frame up: its bytes become the red zone, and below nothing may be accessed. -/
theorem C81_client_dealloc {rz lo a b : Nat} {sh : Shadow} (hs : Stack rz lo a sh) (hab : a ≤ b)
    (ha : ∀ x, a ≤ x → x ≤ b → sh x ≠ .unaddr) : Stack rz lo b (stackDealloc rz sh a b) := by
  have := hs.room
  refine ⟨by omega, ?_, ?_⟩
  · intro x h1 h2
    unfold stackDealloc
    by_cases hr : 0 < rz
    · rw [if_pos hr, set_eq, set_eq]
      by_cases h3 : a - rz ≤ x ∧ x < b - rz
      · rw [if_pos h3]
      · rw [if_neg h3, if_neg (by omega)]
        exact hs.below x h1 (by omega)
    · rw [if_neg hr, set_eq]
      by_cases h3 : a ≤ x ∧ x < b
      · rw [if_pos h3]
      · rw [if_neg h3]
        exact hs.below x h1 (by omega)
  · intro x h1 h2
    unfold stackDealloc
    by_cases hr : 0 < rz
    · rw [if_pos hr, set_eq, set_eq, if_neg (by omega)]
      by_cases h3 : a ≤ x ∧ x < b
      · rw [if_pos h3]; exact Sh.noConfusion
      · rw [if_neg h3]
        by_cases h4 : a ≤ x
        · exact ha x h4 h2
        · exact hs.zone x (by omega) (by omega)
    · rw [if_neg hr, set_eq, if_neg (by omega)]
      exact ha x (by omega) h2

/-- C81: entering and leaving the tool's allocator leaves no trace on a stack whose red zone holds no
data (as at every call). -/
theorem C81_client_round {rz lo a b : Nat} {dfd : Bool} {sh : Shadow} (hs : Stack rz lo b sh)
    (hab : a ≤ b) (hn : rz = 0 ∨ b - a ≤ rz) (hlo : lo + rz ≤ a)
    (hz : ∀ x, b - rz ≤ x → x < b → sh x = .undef) :
    stackDealloc rz (stackAlloc rz sh a b dfd) a b = sh := by
  obtain ⟨hv, _⟩ := C81_client_partial (dfd := dfd) hs hab hn hlo
  funext x
  unfold stackDealloc
  by_cases hr : 0 < rz
  · rw [if_pos hr, set_eq, set_eq, hv x]
    by_cases h1 : a - rz ≤ x ∧ x < b - rz
    · rw [if_pos h1, hs.below x (by omega) (by omega)]
    · rw [if_neg h1]
      by_cases h2 : a ≤ x ∧ x < b
      · rw [if_pos h2, hz x (by omega) h2.2]
      · rw [if_neg h2, if_neg h2, if_neg h1]
  · rw [if_neg hr, set_eq, hv x]
    by_cases h2 : a ≤ x ∧ x < b
    · rw [if_pos h2, hs.below x (by omega) (by omega)]
    · rw [if_neg h2, if_neg h2, if_neg (by omega)]

/-- At a call of `malloc` on 64-bit Linux. -/
example : ∃ sh : Shadow, Stack 128 4096 9000 sh ∧ 8992 ≤ 9000 ∧ 9000 - 8992 ≤ 128 ∧
    4096 + 128 ≤ 8992 ∧ ∀ x, 9000 - 128 ≤ x → x < 9000 → sh x = .undef := by
  refine ⟨fun a => if a < 8872 then .unaddr else if a < 9000 then .undef else .defined,
    ⟨by omega, fun x _ h => if_pos (by omega), fun x h _ => ?_⟩, by omega, by omega, by omega,
    fun x h1 h2 => ?_⟩
  · rw [if_neg (by omega)]; split <;> exact Sh.noConfusion
  · dsimp only
    rw [if_neg (by omega), if_pos (by omega)]

end Verif.Transfer
