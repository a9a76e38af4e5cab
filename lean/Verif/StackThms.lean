import Verif.StackProps

/-!
# The stack under all sequences of instructions

C51: the shadow of the stack follows the stack pointer of the machine.
-/

namespace Verif.Stack

open Verif.Define (Sh)
open Verif.MemRef

theorem known_swap {lo hi : Nat} {c : Cfg} (hk : Known lo hi c) {cur new : Nat} (h1 : lo ≤ cur)
    (h2 : cur < hi) (h3 : lo ≤ new) (h4 : new < hi) : checkSwap c cur new = false := by
  unfold checkSwap
  rw [hk cur h1 h2]
  dsimp only
  rw [Bool.not_eq_false', decide_eq_true_eq]
  omega

/-- `leave`: the slot of the frame pointer is popped, then the frame is given back. -/
theorem leave_addr {c : Cfg} (hc : c.mem.map4 = false) {lo hi bp : Nat} {act : Action} {m : M}
    (h : Ok lo hi c.mem.redzone m) (h1 : m.sp ≤ bp) (h2 : bp + c.ptr ≤ hi)
    (hr : c.mem.redzone = 0 ∨ c.ptr ≤ c.mem.redzone) (a : Nat) :
    move c true act m.sp ((bp : Int) - m.sp)
        (memRef (popFlags false) c.mem (fun _ => .defined) bp c.ptr m.sh).sh a =
      if bp = m.sp then (memRef (popFlags false) c.mem (fun _ => .defined) m.sp c.ptr m.sh).sh a
      else if a + c.mem.redzone < m.sp then m.sh a
      else if a + c.mem.redzone < bp + c.ptr then .unaddr
      else if c.mem.redzone > 0 ∧ a < bp + c.ptr then fresh act
      else m.sh a := by
  have hlow := h.low
  have hhigh := h.high
  have hs : ∀ j < c.ptr, m.sh (bp + j) ≠ .unaddr := by
    intro j hj e
    have := (h.addr (bp + j) (by omega) (by omega)).1 e
    omega
  rw [move_leave h1]
  by_cases hb : bp = m.sp
  · rw [if_pos hb, if_pos hb, hb]
  · rw [if_neg hb, if_neg hb, pop_addr hc false hr (by omega) hs]
    repeat' split
    all_goals first | rfl | (exfalso; omega)

/-- One instruction keeps the stack. -/
theorem ok_step {lo hi : Nat} {c : Cfg} (hc : c.mem.map4 = false) (hk : Known lo hi c)
    (thresh : Nat) (act : Action) {m : M} {e : Ev} (h : Ok lo hi c.mem.redzone m)
    (hl : Legal lo hi c thresh m.sp e) : Ok lo hi c.mem.redzone (step c thresh act m e) := by
  have hlow := h.low
  have hhigh := h.high
  cases e with
  | push n val =>
    obtain ⟨l1, l2, l3, l4⟩ := hl
    exact ok_push hc h l4 l3 l1 l2
  | pop n d => exact ok_pop hc d h hl.2 hl.1
  | sub n =>
    obtain ⟨l1, l2⟩ := hl
    exact ok_move h (by dsimp only [Ev.sp]; omega) (by dsimp only [Ev.sp]; omega)
      (by dsimp only [Ev.sp]; omega)
  | add n =>
    obtain ⟨l1, l2⟩ := hl
    exact ok_move h (by dsimp only [Ev.sp]; omega) (by dsimp only [Ev.sp]; omega)
      (by dsimp only [Ev.sp]; omega)
  | mov v =>
    obtain ⟨l1, l2, l3⟩ := hl
    unfold step Ev.shadow adjust
    dsimp only [Ev.sp]
    rw [if_neg ?_]
    · exact ok_move h rfl l1 l2
    · rintro ⟨s1, s2⟩
      rcases l3 with l3 | l3
      · omega
      · rw [Int.toNat_natCast, known_swap hk (by omega) l3.1 (by omega) l3.2] at s2
        cases s2
  | and k =>
    obtain ⟨l1, l2⟩ := hl
    have hle : m.sp &&& k ≤ m.sp := Nat.and_le_left
    unfold step Ev.shadow adjust
    dsimp only [Ev.sp]
    rw [Int.toNat_natCast, if_neg ?_]
    · exact ok_move h rfl l1 (by omega)
    · rintro ⟨s1, s2⟩
      rcases l2 with l2 | l2
      · omega
      · rw [known_swap hk (by omega) l2 (by omega) (by omega)] at s2
        cases s2
  | leave bp =>
    obtain ⟨l1, l2, l3, l4⟩ := hl
    have hsh : (step c thresh act m (.leave bp)).sh = move c true act m.sp ((bp : Int) - m.sp)
        (memRef (popFlags false) c.mem (fun _ => .defined) bp c.ptr m.sh).sh := by
      unfold step Ev.shadow adjust
      dsimp only
      rw [if_neg ?_]
      · rfl
      · rintro ⟨s1, s2⟩
        rcases l3 with l3 | l3
        · omega
        · rw [Int.toNat_natCast, known_swap hk (by omega) (by omega) (by omega) l3] at s2
          cases s2
    by_cases hb : bp = m.sp
    · have := ok_pop hc false h l4 (by omega)
      have he : step c thresh act m (.leave bp) = ⟨m.sp + c.ptr,
          (memRef (popFlags false) c.mem (fun _ => .defined) m.sp c.ptr m.sh).sh⟩ := by
        have h1 : (step c thresh act m (.leave bp)).sp = m.sp + c.ptr := by
          show bp + c.ptr = _
          rw [hb]
        have h2 : (step c thresh act m (.leave bp)).sh =
            (memRef (popFlags false) c.mem (fun _ => .defined) m.sp c.ptr m.sh).sh := by
          funext a
          rw [hsh, leave_addr hc h l1 l2 l4, if_pos hb]
        rw [← h1, ← h2]
      rw [he]
      exact this
    · refine ⟨?_, l2, ?_, ?_⟩
      · show lo + c.mem.redzone ≤ bp + c.ptr
        omega
      · intro a ha1 ha2
        rw [hsh, leave_addr hc h l1 l2 l4, if_neg hb]
        show _ ↔ a + c.mem.redzone < bp + c.ptr
        have := h.addr a ha1 ha2
        have hf := (fresh_ne act).1
        repeat' split
        · rw [this]; omega
        · simp only [true_iff]; omega
        · constructor
          · exact fun e => absurd e hf
          · intro e; omega
        · rw [this]; omega
      · intro a
        rw [hsh, leave_addr hc h l1 l2 l4, if_neg hb]
        have := h.plain a
        have hf := (fresh_ne act).2
        repeat' split
        all_goals first | exact this | exact hf | decide
  | retImm n =>
    obtain ⟨l1, l2, l3⟩ := hl
    have hp := ok_pop hc true h l2 (by omega)
    have := ok_move (act := act) (sp' := m.sp + c.ptr + n) (delta := n) hp
      (by dsimp only; omega) (by omega) l1
    dsimp only at this
    unfold step Ev.shadow adjust
    dsimp only [Ev.sp]
    rw [show ((m.sp : Int) + 4) = ((m.sp + c.ptr : Nat) : Int) by omega]
    exact this
  | enter n val => exact hl.elim
  | ref w d addr n val => exact ok_ref hc h hl

/-- A sequence of instructions, each with the threshold of its time. -/
def run (c : Cfg) (act : Action) : M → List (Nat × Ev) → M
  | m, [] => m
  | m, (t, e) :: es => run c act (step c t act m e) es

/-- Every instruction of the sequence uses the stack as a stack. -/
def LegalRun (lo hi : Nat) (c : Cfg) : Nat → List (Nat × Ev) → Prop
  | _, [] => True
  | sp, (t, e) :: es => Legal lo hi c t sp e ∧ LegalRun lo hi c (e.sp c.ptr sp) es

theorem ok_run {lo hi : Nat} {c : Cfg} (hc : c.mem.map4 = false) (hk : Known lo hi c)
    (act : Action) : ∀ (es : List (Nat × Ev)) (m : M), Ok lo hi c.mem.redzone m →
      LegalRun lo hi c m.sp es → Ok lo hi c.mem.redzone (run c act m es)
  | [], _, h, _ => h
  | (t, _) :: es, _, h, hl =>
    ok_run hc hk act es _ (ok_step hc hk t act h hl.1) hl.2

/-- C51: after every sequence of pushes, pops, calls, returns, relative and absolute
adjustments, alignments, `leave`s and other references, whatever the swap threshold, a
byte of the stack is addressable exactly if it is not below the red zone of the stack
pointer.  Not for `enter`, for `ret n` where the return address has eight bytes, and for
large moves from and to the upper end of the stack (`C51_enter`, `C51_ret_imm`,
`C51_top`). -/
theorem C51_addressable_partial {lo hi : Nat} {c : Cfg} (hc : c.mem.map4 = false)
    (hk : Known lo hi c) (act : Action) {m : M} (h : Ok lo hi c.mem.redzone m)
    {es : List (Nat × Ev)} (hl : LegalRun lo hi c m.sp es) (a : Nat) (h1 : lo ≤ a) (h2 : a < hi) :
    (run c act m es).sh a = .unaddr ↔ a + c.mem.redzone < (run c act m es).sp :=
  (ok_run hc hk act es m h hl).addr a h1 h2

/-- C51: after every such sequence, a reference inside the stack is reported as
unaddressable exactly if it touches a byte below the red zone. -/
theorem C51_reports_partial {lo hi : Nat} {c : Cfg} (hc : c.mem.map4 = false)
    (hx : ∀ a, c.mem.unaddrExc a = false) (hk : Known lo hi c) (act : Action) {m : M}
    (h : Ok lo hi c.mem.redzone m) {es : List (Nat × Ev)} (hl : LegalRun lo hi c m.sp es)
    (w d : Bool) (val : Nat → Sh) {addr n : Nat} (h1 : lo ≤ addr) (h2 : addr + n ≤ hi) :
    let m' := run c act m es
    (∃ r ∈ (memRef (refFlags w d) c.mem val addr n m'.sh).reports, r.kind = .unaddr) ↔
      0 < n ∧ addr + c.mem.redzone < m'.sp := by
  intro m'
  have hok : Ok lo hi c.mem.redzone m' := ok_run hc hk act es m h hl
  have hr := C50_reports_partial (f := refFlags w d) rfl hc val addr n m'.sh
  constructor
  · rintro ⟨r, hr1, hr2⟩
    have hi := hr.inside r hr1
    have hp := hr.pos r hr1
    have hb := hr.bytes r hr1 r.start (Nat.le_refl _) (by omega)
    rw [hr2] at hb
    have hu : m'.sh r.start = .unaddr := by
      unfold wrong at hb
      split at hb
      · assumption
      · split at hb <;> cases hb
      · cases hb
    have := (hok.addr r.start (by omega) (by omega)).1 hu
    omega
  · rintro ⟨hn, hlt⟩
    have hu := (hok.addr addr h1 (by omega)).2 hlt
    obtain ⟨r, hr1, hr2, -⟩ := hr.cover addr .unaddr (Nat.le_refl _) (by omega) (by
      unfold wrong
      rw [hu]
      dsimp only
      rw [hx]
      simp [refFlags])
    exact ⟨r, hr1, hr2⟩

/-! ## Stale data -/

/-- Bytes that are written, or read and checked, by an instruction. -/
def Ev.touches (sp : Nat) : Ev → Nat → Prop
  | .push n _, a => sp - n ≤ a ∧ a < sp
  | .ref _ _ addr n _, a => addr ≤ a ∧ a < addr + n
  | _, _ => False

/-- Bytes that the stack pointer passed on its way up and that have not been written
(or reported) since. -/
def stale (ptr : Nat) : Nat → List (Nat × Ev) → (Nat → Prop) → (Nat → Prop)
  | _, [], D => D
  | sp, (_, e) :: es, D => stale ptr (e.sp ptr sp) es fun a =>
      (D a ∧ ¬ e.touches sp a) ∨ (sp ≤ a ∧ a < e.sp ptr sp)

/-- Neither defined nor partly defined. -/
def Unset (v : Sh) : Prop := v = .undef ∨ v = .unaddr

theorem unset_move {c : Cfg} {sp sp' : Nat} {sh : Nat → Sh} {delta : Int}
    (hd : delta = (sp' : Int) - sp) {a : Nat} (h : Unset (sh a) ∨ (sp ≤ a ∧ a < sp')) :
    Unset (move c false .shadow sp delta sh a) := by
  rw [move_addr hd]
  repeat' split
  · rcases h with h | h
    · exact h
    · omega
  · exact .inr rfl
  · rcases h with h | h
    · exact h
    · omega
  · exact .inl rfl
  · exact .inl rfl
  · rcases h with h | h
    · exact h
    · omega

theorem unset_pop {c : Cfg} (hc : c.mem.map4 = false) (d : Bool) {addr n : Nat} {sh : Nat → Sh}
    (hr : c.mem.redzone = 0 ∨ n ≤ c.mem.redzone) (ha : c.mem.redzone ≤ addr)
    (hs : ∀ j < n, sh (addr + j) ≠ .unaddr) {a : Nat}
    (h : Unset (sh a) ∨ (addr ≤ a ∧ a < addr + n)) :
    Unset ((memRef (popFlags d) c.mem (fun _ => .defined) addr n sh).sh a) := by
  rw [pop_addr hc d hr ha hs]
  repeat' split
  · exact .inl rfl
  · exact .inr rfl
  · exact .inr rfl
  · rcases h with h | h
    · exact h
    · omega

theorem unset_step {lo hi : Nat} {c : Cfg} (hc : c.mem.map4 = false) (hk : Known lo hi c)
    (thresh : Nat) {m : M} {e : Ev} (h : Ok lo hi c.mem.redzone m)
    (hl : Legal lo hi c thresh m.sp e) {a : Nat}
    (hd : (Unset (m.sh a) ∧ ¬ e.touches m.sp a) ∨ (m.sp ≤ a ∧ a < e.sp c.ptr m.sp)) :
    Unset ((step c thresh .shadow m e).sh a) := by
  have hlow := h.low
  have hhigh := h.high
  have hd' : Unset (m.sh a) ∨ (m.sp ≤ a ∧ a < e.sp c.ptr m.sp) := hd.imp (·.1) id
  have hs : ∀ addr n, m.sp ≤ addr → addr + n ≤ hi → ∀ j < n, m.sh (addr + j) ≠ .unaddr := by
    intro addr n g1 g2 j hj e
    have := (h.addr (addr + j) (by omega) (by omega)).1 e
    omega
  cases e with
  | push n val =>
    obtain ⟨l1, l2, l3, l4⟩ := hl
    rcases hd with ⟨hu, ht⟩ | hd
    · show Unset ((memRef pushFlags c.mem val (m.sp - n) n m.sh).sh a)
      rw [push_addr hc l4 l3 (by omega) h.plain]
      have : ¬ (m.sp - n ≤ a ∧ a < m.sp) := ht
      rw [if_neg (by omega)]
      split
      · exact .inl rfl
      · exact hu
    · dsimp only [Ev.sp] at hd
      omega
  | pop n d => exact unset_pop hc d hl.2 (by omega) (hs _ _ (Nat.le_refl _) hl.1) hd'
  | sub n =>
    obtain ⟨l1, l2⟩ := hl
    exact unset_move (sp' := ((m.sp : Int) - n).toNat) (by omega) hd'
  | add n =>
    obtain ⟨l1, l2⟩ := hl
    exact unset_move (sp' := ((m.sp : Int) + n).toNat) (by omega) hd'
  | mov v =>
    obtain ⟨l1, l2, l3⟩ := hl
    unfold step Ev.shadow adjust
    dsimp only
    rw [if_neg ?_]
    · exact unset_move rfl hd'
    · rintro ⟨s1, s2⟩
      rcases l3 with l3 | l3
      · omega
      · rw [Int.toNat_natCast, known_swap hk (by omega) l3.1 (by omega) l3.2] at s2
        cases s2
  | and k =>
    obtain ⟨l1, l2⟩ := hl
    have hle : m.sp &&& k ≤ m.sp := Nat.and_le_left
    unfold step Ev.shadow adjust
    dsimp only
    rw [Int.toNat_natCast, if_neg ?_]
    · exact unset_move rfl hd'
    · rintro ⟨s1, s2⟩
      rcases l2 with l2 | l2
      · omega
      · rw [known_swap hk (by omega) l2 (by omega) (by omega)] at s2
        cases s2
  | leave bp =>
    obtain ⟨l1, l2, l3, l4⟩ := hl
    unfold step Ev.shadow adjust
    dsimp only
    rw [if_neg ?_]
    · show Unset (move c true .shadow m.sp _ _ a)
      rw [leave_addr hc h l1 l2 l4]
      dsimp only [Ev.sp] at hd'
      split
      · rename_i hb
        rw [hb] at hd'
        exact unset_pop hc false l4 (by omega) (hs _ _ (Nat.le_refl _) (by omega)) hd'
      · repeat' split
        · rcases hd' with hd' | hd'
          · exact hd'
          · omega
        · exact .inr rfl
        · exact .inl rfl
        · rcases hd' with hd' | hd'
          · exact hd'
          · omega
    · rintro ⟨s1, s2⟩
      rcases l3 with l3 | l3
      · omega
      · rw [Int.toNat_natCast, known_swap hk (by omega) (by omega) (by omega) l3] at s2
        cases s2
  | retImm n =>
    obtain ⟨l1, l2, l3⟩ := hl
    unfold step Ev.shadow adjust
    dsimp only
    rw [show ((m.sp : Int) + 4) = ((m.sp + c.ptr : Nat) : Int) by omega]
    refine unset_move (sp' := m.sp + c.ptr + n) (by omega) ?_
    dsimp only [Ev.sp] at hd'
    by_cases ha : m.sp + c.ptr ≤ a ∧ a < m.sp + c.ptr + n
    · exact .inr ha
    · left
      refine unset_pop hc true l2 (by omega) (hs _ _ (Nat.le_refl _) (by omega)) ?_
      rcases hd' with hd' | hd'
      · exact .inl hd'
      · exact .inr (by omega)
  | enter n val => exact hl.elim
  | ref w d addr n val =>
    rcases hd with ⟨hu, ht⟩ | hd
    · have ht : ¬ (addr ≤ a ∧ a < addr + n) := ht
      show Unset ((memRef (refFlags w d) c.mem val addr n m.sh).sh a)
      cases w with
      | false =>
        rw [C50_read_shadow (f := refFlags false d) rfl hc val addr n m.sh rfl rfl,
          if_neg (fun hh => ht ⟨hh.1, hh.2.1⟩)]
        exact hu
      | true =>
        rw [C50_write_shadow_partial (f := refFlags true d) rfl hc val addr n m.sh rfl rfl rfl
          (fun m hm => by cases hm), if_neg (fun hh => ht ⟨hh.1, hh.2.1⟩)]
        exact hu
    · dsimp only [Ev.sp] at hd
      omega

/-- C51: what a function left on the stack is never taken for initialised data by a
later function: a byte that the stack pointer has passed stays uninitialised or
unaddressable until it is written, after every sequence of instructions. -/
theorem C51_stale_partial {lo hi : Nat} {c : Cfg} (hc : c.mem.map4 = false) (hk : Known lo hi c) :
    ∀ (es : List (Nat × Ev)) (m : M) (D : Nat → Prop), Ok lo hi c.mem.redzone m →
      LegalRun lo hi c m.sp es → (∀ a, D a → Unset (m.sh a)) →
      ∀ a, stale c.ptr m.sp es D a → Unset ((run c .shadow m es).sh a)
  | [], _, _, _, _, hD, a, hs => hD a hs
  | (t, e) :: es, m, _, h, hl, hD, a, hs =>
    C51_stale_partial hc hk es (step c t .shadow m e) _ (ok_step hc hk t .shadow h hl.1) hl.2
      (fun b hb => unset_step hc hk t h hl.1 (hb.imp (fun x => ⟨hD b x.1, x.2⟩) id)) a hs

/-! ## Frames in use -/

/-- The stack pointer stays at or below `a`, and no instruction writes or checks `a`. -/
def Below (ptr a : Nat) : Nat → List (Nat × Ev) → Prop
  | sp, [] => sp ≤ a
  | sp, (_, e) :: es => sp ≤ a ∧ ¬ e.touches sp a ∧ Below ptr a (e.sp ptr sp) es

theorem Below.le {ptr a sp : Nat} : ∀ {es : List (Nat × Ev)}, Below ptr a sp es → sp ≤ a
  | [], h => h
  | _ :: _, h => h.1

theorem frame_step {lo hi : Nat} {c : Cfg} (hc : c.mem.map4 = false)
    (thresh : Nat) (act : Action) {m : M} {e : Ev} (h : Ok lo hi c.mem.redzone m)
    (hl : Legal lo hi c thresh m.sp e) {a : Nat} (h1 : m.sp ≤ a) (h2 : e.sp c.ptr m.sp ≤ a)
    (ht : ¬ e.touches m.sp a) : (step c thresh act m e).sh a = m.sh a := by
  have hlow := h.low
  have hhigh := h.high
  have hs : ∀ addr n, m.sp ≤ addr → addr + n ≤ hi → ∀ j < n, m.sh (addr + j) ≠ .unaddr := by
    intro addr n g1 g2 j hj e
    have := (h.addr (addr + j) (by omega) (by omega)).1 e
    omega
  have hmove : ∀ (sp' : Nat) (delta : Int), delta = (sp' : Int) - m.sp → sp' ≤ a →
      move c false act m.sp delta m.sh a = m.sh a := by
    intro sp' delta hd hle
    rw [move_addr hd]
    repeat' split
    all_goals first | rfl | (exfalso; omega)
  cases e with
  | push n val =>
    obtain ⟨l1, l2, l3, l4⟩ := hl
    show (memRef pushFlags c.mem val (m.sp - n) n m.sh).sh a = _
    rw [push_addr hc l4 l3 (by omega) h.plain, if_neg (by omega), if_neg (by omega)]
  | pop n d =>
    obtain ⟨l1, l2⟩ := hl
    show (memRef (popFlags d) c.mem (fun _ => .defined) m.sp n m.sh).sh a = _
    dsimp only [Ev.sp] at h2
    rw [pop_addr hc d l2 (by omega) (hs _ _ (Nat.le_refl _) l1), if_neg (by omega),
      if_neg (by omega)]
  | sub n =>
    obtain ⟨l1, l2⟩ := hl
    exact hmove (((m.sp : Int) - n).toNat) _ (by omega) h2
  | add n =>
    obtain ⟨l1, l2⟩ := hl
    exact hmove (((m.sp : Int) + n).toNat) _ (by omega) h2
  | mov v =>
    unfold step Ev.shadow adjust
    dsimp only
    split
    · rfl
    · exact hmove v _ rfl h2
  | and k =>
    unfold step Ev.shadow adjust
    dsimp only
    rw [Int.toNat_natCast]
    split
    · rfl
    · exact hmove _ _ rfl h2
  | leave bp =>
    obtain ⟨l1, l2, l3, l4⟩ := hl
    dsimp only [Ev.sp] at h2
    have hpop : ∀ b, (memRef (popFlags false) c.mem (fun _ => .defined) bp c.ptr m.sh).sh b = _ :=
      pop_addr hc false l4 (by omega) (hs _ _ l1 l2)
    unfold step Ev.shadow adjust
    dsimp only
    split
    · rw [hpop, if_neg (by omega), if_neg (by omega)]
    · show move c true act m.sp _ _ a = _
      rw [leave_addr hc h l1 l2 l4]
      split
      · rename_i hb
        rw [pop_addr hc false l4 (by omega) (hs _ _ (Nat.le_refl _) (by omega)),
          if_neg (by omega), if_neg (by omega)]
      · repeat' split
        all_goals first | rfl | (exfalso; omega)
  | retImm n =>
    obtain ⟨l1, l2, l3⟩ := hl
    dsimp only [Ev.sp] at h2
    unfold step Ev.shadow adjust
    dsimp only
    rw [show ((m.sp : Int) + 4) = ((m.sp + c.ptr : Nat) : Int) by omega,
      move_addr (sp' := m.sp + c.ptr + n) (by omega),
      pop_addr hc true l2 (by omega) (hs _ _ (Nat.le_refl _) (by omega))]
    repeat' split
    all_goals first | rfl | (exfalso; omega)
  | enter n val => exact hl.elim
  | ref w d addr n val =>
    have ht : ¬ (addr ≤ a ∧ a < addr + n) := ht
    show (memRef (refFlags w d) c.mem val addr n m.sh).sh a = _
    cases w with
    | false =>
      rw [C50_read_shadow (f := refFlags false d) rfl hc val addr n m.sh rfl rfl,
        if_neg (fun hh => ht ⟨hh.1, hh.2.1⟩)]
    | true =>
      rw [C50_write_shadow_partial (f := refFlags true d) rfl hc val addr n m.sh rfl rfl rfl
        (fun m hm => by cases hm), if_neg (fun hh => ht ⟨hh.1, hh.2.1⟩)]

/-- C51: calls do not disturb the frames of their callers: a byte that the stack pointer
never passes keeps its shadow until it is written (or read and checked). -/
theorem C51_frame_partial {lo hi : Nat} {c : Cfg} (hc : c.mem.map4 = false) (hk : Known lo hi c)
    (act : Action) {a : Nat} : ∀ (es : List (Nat × Ev)) (m : M), Ok lo hi c.mem.redzone m →
      LegalRun lo hi c m.sp es → Below c.ptr a m.sp es → (run c act m es).sh a = m.sh a
  | [], _, _, _, _ => rfl
  | (t, e) :: es, m, h, hl, hb => by
    show (run c act (step c t act m e) es).sh a = _
    rw [C51_frame_partial hc hk act es (step c t act m e) (ok_step hc hk t act h hl.1) hl.2 hb.2.2,
      frame_step hc t act h hl.1 hb.1 hb.2.2.le hb.2.1]

/-- C51: memory taken by a `sub` is uninitialised, except what was in the red zone
before, which keeps its shadow. -/
theorem C51_new (c : Cfg) (thresh : Nat) (act : Action) {m : M} {n : Nat} (h : n ≤ m.sp)
    (a : Nat) (h1 : m.sp - n ≤ a) (h2 : a < m.sp) :
    (step c thresh act m (.sub n)).sh a =
      if a + c.mem.redzone < m.sp then (match act with | .shadow => .undef | .defined => .defined)
      else m.sh a := by
  show move c false act m.sp (-(n : Int)) m.sh a = _
  rw [move_addr (sp' := m.sp - n) (by omega)]
  repeat' split
  all_goals first | rfl | (exfalso; omega)

/-- C51: a change of the stack pointer by more than the threshold, to an address outside of
the region of the current stack or while that region is not known, is a switch to
another stack and leaves the shadow alone. -/
theorem C51_swap {c : Cfg} {thresh : Nat} (act : Action) {m : M} {v : Nat}
    (hfar : (v : Int) - m.sp > thresh ∨ (m.sp : Int) - v > thresh)
    (hout : ∀ b n, c.bounds m.sp = some (b, n) → v < b ∨ b + n ≤ v) :
    (step c thresh act m (.mov v)).sh = m.sh ∧ (step c thresh act m (.mov v)).sp = v := by
  refine ⟨?_, rfl⟩
  show adjust c thresh .absolute v act m.sp m.sh = m.sh
  simp only [adjust]
  rw [if_pos]
  refine ⟨by omega, ?_⟩
  unfold checkSwap
  cases hb : c.bounds m.sp with
  | none => rfl
  | some x =>
    have := hout x.1 x.2 hb
    simp only [Int.toNat_natCast, Bool.not_eq_true', decide_eq_false_iff_not]
    omega

/-- Such a switch. -/
example :
    let mem : Conf := ⟨0, false, false, fun _ => false, fun _ => false⟩
    let c : Cfg := ⟨mem, 4, fun a => if a < 0x9000 then some (0x8000, 0x1000) else none⟩
    let m : M := ⟨0x8800, fun a => if a < 0x8800 then .unaddr else .undef⟩
    (step c 0x100 .shadow m (.mov 0x20000)).sh 0x8900 = .undef ∧
      (step c 0x100 .shadow m (.mov 0x8c00)).sh 0x8900 = .unaddr := by decide +kernel

/-! ## A stack the tool did not know -/

/-- C51: when the application pushes onto memory that was addressable, nothing at or
above the pushed slot and nothing outside the region changes; of the page below, all but
the red zone becomes unaddressable, and the red zone undefined. -/
theorem C51_unknown_stack {c : Cfg} {addr start b n : Nat} (hb : c.bounds addr = some (b, n))
    (h2 : start ≤ addr) (h3 : addr < start + pageSize - c.mem.redzone)
    (sh : Nat → Sh) (a : Nat) :
    pushAddressable c addr start sh a =
      if a < b ∨ start ≤ a ∨ a + pageSize < addr then sh a
      else if start ≤ a + c.mem.redzone then .undef
      else .unaddr := by
  unfold pushAddressable setRange
  rw [hb]
  dsimp only
  have hp : pageSize = 4096 := rfl
  by_cases hr : c.mem.redzone > 0
  · rw [if_pos hr]
    repeat' split
    all_goals first | rfl | (exfalso; omega)
  · rw [if_neg hr]
    repeat' split
    all_goals first | rfl | (exfalso; omega)

/-! ## Where the claim fails -/

/-- The stack `[1000, 3000)` of a 64-bit process on Linux. -/
def linux64 : Cfg :=
  { mem := { plainConf with redzone := 128 }, ptr := 8,
    bounds := fun a => if 1000 ≤ a ∧ a < 3000 then some (1000, 2000) else none }

/-- The same stack in a 32-bit process. -/
def linux32 : Cfg := { linux64 with mem := plainConf, ptr := 4 }

/-- The stack pointer is at `sp`. -/
def start (c : Cfg) (sp : Nat) : M :=
  ⟨sp, fun a => if a + c.mem.redzone < sp then .unaddr else .defined⟩

/-- C51, negative: `ret 16` of a 64-bit process.  The return address has eight bytes, but
the code counts four: afterwards the four bytes below the red zone are addressable, and
the last four bytes of the arguments given back still count as initialised. -/
theorem C51_ret_imm :
    let m := step linux64 0x9000 .shadow (start linux64 2000) (.retImm 16)
    m.sp = 2024 ∧ (∀ j < 4, m.sh (2024 - 128 - 4 + j) = .undef) ∧
      ∀ j < 4, m.sh (2020 + j) = .defined := by
  decide +kernel

/-- C51, negative: `enter 16` of a 32-bit process.  The frame pointer is pushed, but the
adjustment starts at the stack pointer before the push: the saved frame pointer counts
as uninitialised, and the last four bytes of the frame as unaddressable. -/
theorem C51_enter :
    let m := step linux32 0x9000 .shadow (start linux32 2000) (.enter 16 fun _ => .defined)
    m.sp = 1980 ∧ (∀ j < 4, m.sh (1996 + j) = .undef) ∧ ∀ j < 4, m.sh (1980 + j) = .unaddr := by
  decide +kernel

/-- C51, negative: the stack pointer is set to the upper end of the stack (the stack is
emptied), and the distance is above the threshold.  This counts as a change to another
stack: everything stays addressable and initialised. -/
theorem C51_top :
    let m := step linux32 256 .shadow (start linux32 2000) (.mov 3000)
    m.sp = 3000 ∧ m.sh 2999 = .defined ∧
      (step linux32 256 .shadow (start linux32 2000) (.mov 2999)).sh 2998 = .unaddr := by
  decide +kernel

/-- C51, negative: a function writes into its red zone and then takes eight bytes.  The
byte it wrote is still in the red zone and keeps its value, but it counts as
uninitialised and reading it is reported. -/
theorem C51_redzone_lost :
    let m := run linux64 .shadow (start linux64 2000)
      [(0x9000, .ref true false (2000 - 64) 1 fun _ => .defined), (0x9000, .sub 8)]
    m.sp = 1992 ∧ m.sp ≤ (2000 - 64) + 128 ∧ m.sh (2000 - 64) = .undef ∧
    (memRef (refFlags false true) linux64.mem (fun _ => .defined) (2000 - 64) 1 m.sh).reports =
      [⟨.undef, 2000 - 64, 1⟩] := by
  decide +kernel

/-- A call with a frame: the sequence is legal, the theorems apply to it, and the local
variable of the first call is stale in the second. -/
example :
    let es : List (Nat × Ev) := [(0x9000, .push 8 fun _ => .defined), (0x9000, .sub 64),
      (0x9000, .ref true false 1950 4 fun _ => .defined), (0x9000, .add 64), (0x9000, .pop 8 true),
      (0x9000, .push 8 fun _ => .defined), (0x9000, .sub 64)]
    LegalRun 1000 3000 linux64 2000 es ∧ stale 8 2000 es (fun _ => False) 1950 ∧
    ((run linux64 .shadow (start linux64 2000) (es.take 3)).sh 1950 = .defined) ∧
    ((run linux64 .shadow (start linux64 2000) es).sh 1950 = .undef) := by
  refine ⟨?_, ?_, by decide +kernel, by decide +kernel⟩
  · simp [LegalRun, Legal, Ev.sp, linux64]
  · simp [stale, Ev.sp, Ev.touches]

/-- The first state of the example is a stack. -/
example : Ok 1000 3000 128 (start linux64 2000) ∧ Known 1000 3000 linux64 := by
  refine ⟨⟨by decide, by decide, ?_, ?_⟩, ?_⟩
  · intro a h1 h2
    unfold start linux64
    dsimp only
    split
    · simp only [true_iff]; omega
    · constructor
      · intro e; cases e
      · intro e; omega
  · intro a
    unfold start
    dsimp only
    split <;> decide
  · intro a h1 h2
    unfold linux64
    dsimp only
    rw [if_pos ⟨h1, h2⟩]

end Verif.Stack
