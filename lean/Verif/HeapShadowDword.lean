import Verif.HeapShadowThms

/-!
# The shadow of the heap with one shadow value per four bytes (C52)

Without `-check_uninitialized` (as with `-light` and in leak-only checks with shadowing) one shadow
value stands for an aligned dword (drmemory/shadow.h:29).  Then the end of a block is rounded up.
-/

namespace Verif.HeapShadow

open Verif.Define (Sh)
open Verif.MemRef (Conf memRef Flags)
open Verif.Stack (refFlags)
open Verif.Al

/-! ## References -/

/-- One value per dword. -/
def Uniform (sh : Nat → Sh) : Prop := ∀ x y, x / 4 = y / 4 → sh x = sh y

/-- The reference left the addressability of all bytes alone. -/
def Same (sh0 sh : Nat → Sh) : Prop := Uniform sh ∧ ∀ x, sh x = .unaddr ↔ sh0 x = .unaddr

theorem bad_sh (f : Flags) (t : MemRef.St) (k : MemRef.Kind) (a : Nat) : (t.bad f k a).sh = t.sh := by
  unfold MemRef.St.bad MemRef.St.flush MemRef.St.start
  repeat' split
  all_goals rfl

theorem same_set {mc : Conf} (hm : mc.map4 = true) {sh0 : Nat → Sh} {t : MemRef.St} (h : Same sh0 t.sh) {a : Nat} {v : Sh}
    (hv : v ≠ .unaddr) (ha : t.sh a ≠ .unaddr) : Same sh0 (t.set mc a v).sh := by
  unfold MemRef.St.set
  simp only [hm, if_true]
  refine ⟨fun x y hxy => ?_, fun x => ?_⟩
  · dsimp only
    rw [hxy]
    split
    · rfl
    · exact h.1 x y hxy
  · dsimp only
    split
    · rename_i he
      rw [← h.2 x, h.1 x a he]
      exact ⟨fun e => absurd e hv, fun e => absurd e ha⟩
    · exact h.2 x

theorem same_step {mc : Conf} (hm : mc.map4 = true) {f : Flags} (hp : f.pushpop = false) (hmv : f.movs = none)
    {val : Nat → Sh} (hval : ∀ i, val i ≠ .unaddr) {sh0 : Nat → Sh} (addr i : Nat) {t : MemRef.St} (h : Same sh0 t.sh) :
    Same sh0 (MemRef.step f mc val addr i t).sh := by
  have hvalue : MemRef.newVal f val i t.sh ≠ .unaddr := by
    unfold MemRef.newVal MemRef.value
    rw [hmv]
    dsimp only
    split
    · exact hval _
    · simp
  have hcore : Same sh0 (MemRef.core f mc val addr i t).sh := by
    unfold MemRef.core
    by_cases hu : t.sh (addr + i) = .unaddr
    · rw [if_pos hu]
      unfold MemRef.stepUnaddr
      simp only [hp, Bool.false_eq_true, false_and, if_false]
      split
      · exact h
      · rw [bad_sh]; exact h
    · rw [if_neg hu]
      split
      · unfold MemRef.stepRead
        simp only [hp, Bool.false_eq_true, if_false, ite_self]
        split
        · split
          · split
            · rw [bad_sh]; exact h
            · exact same_set hm (by rw [bad_sh]; exact h) (by simp) (by rw [bad_sh]; exact hu)
          · exact h
        · split
          · exact h
          · exact h
      · split
        · unfold MemRef.stepWrite
          simp only [hp, Bool.false_eq_true, false_and, if_false]
          split
          · exact h
          · split
            · exact h
            · exact same_set hm h hvalue hu
        · exact h
  unfold MemRef.step
  dsimp only
  split
  · exact hcore
  · split
    · exact hcore
    · exact hcore

theorem same_loop {mc : Conf} (hm : mc.map4 = true) {f : Flags} (hp : f.pushpop = false) (hmv : f.movs = none)
    {val : Nat → Sh} (hval : ∀ i, val i ≠ .unaddr) {sh0 : Nat → Sh} (addr sz : Nat) : ∀ (n i : Nat) (t : MemRef.St),
    Same sh0 t.sh → Same sh0 (MemRef.loop f mc val addr sz n i t).sh := by
  intro n
  induction n with
  | zero => intro i t h; exact h
  | succ n ih =>
    intro i t h
    unfold MemRef.loop
    have h1 := same_step hm hp hmv hval addr i h
    simp only [hm, if_true]
    split
    · split
      · exact h1
      · split
        · exact h1
        · apply ih
          split
          · exact h1
          · exact h1
    · exact h

/-- C52: with one shadow value per four bytes no reference (but pushes, pops and copies) changes
which bytes are addressable. -/
theorem C52_dword_ref {mc : Conf} (hm : mc.map4 = true) {f : Flags} (hp : f.pushpop = false) (hmv : f.movs = none)
    {val : Nat → Sh} (hval : ∀ i, val i ≠ .unaddr) {sh : Nat → Sh} (hu : Uniform sh) (addr sz : Nat) :
    Uniform (memRef f mc val addr sz sh).sh ∧ ∀ x, (memRef f mc val addr sz sh).sh x = .unaddr ↔ sh x = .unaddr := by
  have h := same_loop hm hp hmv hval addr sz sz 0 (MemRef.St.init sh) (sh0 := sh) ⟨hu, fun _ => Iff.rfl⟩
  unfold memRef
  dsimp only
  split
  · exact h
  · exact h

/-! ## Calls -/

/-- The bytes that count as part of a block: up to the next multiple of four. -/
def Blk.In4 (b : Blk) (a : Nat) : Prop := b.ptr ≤ a ∧ a < (b.ptr + b.ini.length + 3) / 4 * 4

/-- The addressable bytes are those of the blocks. -/
def Rel4 (A : List Blk) (sh : Nat → Sh) : Prop := Uniform sh ∧ ∀ a, sh a ≠ .unaddr ↔ ∃ b ∈ A, b.In4 a

variable {c : Cfg} {s : St} {A : List Blk} {Q : List (Nat × Nat)} {sh : Nat → Sh}

theorem setRange4_apply {p q : Nat} (hp : p % 4 = 0) (v : Sh) (a : Nat) :
    setRange true sh p (p + q) v a = if p ≤ a ∧ a < (p + q + 3) / 4 * 4 then v else sh a := by
  unfold setRange
  simp only [if_true]
  repeat' split
  all_goals first | rfl | (exfalso; omega)

theorem setRange_uniform (hu : Uniform sh) (lo hi : Nat) (v : Sh) : Uniform (setRange true sh lo hi v) := by
  intro x y hxy
  unfold setRange
  simp only [if_true, hxy]
  split
  · rfl
  · exact hu x y hxy

theorem copyRange_uniform (hu : Uniform sh) (old new size : Nat) : Uniform (copyRange true sh old new size) := by
  intro x y hxy
  unfold copyRange
  simp only [if_true, hxy]
  split
  · apply hu
    omega
  · exact hu x y hxy

theorem handleRealloc_uniform (hu : Uniform sh) (old new : Info) : Uniform (handleRealloc true old new sh) := by
  have h1 : Uniform (reallocNew true old new sh) := by
    unfold reallocNew
    split
    · apply setRange_uniform
      split
      · exact copyRange_uniform hu _ _ _
      · exact hu
    · split
      · exact copyRange_uniform hu _ _ _
      · exact hu
  have h2 : Uniform (reallocFront true old new (reallocNew true old new sh)) := by
    unfold reallocFront
    split
    · exact setRange_uniform h1 _ _ _
    · exact h1
  unfold handleRealloc reallocTail
  split
  · exact setRange_uniform h2 _ _ _
  · exact h2

theorem fill_ne (z : Bool) : (if z then Sh.defined else Sh.undef) ≠ .unaddr := by cases z <;> simp

theorem reallocNew4 {p q r size : Nat} (y z : Bool) (hp : p % 4 = 0) (hr : r % 4 = 0)
    (ho : ∀ a, p ≤ a → a < (p + q + 3) / 4 * 4 → sh a ≠ .unaddr) (a : Nat) :
    (r ≤ a ∧ a < (r + size + 3) / 4 * 4 → reallocNew true ⟨p, q, y⟩ ⟨r, size, z⟩ sh a ≠ .unaddr) ∧
    (¬ (r ≤ a ∧ a < (r + size + 3) / 4 * 4) → reallocNew true ⟨p, q, y⟩ ⟨r, size, z⟩ sh a = sh a) := by
  unfold reallocNew
  dsimp only
  have hz := fill_ne z
  by_cases h1 : size > q
  · simp only [if_pos h1]
    by_cases h2 : r = p
    · subst h2
      simp only [ne_eq, not_true_eq_false, if_false]
      unfold setRange
      simp only [if_true]
      constructor
      · intro h
        split
        · exact hz
        · exact ho a (by omega) (by omega)
      · intro h
        rw [if_neg (by omega)]
    · simp only [ne_eq, h2, not_false_eq_true, if_true]
      unfold setRange copyRange
      simp only [if_true]
      constructor
      · intro h
        split
        · exact hz
        · rw [if_pos (by omega)]
          exact ho _ (by omega) (by omega)
      · intro h
        rw [if_neg (by omega), if_neg (by omega)]
  · simp only [if_neg h1]
    by_cases h2 : r = p
    · subst h2
      simp only [ne_eq, not_true_eq_false, if_false, implies_true, and_true]
      exact fun h => ho a (by omega) (by omega)
    · simp only [ne_eq, h2, not_false_eq_true, if_true]
      unfold copyRange
      simp only [if_true]
      constructor
      · intro h
        rw [if_pos (by omega)]
        exact ho _ (by omega) (by omega)
      · intro h
        rw [if_neg (by omega)]

theorem reallocFront4 {p q r size : Nat} (y z : Bool) (hp : p % 4 = 0) (hs : r = p ∨ p + q ≤ r ∨ r + size ≤ p)
    (a : Nat) :
    reallocFront true ⟨p, q, y⟩ ⟨r, size, z⟩ sh a =
      if p < r ∧ p ≤ a ∧ a < (p + q + 3) / 4 * 4 then .unaddr else sh a := by
  unfold reallocFront
  dsimp only
  by_cases h : r > p
  · rw [if_pos h]
    have : (if r < p + q then r else p + q) = p + q := by rw [if_neg (by omega)]
    rw [this, setRange4_apply hp]
    repeat' split
    all_goals first | rfl | (exfalso; omega)
  · rw [if_neg h, if_neg (by omega)]

theorem reallocTail4 {p q r size : Nat} (y z : Bool) (hp : p % 4 = 0) (hs : r = p ∨ p + q ≤ r ∨ r + size ≤ p)
    (a : Nat) :
    reallocTail true ⟨p, q, y⟩ ⟨r, size, z⟩ sh a =
      if (r < p ∧ p ≤ a ∧ a < (p + q + 3) / 4 * 4) ∨
        (r = p ∧ (p + size + 3) / 4 * 4 ≤ a ∧ a < (p + q + 3) / 4 * 4) then .unaddr else sh a := by
  unfold reallocTail align4
  dsimp only
  by_cases h : r + size < p + q
  · rw [if_pos h]
    by_cases h2 : r + size < p
    · rw [if_pos h2, setRange4_apply hp]
      repeat' split
      all_goals first | rfl | (exfalso; omega)
    · rw [if_neg h2]
      unfold setRange
      simp only [if_true]
      repeat' split
      all_goals first | rfl | (exfalso; omega)
  · rw [if_neg h]
    split
    · exfalso; omega
    · rfl

theorem handleRealloc4 {p q r size : Nat} (y z : Bool) (hp : p % 4 = 0) (hr : r % 4 = 0)
    (hs : r = p ∨ p + q ≤ r ∨ r + size ≤ p) (ho : ∀ a, p ≤ a → a < (p + q + 3) / 4 * 4 → sh a ≠ .unaddr) (a : Nat) :
    handleRealloc true ⟨p, q, y⟩ ⟨r, size, z⟩ sh a ≠ .unaddr ↔
      (r ≤ a ∧ a < (r + size + 3) / 4 * 4) ∨ (¬ (p ≤ a ∧ a < (p + q + 3) / 4 * 4) ∧ sh a ≠ .unaddr) := by
  obtain ⟨h1, h2⟩ := reallocNew4 (size := size) y z hp hr ho a
  unfold handleRealloc
  rw [reallocTail4 y z hp hs, reallocFront4 y z hp hs]
  by_cases hn : r ≤ a ∧ a < (r + size + 3) / 4 * 4
  · rw [if_neg (by omega), if_neg (by omega)]
    exact ⟨fun _ => Or.inl hn, fun _ => h1 hn⟩
  · rw [h2 hn]
    by_cases hold : p ≤ a ∧ a < (p + q + 3) / 4 * 4
    · have : (r < p ∧ p ≤ a ∧ a < (p + q + 3) / 4 * 4) ∨
        (r = p ∧ (p + size + 3) / 4 * 4 ≤ a ∧ a < (p + q + 3) / 4 * 4) ∨ p < r := by omega
      constructor
      · intro h
        exfalso
        rcases this with h3 | h3 | h3
        · rw [if_pos (Or.inl h3)] at h; exact h rfl
        · rw [if_pos (Or.inr h3)] at h; exact h rfl
        · rw [if_neg (by omega), if_pos ⟨h3, hold⟩] at h; exact h rfl
      · rintro (h | h)
        · exact absurd h hn
        · exact absurd hold h.1
    · rw [if_neg (by omega), if_neg (by omega)]
      exact ⟨fun h => Or.inr ⟨hold, h⟩, fun h => h.elim (fun h => absurd h hn) fun h => h.2⟩

theorem ptr4 (hc : CfgOk c) (i : Inv c s (led A) Q) {b : Blk} (hb : b ∈ A) : b.ptr % 4 = 0 := by
  obtain ⟨R, G, hp, hcalm, hL, rfl⟩ := i
  have h := (hp.block_place hc (hL.mem_iff.1 (mem_led hb))).2.1
  dsimp only at h
  unfold Cfg.A at h
  split at h <;> omega

/-- The rounded blocks have no byte in common. -/
theorem in4_unique (hc : CfgOk c) (i : Inv c s (led A) Q) {b b' : Blk} (hb : b ∈ A) (hb' : b' ∈ A) {a : Nat}
    (h : b.In4 a) (h' : b'.In4 a) : b = b' := by
  rcases apart_of i hb hb' with e | ⟨-, hs⟩
  · exact e
  · have := ptr4 hc i hb
    have := ptr4 hc i hb'
    unfold Sep at hs
    unfold Blk.In4 at h h'
    exfalso
    omega

theorem free4 (hc : CfgOk c) (i : Inv c s (led A) Q) {b0 : Blk} (hb0 : b0 ∈ A) (z : Bool) (h : Rel4 A sh) :
    Rel4 (A.filter fun b => b.ptr ≠ b0.ptr) (handleFree true ⟨b0.ptr, b0.ini.length, z⟩ sh) := by
  unfold handleFree
  refine ⟨setRange_uniform h.1 _ _ _, fun a => ?_⟩
  rw [setRange4_apply (ptr4 hc i hb0)]
  dsimp only
  constructor
  · intro hne
    split at hne
    · exact absurd rfl hne
    · rename_i hn
      obtain ⟨b, hb, hin⟩ := (h.2 a).1 hne
      refine ⟨b, List.mem_filter.2 ⟨hb, ?_⟩, hin⟩
      simp only [ne_eq, decide_not, Bool.not_eq_eq_eq_not, Bool.not_true, decide_eq_false_iff_not]
      intro he
      rcases apart_of i hb hb0 with e | ⟨e, -⟩
      · exact hn (e ▸ hin)
      · exact e he
  · rintro ⟨b, hb, hin⟩
    obtain ⟨hb, hne⟩ := List.mem_filter.1 hb
    rw [if_neg]
    · exact (h.2 a).2 ⟨b, hb, hin⟩
    · intro h0
      have := in4_unique hc i hb hb0 hin h0
      simp [this] at hne

theorem alloc4 {r req : Nat} (z : Bool) (hr : r % 4 = 0) (h : Rel4 A sh) :
    Rel4 (⟨r, List.replicate req z⟩ :: A) (handleMalloc true ⟨r, req, z⟩ sh) := by
  unfold handleMalloc
  refine ⟨setRange_uniform h.1 _ _ _, fun a => ?_⟩
  rw [setRange4_apply hr]
  dsimp only
  by_cases hn : r ≤ a ∧ a < (r + req + 3) / 4 * 4
  · rw [if_pos hn]
    exact ⟨fun _ => ⟨_, List.mem_cons_self, by unfold Blk.In4; simpa using hn⟩, fun _ => fill_ne z⟩
  · rw [if_neg hn, h.2 a]
    constructor
    · rintro ⟨b, hb, hin⟩
      exact ⟨b, List.mem_cons_of_mem _ hb, hin⟩
    · rintro ⟨b, hb, hin⟩
      rcases List.mem_cons.1 hb with rfl | hb
      · unfold Blk.In4 at hin
        simp only [List.length_replicate] at hin
        exact absurd hin hn
      · exact ⟨b, hb, hin⟩

theorem realloc4 (hc : CfgOk c) (i : Inv c s (led A) Q) {b0 : Blk} (hb0 : b0 ∈ A) {r size : Nat} (y z : Bool)
    (hr : r % 4 = 0) (hs : r = b0.ptr ∨ b0.ptr + b0.ini.length ≤ r ∨ r + size ≤ b0.ptr) (l : List Bool)
    (hl : l.length = size) (h : Rel4 A sh) :
    Rel4 (⟨r, l⟩ :: A.filter fun b => b.ptr ≠ b0.ptr)
      (handleRealloc true ⟨b0.ptr, b0.ini.length, y⟩ ⟨r, size, z⟩ sh) := by
  refine ⟨handleRealloc_uniform h.1 _ _, fun a => ?_⟩
  rw [handleRealloc4 y z (ptr4 hc i hb0) hr hs (fun a h1 h2 => (h.2 a).2 ⟨b0, hb0, h1, h2⟩)]
  constructor
  · rintro (hn | ⟨hn, hne⟩)
    · exact ⟨_, List.mem_cons_self, by unfold Blk.In4; rw [hl]; exact hn⟩
    · obtain ⟨b, hb, hin⟩ := (h.2 a).1 hne
      refine ⟨b, List.mem_cons_of_mem _ (List.mem_filter.2 ⟨hb, ?_⟩), hin⟩
      simp only [ne_eq, decide_not, Bool.not_eq_eq_eq_not, Bool.not_true, decide_eq_false_iff_not]
      intro he
      rcases apart_of i hb hb0 with e | ⟨e, -⟩
      · exact hn (e ▸ hin)
      · exact e he
  · rintro ⟨b, hb, hin⟩
    rcases List.mem_cons.1 hb with rfl | hb
    · left
      unfold Blk.In4 at hin
      dsimp only at hin
      rw [hl] at hin
      exact hin
    · right
      obtain ⟨hb, hne⟩ := List.mem_filter.1 hb
      refine ⟨fun h0 => ?_, (h.2 a).2 ⟨b, hb, hin⟩⟩
      have := in4_unique hc i hb hb0 hin h0
      simp [this] at hne

/-- The blocks have the same addresses and sizes. -/
theorem rel4_led {B : List Blk} (h : Rel4 A sh) (he : led B = led A) : Rel4 B sh := by
  have key : ∀ {A B : List Blk}, led B = led A → ∀ a, (∃ b ∈ A, b.In4 a) → ∃ b ∈ B, b.In4 a := by
    rintro A B he a ⟨b, hb, hin⟩
    have := mem_led hb
    rw [← he] at this
    obtain ⟨b', hb', e1, e2⟩ := led_mem this
    exact ⟨b', hb', by unfold Blk.In4 at *; rw [e1, e2]; exact hin⟩
  refine ⟨h.1, fun a => ?_⟩
  rw [h.2 a]
  exact ⟨key he a, key he.symm a⟩

theorem rel4_same {sh' : Nat → Sh} (h : Rel4 A sh) (h1 : Uniform sh') (h2 : ∀ x, sh' x = .unaddr ↔ sh x = .unaddr) :
    Rel4 A sh' :=
  ⟨h1, fun a => by rw [← h.2 a]; exact not_congr (h2 a)⟩

theorem step4 (hc : CfgOk c) {mc : Conf} (hm : mc.map4 = true) (i : Inv c s (led A) Q) (h : Rel4 A sh) {e : Ev}
    (hg : GoodEv c s A e) :
    ∃ s' sh' r Q', step c mc s sh e = some (s', sh', r) ∧ Inv c s' (led (specEv mc A e r)) Q' ∧
      Rel4 (specEv mc A e r) sh' := by
  cases e with
  | read d a n =>
    have h3 := C52_dword_ref (f := refFlags false d) hm rfl rfl (val := fun _ => .defined) (by simp) h.1 a n
    refine ⟨s, _, 0, Q, rfl, by rw [specEv, led_read]; exact i, ?_⟩
    exact rel4_led (rel4_same h h3.1 h3.2) (led_read _ _ _ _ _)
  | op o sv =>
    obtain ⟨s', r, Q', e, i', -, -⟩ := step_inv hc i hg
    rw [← led_spec A o sv r] at i'
    have i0 := i'
    have main : Rel4 (spec A o sv r) (callShadow c mc s o sv s' r sh) := by
      have hfree : ∀ p, Rel4 (A.filter fun b => b.ptr ≠ p)
            (if isLive c s p then handleFree mc.map4 ⟨p, reqOf s p, false⟩ sh else sh) := by
        intro p
        rw [i.isLive hc p, hm]
        cases ho : owns (led A) p with
        | false =>
          rw [filter_none' ho]
          simp only [Bool.false_eq_true, if_false]
          exact h
        | true =>
          obtain ⟨q, hq⟩ := owns_iff.1 ho
          obtain ⟨b0, hb0, rfl, rfl⟩ := led_mem hq
          rw [if_pos rfl, reqOf_eq hc i hq]
          exact free4 hc i hb0 false h
      cases o with
      | alloc os req align zero =>
        simp only [spec, callShadow] at i' ⊢
        by_cases hr : r = 0
        · rw [if_pos hr, if_pos hr]; exact h
        · rw [if_neg hr] at i'
          rw [if_neg hr, if_neg hr, hm]
          have h4 := ptr4 hc i' List.mem_cons_self
          have i'' := i'
          simp only [led, List.map_cons, List.length_replicate] at i''
          rw [reqOf_eq hc i'' List.mem_cons_self]
          exact alloc4 zero h4 h
      | free os p =>
        simp only [spec, callShadow]
        exact hfree p
      | store a v =>
        simp only [callShadow]
        have h3 := C52_dword_ref (f := refFlags true false) hm rfl rfl (val := fun _ => if sv then .defined else .undef)
          (fun _ => fill_ne sv) h.1 a 1
        exact rel4_led (rel4_same h h3.1 h3.2) (by rw [led_spec]; rfl)
      | realloc os p size f =>
        simp only [spec, callShadow] at i' ⊢
        by_cases hp : p = 0
        · simp only [if_pos hp] at i' ⊢
          by_cases hr : r = 0
          · rw [if_pos hr, if_pos hr]; exact h
          · rw [if_neg hr] at i'
            rw [if_neg hr, if_neg hr, hm]
            have h4 := ptr4 hc i' List.mem_cons_self
            have i'' := i'
            simp only [led, List.map_cons, List.length_replicate] at i''
            rw [reqOf_eq hc i'' List.mem_cons_self]
            exact alloc4 f.zero h4 h
        · simp only [if_neg hp] at i' ⊢
          by_cases he : size = 0 ∧ f.allowEmpty = false
          · simp only [if_pos he] at i' ⊢
            exact hfree p
          · simp only [if_neg he] at i' ⊢
            by_cases hr : r = 0
            · rw [if_pos hr, if_pos hr]; exact h
            · rw [if_neg hr] at i'
              rw [if_neg hr, if_neg hr, hm]
              have h4 := ptr4 hc i' List.mem_cons_self
              have i'' := i'
              simp only [led, List.map_cons, resize_length] at i''
              rw [reqOf_eq hc i'' List.mem_cons_self]
              cases ho : owns (led A) p with
              | false =>
                exfalso
                have hl := i.isLive hc p
                rw [ho] at hl
                simp only [Al.step, realloc, if_neg hp, if_neg he, hl, Bool.false_eq_true, if_false] at e
                exact hr (Prod.mk.inj (Prod.mk.inj (Option.some.inj e)).2).1.symm
              | true =>
                obtain ⟨q, hq⟩ := owns_iff.1 ho
                obtain ⟨b0, hb0, rfl, rfl⟩ := led_mem hq
                rw [reqOf_eq hc i hq]
                refine realloc4 hc i hb0 false f.zero h4 ?_ _ (resize_length _ _ _) h
                by_cases hrp : r = b0.ptr
                · exact Or.inl hrp
                · exact Or.inr (realloc_sep hc i hq he hg e hr hrp)
    exact ⟨s', callShadow c mc s o sv s' r sh, r, Q', by simp only [step, e], i0, main⟩

theorem run4 (hc : CfgOk c) {mc : Conf} (hm : mc.map4 = true) : ∀ {es : List Ev} {s : St} {A : List Blk}
    {Q : List (Nat × Nat)} {sh : Nat → Sh}, Inv c s (led A) Q → Rel4 A sh → GoodEvs c mc s A sh es →
    ∃ s' A' sh', run c mc s A sh es = some (s', A', sh') ∧ Rel4 A' sh' := by
  intro es
  induction es with
  | nil => intro s A Q sh _ h _; exact ⟨s, A, sh, rfl, h⟩
  | cons e es ih =>
    intro s A Q sh i h hg
    obtain ⟨s', sh', r, Q', e1, i1, h1⟩ := step4 hc hm i h hg.1
    obtain ⟨s2, A2, sh2, e2, h2⟩ := ih i1 h1 (hg.2 s' sh' r e1)
    exact ⟨s2, A2, sh2, by simp only [run, e1, e2], h2⟩

/-- C52: with one shadow value per four bytes, and no heap memory addressable at the start, after
every run the addressable bytes are exactly the bytes of the blocks in use, each rounded
up to a multiple of four bytes. -/
theorem C52_dword_partial (hc : CfgOk c) {mc : Conf} (hm : mc.map4 = true) {base commit : Nat}
    (hs : Start c base commit) {brk : Bool} {es : List Ev}
    (hg : GoodRun c (c.init base commit brk) [] (opsOf es)) :
    ∃ s A sh, run c mc (c.init base commit brk) [] (fun _ => .unaddr) es = some (s, A, sh) ∧
      ∀ a, sh a ≠ .unaddr ↔ ∃ b ∈ A, b.ptr ≤ a ∧ a < (b.ptr + b.ini.length + 3) / 4 * 4 := by
  obtain ⟨⟨Q, i⟩, -, -⟩ := start_rel hc hs brk fun _ => .unaddr
  have h0 : Rel4 [] (fun _ => .unaddr) := ⟨fun _ _ _ => rfl, fun a => by simp⟩
  obtain ⟨s, A, sh, e, h⟩ := run4 hc hm (es := es) i h0 (good_evs hg)
  exact ⟨s, A, sh, e, h.2⟩

/-- The end of a block of 50 bytes is rounded up to 52. -/
example : (run demo { demoConf with map4 := true } (demo.init 65536 69632 true) [] (fun _ => .unaddr)
    (demoEvs.take 2)).map (fun x => (led x.2.1, (List.range 6).map (fun i => x.2.2 (66096 + 48 + i)))) =
    some ([(66096, 50), (65904, 100)], [.defined, .defined, .defined, .defined, .unaddr, .unaddr]) := by
  decide +kernel

end Verif.HeapShadow
