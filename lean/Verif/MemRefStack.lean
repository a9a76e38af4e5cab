import Verif.MemRefThms

/-!
# Push, pop and copies

C50: what a push and a pop do to the shadow memory, with and without a red zone
below the top of the stack; the two ways in which copies go wrong.
-/

namespace Verif.MemRef

open Verif.Define (Sh)

/-- C50: without a red zone a push makes its slot addressable with the shadow of the
value pushed, and changes nothing else. -/
theorem C50_push {f : Flags} {c : Conf} (hf : f.abort = false) (hc : c.map4 = false)
    (hr : c.redzone = 0) {val : Nat → Sh} (hval : ∀ j, val j ≠ .bitlevel) (addr sz : Nat)
    {sh : Nat → Sh} (hb : ∀ j < sz, sh (addr + j) ≠ .bitlevel) (hw : f.write = true)
    (hca : f.checkAddr = false) (hp : f.pushpop = true) (hm : f.movs = none) (b : Nat) :
    (memRef f c val addr sz sh).sh b =
      if addr ≤ b ∧ b < addr + sz then stored f val sh (b - addr) else sh b := by
  have hv : ∀ i, value f val i ≠ .bitlevel := by
    intro i
    unfold value
    split
    · exact hval _
    · decide
  have hs : ∀ i, stored f val sh i = value f val i := by
    intro i; unfold stored value; rw [hm, memrefIdx_eq]
  refine shadow_ind hf hc val addr sz sh (P := fun i m => m b =
    if addr ≤ b ∧ b < addr + i then stored f val sh (b - addr) else sh b) ?_ ?_
  · rw [if_neg (by omega)]
  · intro i m hi ih habove
    have he : m (addr + i) = sh (addr + i) := habove _ (Nat.le_refl _)
    have : shStep f c val addr i m = upd m (addr + i) (value f val i) := by
      unfold shStep
      have hbl := hb i hi
      rw [← he] at hbl
      simp [hw, hca, hp, hr, newVal, hm, hbl, hv]
    rw [this]
    unfold upd
    by_cases hbi : b = addr + i
    · rw [if_pos hbi, if_pos (by omega), hs, show b - addr = i by omega]
    · rw [if_neg hbi, ih]
      have : (addr ≤ b ∧ b < addr + (i + 1)) ↔ (addr ≤ b ∧ b < addr + i) := by omega
      simp only [this]

/-- C50: with a red zone a push gives its slot the shadow of the value pushed and moves
the red zone down by the size of the slot. -/
theorem C50_push_redzone {f : Flags} {c : Conf} (hf : f.abort = false) (hc : c.map4 = false)
    (val : Nat → Sh) (addr sz : Nat) (sh : Nat → Sh) (hr : sz ≤ c.redzone) (h0 : 0 < c.redzone)
    (ha : c.redzone ≤ addr) (hw : f.write = true) (hca : f.checkAddr = false)
    (hp : f.pushpop = true) (hm : f.movs = none) (b : Nat) :
    (memRef f c val addr sz sh).sh b =
      if addr ≤ b ∧ b < addr + sz then stored f val sh (b - addr)
      else if addr ≤ b + c.redzone ∧ b + c.redzone < addr + sz then .undef else sh b := by
  have hs : ∀ i, stored f val sh i = value f val i := by
    intro i; unfold stored value; rw [hm, memrefIdx_eq]
  refine shadow_ind hf hc val addr sz sh (P := fun i m => m b =
    if addr ≤ b ∧ b < addr + i then stored f val sh (b - addr)
      else if addr ≤ b + c.redzone ∧ b + c.redzone < addr + i then .undef else sh b) ?_ ?_
  · rw [if_neg (by omega), if_neg (by omega)]
  · intro i m hi ih habove
    have : shStep f c val addr i m =
        upd (upd m (addr + i) (value f val i)) (addr + i - c.redzone) .undef := by
      unfold shStep
      simp [hw, hca, hp, h0]
    rw [this]
    unfold upd
    by_cases h1 : b = addr + i - c.redzone
    · rw [if_pos h1, if_neg (by omega), if_pos (by omega)]
    · rw [if_neg h1]
      by_cases hbi : b = addr + i
      · rw [if_pos hbi, if_pos (by omega), hs, show b - addr = i by omega]
      · rw [if_neg hbi, ih]
        have e1 : (addr ≤ b ∧ b < addr + (i + 1)) ↔ (addr ≤ b ∧ b < addr + i) := by omega
        have e2 : (addr ≤ b + c.redzone ∧ b + c.redzone < addr + (i + 1)) ↔
            (addr ≤ b + c.redzone ∧ b + c.redzone < addr + i) := by omega
        simp only [e1, e2]

/-- C50: without a red zone a pop makes its slot unaddressable and changes nothing
else. -/
theorem C50_pop {f : Flags} {c : Conf} (hf : f.abort = false) (hc : c.map4 = false)
    (hr : c.redzone = 0) (val : Nat → Sh) (addr sz : Nat) (sh : Nat → Sh) (hw : f.write = false)
    (hca : f.checkAddr = false) (hp : f.pushpop = true) (b : Nat) :
    (memRef f c val addr sz sh).sh b =
      if addr ≤ b ∧ b < addr + sz then .unaddr else sh b := by
  refine shadow_ind hf hc val addr sz sh (P := fun i m => m b =
    if addr ≤ b ∧ b < addr + i then .unaddr else sh b) ?_ ?_
  · rw [if_neg (by omega)]
  · intro i m hi ih habove
    have : ∀ x, shStep f c val addr i m x = if x = addr + i then .unaddr else m x := by
      intro x
      unfold shStep
      by_cases hu : m (addr + i) = .unaddr
      · simp only [hu, if_true, hw, Bool.false_eq_true, and_false, if_false]
        split
        · rename_i h; rw [h, hu]
        · rfl
      · simp only [hu, if_false, hw, hca, hp, hr, Bool.false_eq_true, not_false_eq_true, true_and,
          if_true, Nat.lt_irrefl, gt_iff_lt, and_true]
        unfold upd
        split
        · rfl
        · rename_i hx
          split
          · exact if_neg hx
          · rfl
    rw [this]
    by_cases hbi : b = addr + i
    · rw [if_pos hbi, if_pos (by omega)]
    · rw [if_neg hbi, ih]
      have : (addr ≤ b ∧ b < addr + (i + 1)) ↔ (addr ≤ b ∧ b < addr + i) := by omega
      simp only [this]

/-- C50: with a red zone a pop of an addressable slot makes the slot undefined and moves
the red zone up by the size of the slot. -/
theorem C50_pop_redzone {f : Flags} {c : Conf} (hf : f.abort = false) (hc : c.map4 = false)
    (val : Nat → Sh) (addr sz : Nat) {sh : Nat → Sh} (hr : sz ≤ c.redzone) (h0 : 0 < c.redzone)
    (ha : c.redzone ≤ addr) (hw : f.write = false) (hca : f.checkAddr = false)
    (hp : f.pushpop = true) (hs : ∀ j < sz, sh (addr + j) ≠ .unaddr) (b : Nat) :
    (memRef f c val addr sz sh).sh b =
      if addr ≤ b ∧ b < addr + sz then .undef
      else if addr ≤ b + c.redzone ∧ b + c.redzone < addr + sz then .unaddr else sh b := by
  refine shadow_ind hf hc val addr sz sh (P := fun i m => m b =
    if addr ≤ b ∧ b < addr + i then .undef
      else if addr ≤ b + c.redzone ∧ b + c.redzone < addr + i then .unaddr else sh b) ?_ ?_
  · rw [if_neg (by omega), if_neg (by omega)]
  · intro i m hi ih habove
    have he : m (addr + i) = sh (addr + i) := habove _ (Nat.le_refl _)
    have hu : m (addr + i) ≠ .unaddr := by rw [he]; exact hs i hi
    have : ∀ x, shStep f c val addr i m x =
        if x = addr + i - c.redzone then .unaddr else if x = addr + i then .undef else m x := by
      intro x
      unfold shStep
      simp only [hu, if_false, hw, hca, hp, h0, Bool.false_eq_true, not_false_eq_true, true_and,
          if_true, and_true]
      unfold upd
      split
      · rfl
      · split
        · rfl
        · rename_i hx
          split
          · exact if_neg hx
          · rfl
    rw [this]
    by_cases h1 : b = addr + i - c.redzone
    · rw [if_pos h1, if_neg (by omega), if_pos (by omega)]
    · rw [if_neg h1]
      by_cases hbi : b = addr + i
      · rw [if_pos hbi, if_pos (by omega)]
      · rw [if_neg hbi, ih]
        have e1 : (addr ≤ b ∧ b < addr + (i + 1)) ↔ (addr ≤ b ∧ b < addr + i) := by omega
        have e2 : (addr ≤ b + c.redzone ∧ b + c.redzone < addr + (i + 1)) ↔
            (addr ≤ b + c.redzone ∧ b + c.redzone < addr + i) := by omega
        simp only [e1, e2]

/-- C50: a push of a slot below the top of the stack followed by a pop of the same slot
leaves the set of addressable bytes as it was, with and without a red zone. -/
theorem C50_push_pop {f g : Flags} {c : Conf} (hf : f.abort = false) (hg : g.abort = false)
    (hc : c.map4 = false) {val val' : Nat → Sh} (hval : ∀ j, val j = .defined ∨ val j = .undef)
    {addr sz : Nat} {sh : Nat → Sh}
    (hr : c.redzone = 0 ∧ (∀ j < sz, sh (addr + j) = .unaddr) ∨
      sz ≤ c.redzone ∧ 0 < c.redzone ∧ c.redzone ≤ addr ∧ (∀ j < sz, sh (addr + j) ≠ .unaddr) ∧
        ∀ j < sz, sh (addr + j - c.redzone) = .unaddr)
    (hpush : f.write = true ∧ f.checkAddr = false ∧ f.pushpop = true ∧ f.movs = none)
    (hpop : g.write = false ∧ g.checkAddr = false ∧ g.pushpop = true) (b : Nat) :
    (memRef g c val' addr sz (memRef f c val addr sz sh).sh).sh b = .unaddr ↔ sh b = .unaddr := by
  have hst : ∀ j, stored f val sh j ≠ .unaddr := by
    intro j
    unfold stored
    rw [hpush.2.2.2]
    dsimp only
    split
    · rcases hval (offset f j) with h | h <;> rw [h] <;> decide
    · decide
  rcases hr with ⟨h0, hu⟩ | ⟨h1, h2, h3, h4, h5⟩
  · have e1 := C50_push hf hc h0 (val := val)
      (fun j => by rcases hval j with h | h <;> rw [h] <;> decide) addr sz (sh := sh)
      (fun j hj => by rw [hu j hj]; decide) hpush.1 hpush.2.1 hpush.2.2.1 hpush.2.2.2 b
    rw [C50_pop hg hc h0 val' addr sz _ hpop.1 hpop.2.1 hpop.2.2]
    split
    · rename_i h
      have := hu (b - addr) (by omega)
      rw [show addr + (b - addr) = b by omega] at this
      simp [this]
    · rename_i h
      rw [e1, if_neg h]
  · have e1 := C50_push_redzone hf hc val addr sz sh h1 h2 h3 hpush.1 hpush.2.1 hpush.2.2.1
      hpush.2.2.2
    rw [C50_pop_redzone hg hc val' addr sz h1 h2 h3 hpop.1 hpop.2.1 hpop.2.2]
    · split
      · rename_i h
        have := h4 (b - addr) (by omega)
        rw [show addr + (b - addr) = b by omega] at this
        simp [this]
      · rename_i h
        split
        · rename_i h'
          have := h5 (b + c.redzone - addr) (by omega)
          rw [show addr + (b + c.redzone - addr) - c.redzone = b by omega] at this
          simp [this]
        · rename_i h'
          rw [e1, if_neg h, if_neg h']
    · intro j hj
      rw [e1, if_pos (by omega)]
      exact hst _

/-! ## Copies -/

/-- A write of 16 bytes that copies the shadow from `m`. -/
def copyFlags (m : Nat) : Flags :=
  { write := true, pushpop := false, checkDef := false, useValues := true, checkAddr := false,
    abort := false, single := 0, movs := some m }

/-- One shadow value per byte, no exceptions. -/
def plainConf : Conf :=
  { redzone := 0, leaveUninit := false, map4 := false, unaddrExc := fun _ => false,
    undefExc := fun _ => false }

/-- C50, negative: memory is moved up by one byte through a vector register (load from
100, store to 101).  Only byte 100 is undefined, so afterwards bytes 100 and 101 must
be; but all 16 bytes written are called undefined. -/
theorem C50_copy_overlap :
    let sh : Nat → Sh := fun a => if a = 100 then .undef else .defined
    (∀ j < 16, stored (copyFlags 100) (fun _ => .defined) sh j = .undef ↔ j = 0) ∧
    ∀ j < 16, (memRef (copyFlags 100) plainConf (fun _ => .defined) 101 16 sh).sh (101 + j) =
      .undef := by
  decide +kernel

/-- C50, negative: a copy of 16 bytes from 100, of which the last four are
unaddressable (which was reported at the load), makes the last four bytes of the
destination unaddressable, although all of it is addressable memory. -/
theorem C50_copy_unaddr :
    let sh : Nat → Sh := fun a => if a = 100 then .undef else if 112 ≤ a ∧ a < 116 then .unaddr
      else .defined
    let s := memRef (copyFlags 100) plainConf (fun _ => .defined) 200 16 sh
    (∀ j < 16, sh (200 + j) ≠ .unaddr) ∧ s.reports = [] ∧ ∀ j < 4, s.sh (212 + j) = .unaddr := by
  decide +kernel

/-- A push of four bytes at 96, then the pop, without a red zone. -/
example :
    let sh : Nat → Sh := fun a => if a < 100 then .unaddr else .defined
    let f : Flags := ⟨true, true, false, true, false, false, 0, none⟩
    let g : Flags := ⟨false, true, false, true, false, false, 0, none⟩
    let s := memRef f plainConf (fun j => if j = 1 then .undef else .defined) 96 4 sh
    s.sh 96 = .defined ∧ s.sh 97 = .undef ∧ s.sh 95 = .unaddr ∧
      (memRef g plainConf (fun _ => .defined) 96 4 s.sh).sh 97 = .unaddr := by
  decide +kernel

/-- Three elements of two bytes are filled from an operand whose second byte is undefined. -/
example :
    let f : Flags := ⟨true, false, false, true, false, false, 2, none⟩
    let s := memRef f plainConf (fun j => if j = 1 then .undef else .defined) 96 6 (fun _ => .defined)
    [95, 96, 97, 98, 99, 100, 101, 102].map s.sh =
      [.defined, .defined, .undef, .defined, .undef, .defined, .undef, .defined] := by
  decide +kernel

end Verif.MemRef
