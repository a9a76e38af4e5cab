import Verif.MemRefAbort

/-!
# The memory reference check with one shadow byte per dword

Without checks for uninitialized reads four bytes share a shadow value
(`MAP_4B_TO_1B`, shadow.h:29), and the loop of `handle_mem_ref_internal` is meant to
look at every dword once.  Its step (slowpath.c:1689-1698) sets `i` to the start of the
next dword, and then the `i++` of the loop adds one: the loop looks at the first byte of
the reference and then at the *second* byte of every later dword.
-/

namespace Verif.MemRef

open Verif.Define (Sh)

/-- The four bytes of a dword have one shadow value. -/
def Uniform (sh : Nat → Sh) : Prop := ∀ a b, a / 4 = b / 4 → sh a = sh b

/-- The last byte of the reference is not the first byte of a later dword. -/
def Seen (addr sz : Nat) : Prop := (addr + sz) % 4 ≠ 1 ∨ addr / 4 = (addr + sz - 1) / 4

/-- What holds before round `i`. -/
structure DInv (addr sz : Nat) (sh : Nat → Sh) (i : Nat) (s : St) : Prop where
  stop : s.stop = false
  shadow : s.sh = sh
  pos : i = 0 ∨ (1 < i ∧ (addr + i) % 4 = 1)
  good : s.good = true ↔ ∀ b, addr ≤ b → b < addr + (i - 1) → b < addr + sz → sh b ≠ .unaddr
  kind : s.found = true → s.kind = .unaddr ∧ s.badEnd + 1 < addr + i
  truth : ∀ r ∈ s.reports ++ s.pending, r.kind = .unaddr ∧ 0 < r.size ∧ addr ≤ r.start ∧
    r.start + r.size ≤ addr + sz ∧ ∀ b, r.start ≤ b → b < r.start + r.size → sh b = .unaddr
  bad : s.good = false → s.found = true

theorem dword_step {f : Flags} {c : Conf} (hca : f.checkAddr = true) (hp : f.pushpop = false)
    (ha : f.abort = false) (hx : ∀ a, c.unaddrExc a = false)
    (val : Nat → Sh) {addr sz i : Nat} {sh : Nat → Sh} {s : St} (hu : Uniform sh)
    (hi : i < sz) (h : DInv addr sz sh i s) :
    let t := step f c val addr i s
    let j := alignForward4 (addr + i + 1) - addr
    t.stop = false ∧ DInv addr sz sh (j + 1)
      (if t.badEnd = addr + i then { t with badEnd := addr + (if j > sz then sz else j) - 1 }
        else t) := by
  intro t j
  have hj : addr + j = (addr + i + 4) / 4 * 4 := by
    show addr + (alignForward4 (addr + i + 1) - addr) = _
    unfold alignForward4; omega
  have hpos : j + 1 = 0 ∨ (1 < j + 1 ∧ (addr + (j + 1)) % 4 = 1) := by omega
  -- the values of a read change nothing else
  obtain ⟨m, hm⟩ : ∃ m, t = { core f c val addr i s with mapped := m } := by
    show ∃ m, step f c val addr i s = _
    unfold step
    dsimp only
    split
    · exact ⟨_, rfl⟩
    · split
      · exact ⟨_, rfl⟩
      · exact ⟨_, rfl⟩
  have hprev : i = 0 ∨ (1 < i ∧ (addr + i) % 4 = 1) := h.pos
  have hsame : ∀ b, addr + (i - 1) ≤ b → b < addr + j → sh b = sh (addr + i) :=
    fun b h1 h2 => hu b (addr + i) (by omega)
  by_cases hun : sh (addr + i) = .unaddr
  · -- a new range in every dword
    have hcore : core f c val addr i s =
        (if s.found = true then s.flush else s).start .unaddr (addr + i) := by
      unfold core stepUnaddr St.bad
      rw [h.shadow, if_pos hun]
      dsimp only
      rw [if_neg (by rw [hp]; simp), if_neg (by rw [hx]; simp)]
      by_cases hfo : s.found = true
      · obtain ⟨k1, k2⟩ := h.kind hfo
        rw [if_pos hfo, if_pos hfo, if_neg (by rw [k1]; simp), if_pos (.inl (by omega)),
          if_neg (by rw [ha]; simp)]
      · rw [if_neg hfo, if_neg hfo]
    rw [hcore] at hm
    have hst : (if s.found = true then s.flush else s).stop = false := by
      split <;> exact h.stop
    have hsh : (if s.found = true then s.flush else s).sh = sh := by
      split <;> exact h.shadow
    have hrep : (if s.found = true then s.flush else s).reports = s.reports ++ s.pending := by
      unfold St.pending
      split
      · rfl
      · simp
    generalize (if s.found = true then s.flush else s) = u at *
    have hbe : t.badEnd = addr + i := by rw [hm]; rfl
    rw [if_pos hbe, hm]
    refine ⟨hst, ?_⟩
    refine ⟨hst, hsh, hpos, ?_, ?_, ?_, fun _ => rfl⟩
    · simp only [St.start, Bool.false_eq_true, false_iff]
      intro hall
      exact hall (addr + i) (by omega) (by omega) (by omega) hun
    · intro _
      refine ⟨rfl, ?_⟩
      show addr + (if j > sz then sz else j) - 1 + 1 < addr + (j + 1)
      split <;> omega
    · intro r hr
      have hr' : r ∈ (s.reports ++ s.pending) ++
          [⟨.unaddr, addr + i, addr + (if j > sz then sz else j) - 1 + 1 - (addr + i)⟩] := by
        have : u.reports ++ [⟨.unaddr, addr + i,
            addr + (if j > sz then sz else j) - 1 + 1 - (addr + i)⟩] = _ :=
          congrArg (· ++ [_]) hrep
        rw [← this]
        exact hr
      rcases List.mem_append.1 hr' with hr | hr
      · exact h.truth r hr
      · rw [List.mem_singleton.1 hr]
        dsimp only
        have : (if j > sz then sz else j) ≤ sz ∧ (if j > sz then sz else j) ≤ j ∧
            i < (if j > sz then sz else j) := by split <;> omega
        generalize (if j > sz then sz else j) = e at *
        refine ⟨rfl, by omega, by omega, by omega, ?_⟩
        intro b h1 h2
        rw [hsame b (by omega) (by omega)]
        exact hun
  · have hcore : core f c val addr i s = s := by
      unfold core
      rw [h.shadow, if_neg hun, if_neg (by rw [hca]; simp), if_neg (by rw [hca]; simp)]
    rw [hcore] at hm
    have hpd : ∀ e, { t with badEnd := e }.found = t.found := fun _ => rfl
    rw [hm]
    refine ⟨h.stop, ?_⟩
    have hg : s.good = true ↔ ∀ b, addr ≤ b → b < addr + (j + 1 - 1) → b < addr + sz →
        sh b ≠ .unaddr := by
      rw [h.good]
      constructor
      · intro hall b h1 h2 h3
        by_cases hb : b < addr + (i - 1)
        · exact hall b h1 hb h3
        · rw [hsame b (by omega) (by omega)]
          exact hun
      · exact fun hall b h1 h2 h3 => hall b h1 (by omega) h3
    by_cases hfo : s.found = true
    · obtain ⟨k1, k2⟩ := h.kind hfo
      rw [if_neg (by dsimp only; omega)]
      exact ⟨h.stop, h.shadow, hpos, hg, fun _ => ⟨k1, by dsimp only; omega⟩, h.truth, h.bad⟩
    · have hpe : s.pending = [] := by unfold St.pending; rw [if_neg hfo]
      have htr := h.truth
      rw [hpe, List.append_nil] at htr
      split
      · refine ⟨h.stop, h.shadow, hpos, hg, fun hh => absurd hh hfo, ?_, h.bad⟩
        unfold St.pending
        dsimp only
        rw [if_neg hfo, List.append_nil]
        exact htr
      · exact ⟨h.stop, h.shadow, hpos, hg, fun hh => absurd hh hfo, h.truth, h.bad⟩

theorem dword_loop {f : Flags} {c : Conf} (hca : f.checkAddr = true) (hp : f.pushpop = false)
    (ha : f.abort = false) (hx : ∀ a, c.unaddrExc a = false) (hm : c.map4 = true)
    (val : Nat → Sh) {addr sz : Nat} (hov : addr + 4 < 2 ^ 64) {sh : Nat → Sh} (hu : Uniform sh) :
    ∀ n i s, sz ≤ i + n → DInv addr sz sh i s →
      ∃ i', sz ≤ i' ∧ DInv addr sz sh i' (loop f c val addr sz n i s) := by
  intro n
  induction n with
  | zero => exact fun i s hn h => ⟨i, by omega, h⟩
  | succ n ih =>
    intro i s hn h
    unfold loop
    by_cases hi : i < sz
    · obtain ⟨h1, h2⟩ := dword_step hca hp ha hx val hu hi h
      rw [if_pos hi]
      dsimp only at h1 h2 ⊢
      rw [if_neg (by rw [h1]; simp), if_pos hm, if_neg (by omega)]
      refine ih _ _ ?_ h2
      unfold alignForward4
      omega
    · rw [if_neg hi]
      exact ⟨i, by omega, h⟩

/-- C50: with one shadow value for four bytes, and if the reference does not end with
the first byte of a later dword, a check of addressability returns true exactly if all
bytes are addressable; there is a report exactly if it returns false; and all reports
are true. -/
theorem C50_dword_partial {f : Flags} {c : Conf} (hca : f.checkAddr = true)
    (hp : f.pushpop = false) (ha : f.abort = false) (hx : ∀ a, c.unaddrExc a = false)
    (hm : c.map4 = true) (val : Nat → Sh) {addr sz : Nat} (hov : addr + 4 < 2 ^ 64)
    {sh : Nat → Sh} (hu : Uniform sh) (hseen : Seen addr sz) :
    let s := memRef f c val addr sz sh
    (s.good = true ↔ ∀ j < sz, sh (addr + j) ≠ .unaddr) ∧
    (s.reports = [] ↔ s.good = true) ∧ s.sh = sh ∧
    ∀ r ∈ s.reports, r.kind = .unaddr ∧ 0 < r.size ∧ addr ≤ r.start ∧
      r.start + r.size ≤ addr + sz ∧
      ∀ b, r.start ≤ b → b < r.start + r.size → sh b = .unaddr := by
  have h0 : DInv addr sz sh 0 (St.init sh) := by
    refine ⟨rfl, rfl, .inl rfl, ?_, fun h => (by cases h), fun r hr => (by cases hr),
      fun h => (by cases h)⟩
    simp only [St.init, true_iff]
    intro b h1 h2
    omega
  obtain ⟨g1, g2, g3, g4⟩ := memRef_fields f c val addr sz sh
  obtain ⟨i, hi, h⟩ := dword_loop hca hp ha hx hm val hov hu sz 0 _ (by omega) h0
  dsimp only
  rw [g1, g2, g3]
  have key : (loop f c val addr sz sz 0 (St.init sh)).good = true ↔
      ∀ j < sz, sh (addr + j) ≠ .unaddr := by
    rw [h.good]
    have hpos := h.pos
    constructor
    · intro hall j hj
      by_cases hlt : addr + j < addr + (i - 1)
      · exact hall _ (by omega) hlt (by omega)
      · -- `i = sz` and the last byte
        have hii : i = sz ∧ j = sz - 1 := by omega
        rcases hseen with hs | hs
        · omega
        · by_cases h1 : j = 0
          · omega
          · rw [hu (addr + j) addr (by rw [hs, hii.2]; congr 1; omega)]
            exact hall addr (by omega) (by omega) (by omega)
    · intro hall b h1 h2 h3
      have := hall (b - addr) (by omega)
      rwa [show addr + (b - addr) = b by omega] at this
  refine ⟨key, ?_, h.shadow, h.truth⟩
  constructor
  · intro hnil
    cases hg : (loop f c val addr sz sz 0 (St.init sh)).good with
    | true => rfl
    | false =>
      have := h.bad hg
      unfold St.pending at hnil
      rw [if_pos this] at hnil
      simp at hnil
  · intro hg
    have hall := key.1 hg
    rw [List.eq_nil_iff_forall_not_mem]
    intro r hr
    obtain ⟨-, t1, t2, t3, t4⟩ := h.truth r hr
    have := t4 r.start (Nat.le_refl _) (by omega)
    refine hall (r.start - addr) (by omega) ?_
    rwa [show addr + (r.start - addr) = r.start by omega]

/-- The flags and the options of the witnesses. -/
def checkFlags : Flags :=
  { write := true, pushpop := false, checkDef := false, useValues := false, checkAddr := true,
    abort := false, single := 0, movs := none }

/-- One shadow value per dword. -/
def dwordConf : Conf := { plainConf with map4 := true }

/-- C50, negative: the last byte of a reference is not looked at if it is the first byte
of a later dword; a check of five bytes at 0 does not see that the second dword is
unaddressable. -/
theorem C50_dword_missed :
    let sh : Nat → Sh := fun a => if a < 4 then .defined else .unaddr
    Uniform sh ∧ sh (0 + 4) = .unaddr ∧
    (memRef checkFlags dwordConf (fun _ => .defined) 0 5 sh).reports = [] ∧
    (memRef checkFlags dwordConf (fun _ => .defined) 0 5 sh).good = true := by
  refine ⟨?_, by decide +kernel, by decide +kernel, by decide +kernel⟩
  intro a b h
  dsimp only
  by_cases ha : a < 4
  · rw [if_pos ha, if_pos (by omega)]
  · rw [if_neg ha, if_neg (by omega)]

/-- C50, negative: eight unaddressable bytes of an aligned reference are reported as two
errors, and the second one leaves out a byte. -/
theorem C50_dword_split :
    (memRef checkFlags dwordConf (fun _ => .defined) 8 8 (fun _ => .unaddr)).reports =
      [⟨.unaddr, 8, 4⟩, ⟨.unaddr, 13, 3⟩] ∧
    (memRef checkFlags plainConf (fun _ => .defined) 8 8 (fun _ => .unaddr)).reports =
      [⟨.unaddr, 8, 8⟩] := by
  decide +kernel

/-- The hypotheses of `C50_dword_partial` can be met: eight bytes at 6. -/
example :
    let sh : Nat → Sh := fun a => if a < 8 then .defined else .unaddr
    Seen 6 8 ∧ (memRef checkFlags dwordConf (fun _ => .defined) 6 8 sh).reports =
      [⟨.unaddr, 9, 3⟩, ⟨.unaddr, 13, 1⟩] := by
  refine ⟨by unfold Seen; omega, by decide +kernel⟩

/-- An aborted reference: bytes 2 and 3 undefined, 6 to 11 and 14 unaddressable. -/
example :
    let sh : Nat → Sh := fun a => if a = 2 ∨ a = 3 then .undef
      else if (6 ≤ a ∧ a < 12) ∨ a = 14 then .unaddr else .defined
    let f : Flags := ⟨false, false, true, false, false, true, 0, none⟩
    (memRef f plainConf (fun _ => .defined) 0 16 sh).reports =
      [⟨.undef, 2, 2⟩, ⟨.unaddr, 6, 4⟩] ∧
    (memRef { f with abort := false } plainConf (fun _ => .defined) 0 16 sh).reports =
      [⟨.undef, 2, 2⟩, ⟨.unaddr, 6, 6⟩, ⟨.unaddr, 14, 1⟩] := by
  decide +kernel

end Verif.MemRef
