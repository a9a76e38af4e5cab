import Verif.RegShadowThms

/-!
# The shadow of the registers: layout, threads, flags, and where the code goes wrong  (C67)
-/

namespace Verif.RegShadow

/-- **C67** (layout).  The bits of every register lie in the thread's slots or in its block, apart
from those of every other register, from the flags, from the heap counter and from the pointer to
the block; a slot byte is shared by four bytes of one register and by no others. -/
theorem C67_layout (x64 : Bool) :
    (∀ q j, IsByte x64 q j → (∃ o, (base x64 q).plus (j / 4) = .tls o ∧ o < eflagsOff x64) ∨
      ∃ o, (base x64 q).plus (j / 4) = .aux o ∧ o < auxSize x64) ∧
    (∀ p i q j, IsByte x64 p i → IsByte x64 q j →
      ((base x64 p).plus (i / 4) = (base x64 q).plus (j / 4) ↔ p = q ∧ i / 4 = j / 4)) ∧
    eflagsOff x64 + gsz x64 ≤ inheapOff x64 ∧ inheapOff x64 < auxOff x64 ∧
    auxOff x64 % ptrSize x64 = 0 ∧ auxOff x64 + ptrSize x64 = tlsSize x64 ∧
    tlsSize x64 = (if x64 then 6 else 4) * ptrSize x64 := by
  refine ⟨?_, fun p i q j hp hq => loc_inj x64 p q i j hp.1 hq.1 hp.2 hq.2, ?_⟩
  · rintro q j ⟨hq, hj⟩
    cases q with
    | gpr n =>
      left
      refine ⟨_, rfl, ?_⟩
      cases x64 <;> simp [Exists, psize, gsz, eflagsOff, numGpr] at * <;> omega
    | _ =>
      right
      refine ⟨_, rfl, ?_⟩
      cases x64 <;> simp [Exists, psize, auxSize, ymmhOff, mmOff, numMm, numXmm] at * <;> omega
  · cases x64 <;> decide

/-- **C67** (one set of bits).  The fast path's generated code and the slow path use the same
bytes for a register: the operand that the fast path makes begins where the slow path reads, is
wide enough for the bytes that the instruction names (general purpose registers), and with 64 bits
the operand for the upper half is where the slow path writes it. -/
theorem C67_fast (x64 : Bool) (r : Reg) :
    fastSlot x64 r = base x64 (part r).1 ∧
    (isGpr r = true → Named x64 r → ∀ i, i < regSize r →
      ((part r).2 + i) / 4 < fastSize x64 r) ∧
    (isGpr r = true → fastHigh x64 r = (base x64 (part r).1).plus (4 / 4)) ∧
    (isGpr r = true → offsInDword r = (part r).2) := by
  refine ⟨?_, ?_, ?_, ?_⟩
  · cases r <;> simp [fastSlot, base, part, regNum]
  · intro hg hn i hi
    cases x64 <;> cases r <;> simp [isGpr, Named, regSize, part, fastSize, gsz] at * <;> omega
  · intro hg
    cases r <;> simp [isGpr] at hg <;> rfl
  · intro hg
    cases r <;> simp [isGpr] at hg <;> rfl

/-- Writing slots from the flags on does not change the registers. -/
theorem bits_meta (x64 : Bool) (f : File) (k : Nat) (v : UInt8) (hk : eflagsOff x64 ≤ k)
    (q : Phys) (j : Nat) (h : IsByte x64 q j) :
    bits x64 (f.set (.tls k) v) q j = bits x64 f q j := by
  unfold bits
  rw [get_set, if_neg (loc_meta x64 q j h.1 h.2 k hk)]

/-- **C67** (flags and heap counter).  The flags and the counter of heap routines hold the byte
stored last; storing one changes neither the other nor any register. -/
theorem C67_flags (x64 : Bool) (f : File) (v : Nat) :
    getEflags x64 (setEflags x64 f v) = v % 256 ∧
    getInheap x64 (setEflags x64 f v) = getInheap x64 f ∧
    getInheap x64 (setInheap x64 f v) = v % 256 ∧
    getEflags x64 (setInheap x64 f v) = getEflags x64 f ∧
    (∀ q j, IsByte x64 q j → bits x64 (setEflags x64 f v) q j = bits x64 f q j ∧
      bits x64 (setInheap x64 f v) q j = bits x64 f q j) := by
  refine ⟨?_, ?_, ?_, ?_, ?_⟩
  · cases x64 <;> simp [getEflags, setEflags, get16, File.get, File.set, Loc.plus]
  · cases x64 <;> simp [getInheap, setEflags, File.set, inheapOff, gsz]
  · cases x64 <;> simp [getInheap, setInheap, File.set]
  · cases x64 <;>
      simp [getEflags, setInheap, get16, File.get, File.set, Loc.plus, inheapOff, gsz]
  · intro q j h
    refine ⟨?_, bits_meta x64 f _ _ (by simp [inheapOff]) q j h⟩
    unfold setEflags
    simp only
    split
    · rw [bits_meta x64 _ _ _ (by omega) q j h, bits_meta x64 f _ _ (by omega) q j h]
    · exact bits_meta x64 f _ _ (by omega) q j h

theorem meta_set (x64 : Bool) (f : File) (n : Nat) (hn : Exists x64 (.gpr n)) :
    getInheap x64 (setPtrsz x64 f (.r64 n) 0) = getInheap x64 f ∧
    getEflags x64 (setPtrsz x64 f (.r64 n) 0) = getEflags x64 f := by
  have hk : ∀ k, eflagsOff x64 ≤ k → (setPtrsz x64 f (.r64 n) 0).tls k = f.tls k := by
    intro k hk
    have h0 := tls_set x64 f (.gpr n) 0 (UInt8.ofNat 0) hn (by cases x64 <;> simp [psize]) k hk
    rw [Nat.zero_div, plus_zero] at h0
    unfold setPtrsz
    split
    · rename_i hx
      rw [setQword_eq, setHighDword, regAddr_base]
      have := tls_set x64 (setDword x64 f (.r64 n) 0) (.gpr n) 4 (UInt8.ofNat 0) hn
        (by rw [hx]; simp [psize]) k hk
      exact this.trans h0
    · exact h0
  have := meta_eq x64 f _ hk
  exact ⟨this.2, this.1⟩

theorem bits_memset (x64 : Bool) (f : File) (v : UInt8) (q : Phys) (j : Nat)
    (h : IsByte x64 q j) : bits x64 (memset2 x64 f v) q j = fld v (j % 4) := by
  unfold bits
  rcases (C67_layout x64).1 q j h with ⟨o, e, ho⟩ | ⟨o, e, ho⟩
  · rw [e]
    show fld (if o < tlsSize x64 then v else f.tls o) _ = _
    rw [if_pos]
    have := (C67_layout x64).2.2
    omega
  · rw [e]
    show fld (if o < auxSize x64 then v else f.aux o) _ = _
    rw [if_pos ho]

theorem fld_ff : ∀ j, j < 4 → fld 0xff j = 3 := by decide

/-- **C67** (a new thread, Linux).  In the first thread, and in threads that were there before the
tool, every byte of every register and the flags are defined.  In a thread seen from its start
nothing is, except all of the stack pointer and of xax.  In both the heap counter is zero. -/
theorem C67_thread (x64 : Bool) (late : Bool) (f : File) :
    (∀ q j, IsByte x64 q j → bits x64 (threadInit x64 late f) q j =
      if late = true ∨ q = .gpr 4 ∨ q = .gpr 0 then 0 else 3) ∧
    (isDefined (getEflags x64 (threadInit x64 late f)) = late) ∧
    getInheap x64 (threadInit x64 late f) = 0 := by
  have hin : getInheap x64 (threadInit x64 late f) = 0 := by
    unfold threadInit
    rw [(C67_flags x64 _ 0).2.2.1]
  have h4 : Exists x64 (.gpr 4) := by cases x64 <;> decide
  have h0 : Exists x64 (.gpr 0) := by cases x64 <;> decide
  refine ⟨?_, ?_, hin⟩
  · intro q j h
    unfold threadInit
    rw [((C67_flags x64 _ 0).2.2.2.2 q j h).2]
    cases late with
    | true =>
      rw [if_pos rfl, ((C67_flags x64 _ 0).2.2.2.2 q j h).1, bits_memset x64 f _ q j h,
        if_pos (Or.inl rfl)]
      exact fld_zero _
    | false =>
      rw [if_neg (by decide)]
      simp only
      rw [bits_setPtrsz x64 _ (.r64 0) rfl h0 q j h.1 h.2,
        bits_setPtrsz x64 _ (.r64 4) rfl h4 q j h.1 h.2,
        ((C67_flags x64 _ 0xff).2.2.2.2 q j h).1, bits_memset x64 f _ q j h,
        fld_ff _ (Nat.mod_lt _ (by decide))]
      show (if q = Phys.gpr 0 then 0 else if q = Phys.gpr 4 then 0 else 3) = _
      by_cases e0 : q = .gpr 0
      · rw [if_pos e0, if_pos (Or.inr (Or.inr e0))]
      · by_cases e4 : q = .gpr 4
        · rw [if_neg e0, if_pos e4, if_pos (Or.inr (Or.inl e4))]
        · rw [if_neg e0, if_neg e4, if_neg (by
            rintro (h | h | h)
            · cases h
            · exact e4 h
            · exact e0 h)]
  · unfold threadInit
    rw [(C67_flags x64 _ 0).2.2.2.1]
    cases late with
    | true => rw [if_pos rfl, (C67_flags x64 _ 0).1]; rfl
    | false =>
      rw [if_neg (by decide)]
      simp only
      rw [(meta_set x64 _ 0 h0).2, (meta_set x64 _ 4 h4).2, (C67_flags x64 _ 0xff).1]
      rfl

/-! ## MMX registers -/

/-- The value read for an MMX register: its own bits, then those of the next one. -/
theorem mm_field (x64 : Bool) (f : File) (n j : Nat) :
    getReg x64 f (.mm n) / 4 ^ j % 4 =
      if j < 8 then bits x64 f (.mm n) j
      else if j < 16 then bits x64 f (.mm (n + 1)) (j - 8) else 0 := by
  show get32 f (.aux (mmOff x64 + 2 * n)) / 4 ^ j % 4 = _
  rw [get32_field]
  unfold bits base
  simp only [Loc.plus]
  by_cases h : j < 8
  · rw [if_pos (by omega), if_pos h]
  · rw [if_neg h]
    by_cases h' : j < 16
    · rw [if_pos h', if_pos h',
        show mmOff x64 + 2 * (n + 1) + (j - 8) / 4 = mmOff x64 + 2 * n + j / 4 by omega,
        show (j - 8) % 4 = j % 4 by omega]
    · rw [if_neg h', if_neg h']

/-- **C67** (MMX registers; the code does not do what it says).  The shadow of an MMX register has
16 bits but 32 are read.  A register all of whose bytes are defined is reported when the next MMX
register is not, and, since marking it defined does not help, reported again by each check.  What
is read for the last one includes two bytes past the end of the thread's block. -/
theorem C67_mmx (x64 : Bool) (f : File) (n : Nat) (hn : n + 1 < 8)
    (_hd : ∀ j, j < 8 → bits x64 f (.mm n) j = 0) (i : Nat) (hi : i < 8)
    (hu : bits x64 f (.mm (n + 1)) i ≠ 0) :
    (checkReg x64 f (.mm n) 8 none).1 = true ∧
    (checkReg x64 (checkReg x64 f (.mm n) 8 none).2 (.mm n) 8 none).1 = true := by
  have hrep : ∀ f : File, bits x64 f (.mm (n + 1)) i ≠ 0 →
      checkReg x64 f (.mm n) 8 none = (true, markDefined x64 f (.mm n) 8) := by
    intro f hu
    unfold checkReg
    rw [if_neg]
    intro h
    unfold isDefined checkedShadow at h
    rw [if_neg (show ¬8 < regSize (.mm _) from Nat.lt_irrefl 8), beq_iff_eq, field_zero] at h
    have := h (i + 8)
    rw [mm_field, if_neg (by omega), if_pos (by omega), show i + 8 - 8 = i by omega] at this
    exact hu this
  rw [hrep f hu]
  refine ⟨rfl, ?_⟩
  have hm := mark_bits x64 f (.mm n) 8 (show n < 8 by omega) (Nat.le_refl 8) (.mm (n + 1)) i
    (show n + 1 < 8 from hn) hi
  rw [if_neg (by
    rintro ⟨h, _⟩
    simp [part] at h)] at hm
  rw [hrep _ (by rw [hm]; exact hu)]

/-- **C67** (the last MMX register): the value read depends on two bytes that are not in the
block. -/
theorem C67_mmx_end (x64 : Bool) (f : File) :
    getReg x64 f (.mm 7) = get16 f (.aux (mmOff x64 + 14)) +
      65536 * ((f.aux (auxSize x64)).toNat + 256 * (f.aux (auxSize x64 + 1)).toNat) := by
  cases x64 <;> rfl

/-- **C67** (MMX registers, what holds).  The value read has the bits of the register's own bytes
in its lower half; a check reports whenever one of them is undefined. -/
theorem C67_mmx_partial (x64 : Bool) (f : File) (n : Nat) :
    (∀ j, j < 8 → getReg x64 f (.mm n) / 4 ^ j % 4 = bits x64 f (.mm n) j) ∧
    ((∃ j, j < 8 ∧ bits x64 f (.mm n) j ≠ 0) → (checkReg x64 f (.mm n) 8 none).1 = true) := by
  refine ⟨fun j hj => by rw [mm_field, if_pos hj], ?_⟩
  rintro ⟨j, hj, hu⟩
  unfold checkReg
  rw [if_neg]
  intro h
  unfold isDefined checkedShadow at h
  rw [if_neg (show ¬8 < regSize (.mm _) from Nat.lt_irrefl 8), beq_iff_eq, field_zero] at h
  have := h j
  rw [mm_field, if_pos hj] at this
  exact hu this

/-! ## The upper halves of ymm registers -/

theorem ymm_next (x64 : Bool) (f : File) (n i v : Nat) :
    setByte x64 f (.ymm n) (16 + i) v = setByte x64 f (.ymm (n + 1)) i v := by
  unfold setByte
  simp only [regAddr, Loc.plus]
  rw [show ymmhOff x64 + 4 * n + (16 + i) * 2 / 8 = ymmhOff x64 + 4 * (n + 1) + i * 2 / 8 by omega,
    show (16 + i) * 2 % 8 = i * 2 % 8 by omega]

theorem ymm_last (x64 : Bool) (f : File) (n i v : Nat) (hn : n + 1 = numXmm x64) :
    setByte x64 f (.ymm n) (16 + i) v =
      if i < 8 then setByte x64 f (.mm 0) i v else setByte x64 f (.mm 1) (i - 8) v := by
  rw [ymm_next]
  unfold setByte
  simp only [regAddr, Loc.plus]
  have e : ymmhOff x64 + 4 * (n + 1) = mmOff x64 := by
    rw [hn]; unfold ymmhOff mmOff; omega
  rw [e]
  split
  · rw [show mmOff x64 + 2 * 0 = mmOff x64 by omega]
  · rw [show mmOff x64 + 2 * 1 + (i - 8) * 2 / 8 = mmOff x64 + i * 2 / 8 by omega,
      show (i - 8) * 2 % 8 = i * 2 % 8 by omega]

theorem last_run (x64 : Bool) (n : Nat) (hn : n + 1 = numXmm x64) (q : Phys) (j : Nat)
    (hq : IsByte x64 q j) : ∀ (m : Nat) (f : File), m ≤ 16 →
    bits x64 ((List.range m).foldl (fun f i => setByte x64 f (.ymm n) (16 + i) 0) f) q j =
      if (q = .mm 0 ∧ j < m) ∨ (q = .mm 1 ∧ j + 8 < m) then 0 else bits x64 f q j
  | 0, f, _ => by rw [if_neg (by omega)]; rfl
  | m + 1, f, h => by
    rw [List.range_succ, List.foldl_append, List.foldl_cons, List.foldl_nil,
      ymm_last x64 _ n m 0 hn]
    have ih := last_run x64 n hn q j hq m f (by omega)
    have hj8 : q = .mm 0 ∨ q = .mm 1 → j < 8 := by
      rintro (rfl | rfl) <;> exact hq.2
    split
    · rw [bits_setByte x64 _ (.mm 0) m 0 (by decide) (show 0 < 8 by decide)
        (show m < 8 by omega) q j hq.1 hq.2, ih]
      show (if q = Phys.mm 0 ∧ j = m then 0 else _) = _
      by_cases e : q = .mm 0
      · by_cases hjm : j = m
        · rw [if_pos ⟨e, hjm⟩, if_pos (Or.inl ⟨e, by omega⟩)]
        · rw [if_neg (fun h => hjm h.2)]
          by_cases hlt : j < m
          · rw [if_pos (Or.inl ⟨e, hlt⟩), if_pos (Or.inl ⟨e, by omega⟩)]
          · rw [if_neg (by rintro (h | h) <;> omega), if_neg (by rintro (h | h) <;> omega)]
      · rw [if_neg (fun h => e h.1), if_neg (fun h => h.elim (fun h => e h.1) (fun h => by omega)),
          if_neg (fun h => h.elim (fun h => e h.1) (fun h => by omega))]
    · rw [bits_setByte x64 _ (.mm 1) (m - 8) 0 (by decide) (show 1 < 8 by decide)
        (show m - 8 < 8 by omega) q j hq.1 hq.2, ih]
      show (if q = Phys.mm 1 ∧ j = m - 8 then 0 else _) = _
      by_cases e : q = .mm 1
      · have hj := hj8 (Or.inr e)
        have ne : q ≠ .mm 0 := by rw [e]; simp
        by_cases hjm : j = m - 8
        · rw [if_pos ⟨e, hjm⟩, if_pos (Or.inr ⟨e, by omega⟩)]
        · rw [if_neg (fun h => hjm h.2)]
          by_cases hlt : j + 8 < m
          · rw [if_pos (Or.inr ⟨e, hlt⟩), if_pos (Or.inr ⟨e, by omega⟩)]
          · rw [if_neg (fun h => h.elim (fun h => ne h.1) (fun h => by omega)),
              if_neg (fun h => h.elim (fun h => ne h.1) (fun h => by omega))]
      · rw [if_neg (fun h => e h.1)]
        by_cases e0 : q = .mm 0
        · have hj := hj8 (Or.inl e0)
          rw [if_pos (Or.inl ⟨e0, by omega⟩), if_pos (Or.inl ⟨e0, by omega⟩)]
        · rw [if_neg (fun h => h.elim (fun h => e0 h.1) (fun h => e h.1)),
            if_neg (fun h => h.elim (fun h => e0 h.1) (fun h => e h.1))]

/-- **C67** (VEX-encoded writes; the code does not do what it says).  A VEX-encoded instruction
that writes an xmm register clears the upper half of its ymm register.  The code leaves the bits
of that half as they are and marks defined the upper half of the *next* ymm register; for the last
register, the MMX registers mm0 and mm1.  An undefined mm0 is then no longer reported. -/
theorem C67_vex (x64 : Bool) (f : File) (n : Nat) (hn : n < numXmm x64) :
    let g := zeroYmmh x64 f (.xmm n)
    (∀ j, j < 16 → bits x64 g (.ymmh n) j = bits x64 f (.ymmh n) j) ∧
    (n + 1 < numXmm x64 → ∀ j, j < 16 → bits x64 g (.ymmh (n + 1)) j = 0) ∧
    (n + 1 = numXmm x64 → (∀ j, j < 8 → bits x64 g (.mm 0) j = 0 ∧ bits x64 g (.mm 1) j = 0) ∧
      (checkReg x64 g (.mm 0) 8 none).1 = false) := by
  intro g
  have hex : ∀ m, m < numXmm x64 → Exists x64 (.ymmh m) := by
    intro m hm; cases x64 <;> simpa [Exists, numXmm] using hm
  have hps : psize x64 (.ymmh (n + 1)) = 16 := rfl
  by_cases hl : n + 1 < numXmm x64
  · have hg : ∀ q j, IsByte x64 q j → bits x64 g q j =
        if q = .ymmh (n + 1) ∧ j < 16 then 0 else bits x64 f q j := by
      intro q j h
      have := bits_run x64 (.ymm (n + 1)) 0 (fun _ => 0) (fun _ => by decide) (hex _ hl) q j
        h.1 h.2 16 f (by show 0 + 16 ≤ 16; omega)
      simp only [Nat.add_zero, Nat.zero_le, true_and, Nat.zero_add, part] at this
      have e : g = (List.range 16).foldl (fun f i => setByte x64 f (.ymm (n + 1)) i 0) f := by
        show (List.range 16).foldl (fun f i => setByte x64 f (.ymm n) (16 + i) 0) f = _
        simp only [ymm_next]
      rw [e]
      exact this
    refine ⟨?_, ?_, fun h => by omega⟩
    · intro j hj
      rw [hg _ _ ⟨hex n hn, hj⟩, if_neg (by simp)]
    · intro _ j hj
      rw [hg _ _ ⟨hex _ hl, hj⟩, if_pos ⟨rfl, hj⟩]
  · have hn' : n + 1 = numXmm x64 := by omega
    have hg : ∀ q j, IsByte x64 q j → bits x64 g q j =
        if (q = .mm 0 ∧ j < 16) ∨ (q = .mm 1 ∧ j + 8 < 16) then 0 else bits x64 f q j :=
      fun q j h => last_run x64 n hn' q j h 16 f (Nat.le_refl _)
    have hz : ∀ j, j < 8 → bits x64 g (.mm 0) j = 0 ∧ bits x64 g (.mm 1) j = 0 := by
      intro j hj
      rw [hg (.mm 0) j ⟨show 0 < 8 by decide, hj⟩, hg (.mm 1) j ⟨show 1 < 8 by decide, hj⟩,
        if_pos (Or.inl ⟨rfl, by omega⟩), if_pos (Or.inr ⟨rfl, by omega⟩)]
      exact ⟨rfl, rfl⟩
    refine ⟨?_, fun h => absurd h hl, fun _ => ⟨hz, ?_⟩⟩
    · intro j hj
      rw [hg _ _ ⟨hex n hn, hj⟩, if_neg (by simp)]
    · unfold checkReg
      rw [if_pos]
      unfold isDefined checkedShadow
      rw [if_neg (show ¬8 < regSize (.mm _) from Nat.lt_irrefl 8), beq_iff_eq, field_zero]
      intro j
      rw [mm_field]
      split
      · rename_i h
        exact (hz j h).1
      · split
        · exact (hz (j - 8) (by omega)).2
        · rfl

/-! ## Whole values -/

theorem fld_ofNat (v j : Nat) (hj : j < 4) : fld (UInt8.ofNat v) j = v / 4 ^ j % 4 := by
  unfold fld
  have h := field_mod v 4 j
  rw [if_pos hj] at h
  rw [← h]
  congr 2

/-- Field `j` of a number that is shifted by whole bytes. -/
theorem fld_byte (v k j : Nat) (hk : j / 4 = k) :
    fld (UInt8.ofNat (v / 4 ^ (4 * k))) (j % 4) = v / 4 ^ j % 4 := by
  rw [fld_ofNat _ _ (Nat.mod_lt _ (by decide)), Nat.div_div_eq_div_mul, ← Nat.pow_add,
    show 4 * k + j % 4 = j by omega]

/-- **C67** (whole values).  Storing a value for a whole register (after a system call, for a
context, for a fuzzed argument) gives each of its bytes the value's two bits for it and changes
nothing else: `register_shadow_set_ptrsz` for general purpose registers,
`register_shadow_set_dqword` for xmm registers. -/
theorem C67_store (x64 : Bool) (f : File) (n v : Nat) :
    (∀ r, isGpr r = true → Named x64 r → ∀ q j, IsByte x64 q j →
      bits x64 (setPtrsz x64 f r v) q j =
        if q = (part r).1 then v / 4 ^ j % 4 else bits x64 f q j) ∧
    (n < numXmm x64 → ∀ q j, IsByte x64 q j →
      bits x64 (setDqword x64 f (.xmm n) v) q j =
        if q = .xmm n then v / 4 ^ j % 4 else bits x64 f q j) := by
  constructor
  · intro r hg hn q j h
    have hp := named_exists x64 r hn
    have hps := psize_gpr x64 r hg
    have hlo : ∀ f : File, bits x64 (f.set (regAddr x64 r) (UInt8.ofNat v)) q j =
        if q = (part r).1 ∧ j / 4 = 0 then fld (UInt8.ofNat v) (j % 4) else bits x64 f q j := by
      intro f
      have := bits_set_same x64 f (part r).1 q 0 j (UInt8.ofNat v) hp h.1
        (by rw [hps]; cases x64 <;> decide) h.2
      rw [Nat.zero_div, plus_zero] at this
      rw [regAddr_base]
      exact this
    by_cases e : q = (part r).1
    · have hj : j < if x64 = true then 8 else 4 := by have := h.2; rwa [e, hps] at this
      rw [if_pos e]
      unfold setPtrsz
      cases x64 with
      | false =>
        rw [if_neg (by decide)]
        have hj : j < 4 := hj
        show bits false (f.set (regAddr false r) (UInt8.ofNat v)) q j = _
        rw [hlo, if_pos ⟨e, by omega⟩]
        have := fld_byte v 0 j (by omega)
        rwa [Nat.mul_zero, Nat.pow_zero, Nat.div_one] at this
      | true =>
        rw [if_pos rfl]
        have hj : j < 8 := hj
        show bits true ((f.set (regAddr true r) (UInt8.ofNat v)).set ((regAddr true r).plus 1)
          (UInt8.ofNat (v / 256))) q j = _
        have h1 := bits_set_same true (f.set (regAddr true r) (UInt8.ofNat v)) (part r).1 q 4 j
          (UInt8.ofNat (v / 256)) hp h.1 (by rw [hps]; decide) h.2
        rw [regAddr_base] at h1 ⊢
        rw [h1, ← regAddr_base, hlo]
        by_cases h4 : j < 4
        · rw [if_neg (by omega), if_pos ⟨e, by omega⟩]
          have := fld_byte v 0 j (by omega)
          rwa [Nat.mul_zero, Nat.pow_zero, Nat.div_one] at this
        · rw [if_pos ⟨e, by omega⟩]
          exact fld_byte v 1 j (by omega)
    · rw [if_neg e]
      unfold setPtrsz
      split
      · rename_i hx
        show bits x64 ((f.set (regAddr x64 r) (UInt8.ofNat v)).set ((regAddr x64 r).plus 1)
          (UInt8.ofNat (v / 256))) q j = _
        have h1 := bits_set_same x64 (f.set (regAddr x64 r) (UInt8.ofNat v)) (part r).1 q 4 j
          (UInt8.ofNat (v / 256)) hp h.1 (by rw [hps, if_pos hx]; decide) h.2
        rw [regAddr_base] at h1 ⊢
        rw [h1, ← regAddr_base, hlo, if_neg (fun h => e h.1), if_neg (fun h => e h.1)]
      · show bits x64 (f.set (regAddr x64 r) (UInt8.ofNat v)) q j = _
        rw [hlo, if_neg (fun h => e h.1)]
  · intro hn q j h
    have hp : Exists x64 (.xmm n) := by cases x64 <;> simpa [Exists, numXmm] using hn
    have hs : ∀ (f : File) (k : Nat) (w : UInt8), k < 4 →
        bits x64 (f.set ((base x64 (.xmm n)).plus k) w) q j =
        if q = .xmm n ∧ j / 4 = k then fld w (j % 4) else bits x64 f q j := by
      intro f k w hk
      have := bits_set_same x64 f (.xmm n) q (4 * k) j w hp h.1 (show 4 * k < 16 by omega) h.2
      rwa [show 4 * k / 4 = k by omega] at this
    have e : setDqword x64 f (.xmm n) v =
        (((f.set ((base x64 (.xmm n)).plus 0) (UInt8.ofNat (v / 4 ^ (4 * 0)))).set
          ((base x64 (.xmm n)).plus 1) (UInt8.ofNat (v / 4 ^ (4 * 1)))).set
          ((base x64 (.xmm n)).plus 2) (UInt8.ofNat (v / 4 ^ (4 * 2)))).set
          ((base x64 (.xmm n)).plus 3) (UInt8.ofNat (v / 4 ^ (4 * 3))) := by
      rw [plus_zero, Nat.mul_zero, Nat.pow_zero, Nat.div_one]
      rfl
    rw [e, hs _ 3 _ (by decide), hs _ 2 _ (by decide), hs _ 1 _ (by decide),
      hs _ 0 _ (by decide)]
    by_cases hq : q = .xmm n
    · have hj : j < 16 := by have := h.2; rw [hq] at this; exact this
      rw [if_pos hq]
      by_cases h3 : j / 4 = 3
      · rw [if_pos ⟨hq, h3⟩]; exact fld_byte v 3 j h3
      rw [if_neg (fun h => h3 h.2)]
      by_cases h2 : j / 4 = 2
      · rw [if_pos ⟨hq, h2⟩]; exact fld_byte v 2 j h2
      rw [if_neg (fun h => h2 h.2)]
      by_cases h1 : j / 4 = 1
      · rw [if_pos ⟨hq, h1⟩]; exact fld_byte v 1 j h1
      rw [if_neg (fun h => h1 h.2)]
      have h0 : j / 4 = 0 := by omega
      rw [if_pos ⟨hq, h0⟩]; exact fld_byte v 0 j h0
    · rw [if_neg hq, if_neg (fun h => hq h.1), if_neg (fun h => hq h.1), if_neg (fun h => hq h.1),
        if_neg (fun h => hq h.1)]

/-- **C67** (exceptions and flags).  A check whose operand has an exception is not reported and
leaves what the exception handling left; a check that finds everything defined changes nothing.
The flags are reported exactly when they are not defined; after that they are, and no register has
changed. -/
theorem C67_exception (x64 : Bool) (f g : File) (r : Reg) (sz : Nat) :
    (checkReg x64 f r sz (some g)).1 = false ∧
    ((checkReg x64 f r sz none).1 = true → (checkReg x64 f r sz (some g)).2 = g) ∧
    ((checkReg x64 f r sz none).1 = false → ∀ exc, checkReg x64 f r sz exc = (false, f)) ∧
    (checkEflags x64 f (some g)).1 = false ∧
    ((checkEflags x64 f none).1 = true → (checkEflags x64 f (some g)).2 = g) ∧
    ((checkEflags x64 f none).1 = true ↔ getEflags x64 f ≠ 0) ∧
    getEflags x64 (checkEflags x64 f none).2 = 0 ∧
    getInheap x64 (checkEflags x64 f none).2 = getInheap x64 f ∧
    (∀ q j, IsByte x64 q j → bits x64 (checkEflags x64 f none).2 q j = bits x64 f q j) := by
  have h1 : (checkReg x64 f r sz (some g)).1 = false ∧
      ((checkReg x64 f r sz none).1 = true → (checkReg x64 f r sz (some g)).2 = g) ∧
      ((checkReg x64 f r sz none).1 = false → ∀ exc, checkReg x64 f r sz exc = (false, f)) := by
    unfold checkReg
    by_cases h : isDefined (checkedShadow x64 f r sz) = true
    · simp [h]
    · simp [h]
  refine ⟨h1.1, h1.2.1, h1.2.2, ?_⟩
  unfold checkEflags isDefined
  by_cases h : (getEflags x64 f == 0) = true
  · have h' := beq_iff_eq.mp h
    simp [h']
  · have h' : getEflags x64 f ≠ 0 := fun e => h (beq_iff_eq.mpr e)
    have hf := C67_flags x64 f 0
    simp only [h, if_neg (show ¬(false = true) by decide)]
    exact ⟨trivial, fun _ => trivial, ⟨fun _ => h', fun _ => trivial⟩, hf.1, hf.2.1,
      fun q j hq => (hf.2.2.2.2 q j hq).1⟩

/-! ## Cases -/

/-- A thread seen from its start, 32-bit. -/
def fresh32 : File := threadInit false false ⟨fun _ => 7, fun _ => 7⟩

-- C67_read_partial: eax is defined, ecx is not; of ecx after `mov cl, 0`, cl is and cx is not
example : isDefined (getReg false fresh32 (.r32 0)) = true ∧
    isDefined (getReg false fresh32 (.r32 1)) = false := by decide +kernel
example : getReg false (assign false fresh32 (.low8 1) 1 (fun _ => 0)) (.low8 1) = 0 ∧
    getReg false (assign false fresh32 (.low8 1) 1 (fun _ => 0)) (.r16 1) = 12 ∧
    getReg false (assign false fresh32 (.high8 1) 1 (fun _ => 0)) (.r32 1) = 0xf3 := by
  decide +kernel
-- C67_write: `mov ecx, ...` in 64-bit code also defines the upper half; `mov cx, ...` does not
example : getReg true (assign true (threadInit true false fresh32) (.r32 1) 4 (fun _ => 0))
    (.r64 1) = 0 ∧
    getReg true (assign true (threadInit true false fresh32) (.r16 1) 2 (fun _ => 0)) (.r64 1) =
      0xfff0 := by decide +kernel
-- C67_check_partial: a report for ecx, and none the second time
example : (checkReg false fresh32 (.r32 1) 4 none).1 = true ∧
    (checkReg false (checkReg false fresh32 (.r32 1) 4 none).2 (.r32 1) 4 none).1 = false := by
  decide +kernel
-- C67_high_byte: its hypothesis holds in a new thread
example : bits false fresh32 (.gpr 1) 1 ≠ 0 := by decide +kernel
-- C67_mmx: mm0 is written, mm1 is not
example :
    let f := assign false fresh32 (.mm 0) 8 (fun _ => 0)
    (∀ j, j < 8 → bits false f (.mm 0) j = 0) ∧ bits false f (.mm 1) 0 ≠ 0 := by decide +kernel
-- C67_vex: xmm7 in 32-bit code; mm0 was undefined
example : 7 + 1 = numXmm false ∧ (checkReg false fresh32 (.mm 0) 8 none).1 = true ∧
    (checkReg false (zeroYmmh false fresh32 (.xmm 7)) (.mm 0) 8 none).1 = false := by
  decide +kernel
-- C67_store, C67_exception
example : getReg true (setPtrsz true (threadInit true false fresh32) (.r64 2) 0xff00) (.r32 2) = 0 ∧
    getReg false (setDqword false fresh32 (.xmm 3) 0xffff0000) (.xmm 3) = 0xffff0000 ∧
    (checkEflags false fresh32 none).1 = true ∧
    (checkReg false fresh32 (.r32 1) 4 (some fresh32)).1 = false := by decide +kernel
-- C67_layout
example : IsByte true (.ymmh 15) 15 ∧ ¬IsByte false (.ymmh 8) 0 := by
  constructor
  · exact ⟨by decide, by decide⟩
  · rintro ⟨h, _⟩; revert h; decide

end Verif.RegShadow
