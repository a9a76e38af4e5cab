import Verif.WrapProps
/-
C74: the replacement of realloc that wrapping mode puts in place of the application's
(common/alloc_unopt.c:34-88).
-/
namespace Verif.Wrap

/-! ## The copy -/

/-- One byte. -/
def put (mem : Nat → Nat) (d v : Nat) : Nat → Nat := upd mem d v

/-- The loop of single bytes (alloc_unopt.c:53-56, 58-59). -/
def copyBytes : Nat → Nat → Nat → (Nat → Nat) → (Nat → Nat)
  | 0, _, _, mem => mem
  | n + 1, d, s, mem => copyBytes n (d + 1) (s + 1) (put mem d (mem s))

/-- A word of 4 bytes is read, and then written (alloc_unopt.c:48). -/
def copyWord (d s : Nat) (mem : Nat → Nat) : Nat → Nat := fun a =>
  if a = d then mem s else if a = d + 1 then mem (s + 1) else if a = d + 2 then mem (s + 2)
  else if a = d + 3 then mem (s + 3) else mem a

/-- The loop of words (alloc_unopt.c:47-52), `k` of them.  `word` is what the machine does for one. -/
def copyWordsBy (word : Nat → Nat → (Nat → Nat) → (Nat → Nat)) : Nat → Nat → Nat → (Nat → Nat) → (Nat → Nat)
  | 0, _, _, mem => mem
  | k + 1, d, s, mem => copyWordsBy word k (d + 4) (s + 4) (word d s mem)

/-- The bytes up to the first that is aligned (alloc_unopt.c:43-46). -/
def head (d n : Nat) : Nat := min ((4 - d % 4) % 4) n

/-- memcpy_no_movs (alloc_unopt.c:34-62) on a machine that does `word` for each access to a word. -/
def memcpyBy (word : Nat → Nat → (Nat → Nat) → (Nat → Nat)) (d s n : Nat) (mem : Nat → Nat) : Nat → Nat :=
  if d % 4 = s % 4 then
    let h := head d n
    let m1 := copyBytes h d s mem
    let m2 := copyWordsBy word ((n - h) / 4) (d + h) (s + h) m1
    copyBytes ((n - h) % 4) (d + h + (n - h) / 4 * 4) (s + h + (n - h) / 4 * 4) m2
  else copyBytes n d s mem

/-- memcpy_no_movs (alloc_unopt.c:34-62). -/
def memcpy (d s n : Nat) (mem : Nat → Nat) : Nat → Nat := memcpyBy copyWord d s n mem

/-! ## The replacement -/

/-- What a call of the replacement does. -/
structure Realloced where
  mem : Nat → Nat
  ret : Nat
  freed : Option Nat

/-- replace_realloc_template (alloc_unopt.c:66-88).  `old` is what the size routine says of the pointer
(alloc.c:4083-4095, none for -1), `q` what malloc returns for `n` bytes if it is called. -/
def realloc (old : Option Nat) (p n q : Nat) (mem : Nat → Nat) : Realloced :=
  if p ≠ 0 ∧ old = none then ⟨mem, 0, none⟩
  else if n > 0 ∨ p = 0 then
    if q = 0 then ⟨mem, 0, none⟩
    else ⟨if p ≠ 0 then memcpy q p (if n ≤ old.getD 0 then n else old.getD 0) mem else mem, q, some p⟩
  else ⟨mem, 0, some p⟩

/-! ## The copy is one -/

/-- What a copy is. -/
def Copied (d s n : Nat) (mem mem' : Nat → Nat) : Prop :=
  (∀ j, j < n → mem' (d + j) = mem (s + j)) ∧ ∀ a, (a < d ∨ d + n ≤ a) → mem' a = mem a

/-- The two ranges have nothing in common. -/
def Off (d s n : Nat) : Prop := d + n ≤ s ∨ s + n ≤ d

theorem copied_append {d s n m : Nat} {a b c : Nat → Nat} (h1 : Copied d s n a b) (h2 : Copied (d + n) (s + n) m b c)
    (ho : Off d s (n + m)) : Copied d s (n + m) a c := by
  constructor
  · intro j hj
    by_cases h : j < n
    · rw [h2.2 (d + j) (Or.inl (by omega))]
      exact h1.1 j h
    · have := h2.1 (j - n) (by omega)
      rw [show d + n + (j - n) = d + j by omega, show s + n + (j - n) = s + j by omega] at this
      rw [this]
      apply h1.2
      unfold Off at ho
      omega
  · intro x hx
    rw [h2.2 x (by omega), h1.2 x (by omega)]

theorem copied_zero (d s : Nat) (mem : Nat → Nat) : Copied d s 0 mem mem :=
  ⟨fun j h => absurd h (Nat.not_lt_zero j), fun _ _ => rfl⟩

theorem copied_bytes (n d s : Nat) (mem : Nat → Nat) (ho : Off d s n) : Copied d s n mem (copyBytes n d s mem) := by
  induction n generalizing d s mem with
  | zero => exact copied_zero d s mem
  | succ n ih =>
    have h1 : Copied d s 1 mem (put mem d (mem s)) := by
      constructor
      · intro j hj
        have : j = 0 := by omega
        subst this
        exact upd_self _ _ _
      · intro a ha
        exact upd_other _ _ _ _ (by omega)
    have h2 := ih (d + 1) (s + 1) (put mem d (mem s)) (by unfold Off at *; omega)
    have := copied_append h1 h2 (by unfold Off at *; omega)
    rw [Nat.add_comm 1 n] at this
    exact this

theorem copied_word (d s : Nat) (mem : Nat → Nat) : Copied d s 4 mem (copyWord d s mem) := by
  constructor
  · intro j hj
    unfold copyWord
    have : j = 0 ∨ j = 1 ∨ j = 2 ∨ j = 3 := by omega
    rcases this with h | h | h | h <;> subst h
    · rw [Nat.add_zero, Nat.add_zero, if_pos rfl]; rfl
    · rw [if_neg (by omega), if_pos rfl]
    · rw [if_neg (by omega), if_neg (by omega), if_pos rfl]
    · rw [if_neg (by omega), if_neg (by omega), if_neg (by omega), if_pos rfl]
  · intro a ha
    unfold copyWord
    rw [if_neg (by omega), if_neg (by omega), if_neg (by omega), if_neg (by omega)]

theorem copied_words (k d s : Nat) (mem : Nat → Nat) (ho : Off d s (k * 4)) :
    Copied d s (k * 4) mem (copyWordsBy copyWord k d s mem) := by
  induction k generalizing d s mem with
  | zero => rw [Nat.zero_mul]; exact copied_zero d s mem
  | succ k ih =>
    have h2 := ih (d + 4) (s + 4) (copyWord d s mem) (by unfold Off at *; omega)
    have := copied_append (copied_word d s mem) h2 (by unfold Off at *; omega)
    rw [show (k + 1) * 4 = 4 + k * 4 by omega]
    exact this

/-- The copy of the replacement is a copy, wherever the two ranges begin. -/
theorem C74_memcpy (d s n : Nat) (mem : Nat → Nat) (ho : Off d s n) : Copied d s n mem (memcpy d s n mem) := by
  unfold memcpy memcpyBy
  split
  · dsimp only
    have hh : head d n ≤ n := Nat.min_le_right _ _
    generalize head d n = h at *
    have e : (n - h) / 4 * 4 + (n - h) % 4 = n - h := by omega
    have h1 := copied_bytes h d s mem (by unfold Off at *; omega)
    have h2 := copied_words ((n - h) / 4) (d + h) (s + h) (copyBytes h d s mem) (by unfold Off at *; omega)
    have h3 := copied_bytes ((n - h) % 4) (d + h + (n - h) / 4 * 4) (s + h + (n - h) / 4 * 4)
      (copyWordsBy copyWord ((n - h) / 4) (d + h) (s + h) (copyBytes h d s mem)) (by unfold Off at *; omega)
    have h12 := copied_append h1 h2 (by unfold Off at *; omega)
    rw [Nat.add_assoc d h, Nat.add_assoc s h] at h3 ⊢
    have h123 := copied_append h12 h3 (by unfold Off at *; omega)
    have : h + (n - h) / 4 * 4 + (n - h) % 4 = n := by omega
    rw [this] at h123
    exact h123
  · exact copied_bytes n d s mem ho

theorem words_aligned {w1 w2 : Nat → Nat → (Nat → Nat) → (Nat → Nat)}
    (hw : ∀ d s, d % 4 = 0 → s % 4 = 0 → w1 d s = w2 d s) (k d s : Nat) (mem : Nat → Nat) (hd : d % 4 = 0)
    (hs : s % 4 = 0) : copyWordsBy w1 k d s mem = copyWordsBy w2 k d s mem := by
  induction k generalizing d s mem with
  | zero => rfl
  | succ k ih =>
    unfold copyWordsBy
    rw [hw d s hd hs]
    exact ih (d + 4) (s + 4) _ (by omega) (by omega)

/-- Words are only read and written where they are aligned: what the machine does for a word whose source or
destination is not aligned makes no difference to the copy. -/
theorem C74_memcpy_aligned {w1 w2 : Nat → Nat → (Nat → Nat) → (Nat → Nat)}
    (hw : ∀ d s, d % 4 = 0 → s % 4 = 0 → w1 d s = w2 d s) (d s n : Nat) (mem : Nat → Nat) :
    memcpyBy w1 d s n mem = memcpyBy w2 d s n mem := by
  unfold memcpyBy
  split
  · rename_i h
    dsimp only
    by_cases hk : (n - head d n) / 4 = 0
    · rw [hk]; rfl
    · rw [words_aligned hw ((n - head d n) / 4) (d + head d n) (s + head d n) (copyBytes (head d n) d s mem)
        (by unfold head at *; omega) (by unfold head at *; omega)]
  · rfl

/-- A machine on which a word that is not aligned destroys what it is written to: the copy does not notice. -/
example (d s n : Nat) (mem : Nat → Nat) :
    memcpyBy (fun d s m => if d % 4 = 0 ∧ s % 4 = 0 then copyWord d s m else fun _ => 0) d s n mem = memcpy d s n mem :=
  C74_memcpy_aligned (by
    intro d s h1 h2
    funext m
    rw [if_pos ⟨h1, h2⟩]) d s n mem

/-! ## The replacement does what realloc should -/

/-- The size of what the application owns is what it asked for. -/
theorem C74_chunk {rz es s rs} (h : Run rz es s rs) (h8 : 8 ≤ rz) (hr : rz ≤ 0x10000000) (p : Nat) :
    chunkSize s.tab p = (s.own p).map Blk.size := by
  obtain ⟨role, i⟩ := inv_run h h8 hr
  unfold chunkSize
  cases hb : s.own p with
  | none => rw [i.tab_none p hb]; rfl
  | some b =>
    obtain ⟨e, g1, g2⟩ := i.facts hb
    rw [g1]
    dsimp only
    rw [if_pos g2.valid, g2.stop, Nat.add_sub_cancel_left]
    rfl

/-- realloc of what the application owns, to a size that is not 0, when malloc has given it `q`: it returns
`q`, the bytes that there were are in it as far as they fit, no byte elsewhere is changed, and the old
block is freed. -/
theorem C74_realloc {rz es s rs} (h : Run rz es s rs) (h8 : 8 ≤ rz) (hr : rz ≤ 0x10000000) {p q b c n}
    (hb : s.own p = some b) (hc : s.own q = some c) (hne : p ≠ q) (hn : 0 < n) (hcs : c.size = n) (mem : Nat → Nat) :
    (realloc (chunkSize s.tab p) p n q mem).ret = q ∧
    (realloc (chunkSize s.tab p) p n q mem).freed = some p ∧
    (∀ j, j < n → j < b.size → (realloc (chunkSize s.tab p) p n q mem).mem (q + j) = mem (p + j)) ∧
    (∀ a, (a < q ∨ q + n ≤ a) → (realloc (chunkSize s.tab p) p n q mem).mem a = mem a) := by
  obtain ⟨role, i⟩ := inv_run h h8 hr
  have hq0 := i.nonzero hc
  have hp0 := i.nonzero hb
  have hch : chunkSize s.tab p = some b.size := by rw [C74_chunk h h8 hr, hb]; rfl
  have ha := C74_apart h h8 hr hb hc hne
  have hlo : ∀ x d, lo rz x d ≤ x := by intro x d; unfold lo; split <;> omega
  have hhi : ∀ x (d : Blk), x + d.size ≤ hi rz x d := by intro x d; unfold hi; split <;> omega
  have := hlo p b
  have := hlo q c
  have := hhi p b
  have := hhi q c
  rw [hch]
  have heq : realloc (some b.size) p n q mem =
      ⟨memcpy q p (if n ≤ b.size then n else b.size) mem, q, some p⟩ := by
    unfold realloc
    rw [if_neg (by simp), if_pos (Or.inl hn), if_neg hq0, if_pos hp0]
    rfl
  rw [heq]
  have hcopy := C74_memcpy q p (if n ≤ b.size then n else b.size) mem (by unfold Off; split <;> omega)
  refine ⟨rfl, rfl, ?_, ?_⟩
  · intro j h1 h2
    exact hcopy.1 j (by split <;> omega)
  · intro a ha
    exact hcopy.2 a (by split <;> omega)

/-- If malloc fails, or the pointer is not one, NULL is returned and nothing is freed or changed; of
size 0, the block is freed and NULL returned; of NULL, it is malloc. -/
theorem C74_realloc_else (old : Option Nat) (p n q : Nat) (mem : Nat → Nat) :
    (p ≠ 0 → old = none → realloc old p n q mem = ⟨mem, 0, none⟩) ∧
    (q = 0 → (n > 0 ∨ p = 0) → realloc old p n q mem = ⟨mem, 0, none⟩) ∧
    (p ≠ 0 → old ≠ none → n = 0 → realloc old p n q mem = ⟨mem, 0, some p⟩) ∧
    (p = 0 → q ≠ 0 → realloc old p n q mem = ⟨mem, q, some 0⟩) := by
  refine ⟨?_, ?_, ?_, ?_⟩
  · intro h1 h2; unfold realloc; rw [if_pos ⟨h1, h2⟩]
  · intro h1 h2
    unfold realloc
    by_cases h : p ≠ 0 ∧ old = none
    · rw [if_pos h]
    · rw [if_neg h, if_pos h2, if_pos h1]
  · intro h1 h2 h3
    unfold realloc
    rw [if_neg (fun h => h2 h.2), if_neg (by omega)]
  · intro h1 h2
    unfold realloc
    rw [if_neg (by omega), if_pos (Or.inr h1), if_neg h2, if_neg (by omega), h1]

/-- An example of a copy of 11 bytes from 0x2011 to 0x1015, which has a head, words and a tail. -/
example : (head 0x1015 11, (11 - head 0x1015 11) / 4, (11 - head 0x1015 11) % 4) = (3, 2, 0) ∧
    (List.range 13).map (fun j => memcpy 0x1015 0x2011 11 (fun a => a % 256) (0x1014 + j)) =
      [0x14, 0x11, 0x12, 0x13, 0x14, 0x15, 0x16, 0x17, 0x18, 0x19, 0x1a, 0x1b, 0x20] := by decide +kernel

/-- In the run of the example, the two blocks that are owned. -/
example : (realloc (chunkSize (exRun.foldl (fun s e => (step 16 s e).1) St.init).tab 0x9000) 0x9000 15 0x2010
      (fun a => a % 256)).ret = 0x2010 ∧
    (realloc (chunkSize (exRun.foldl (fun s e => (step 16 s e).1) St.init).tab 0x9000) 0x9000 15 0x2010
      (fun a => a % 256)).mem 0x201e = 14 := by decide +kernel

end Verif.Wrap
