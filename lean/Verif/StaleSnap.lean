import Verif.Stale

/-!
# C69: the compressed records of a snapshot can be read back
-/

namespace Verif.Stale

/-- What is read back from entry `i`. -/
def entry (s : Snap) (i : Nat) : Option (Nat × Nat × Nat) :=
  match getId s i, getBytes s i, getLast s i with
  | some a, some b, some c => some (a, b, c)
  | _, _, _ => none

/-- A small record reads as the given values. -/
def readsSmall (ext : List Ext) (m : Small) (v : Nat × Nat × Nat) : Prop :=
  m.last = v.2.2 ∧
  (if m.usesExt then ∃ x, ext[m.u]? = some x ∧ x.id = v.1 ∧ x.bytes = v.2.1
   else m.u % 2 ^ 19 = v.1 ∧ m.u / 2 ^ 19 = v.2.1)

theorem readsSmall_mono {ext : List Ext} {m : Small} {v} (y : List Ext) (h : readsSmall ext m v) :
    readsSmall (ext ++ y) m v := by
  refine ⟨h.1, ?_⟩
  have h2 := h.2
  split at h2
  next he =>
    rw [if_pos he]
    obtain ⟨x, hx, h3⟩ := h2
    refine ⟨x, ?_, h3⟩
    have hlt : m.u < ext.length := by
      rcases Nat.lt_or_ge m.u ext.length with h | h
      · exact h
      · rw [List.getElem?_eq_none h] at hx; exact absurd hx (by simp)
    rw [List.getElem?_append_left hlt]; exact hx
  next he => rw [if_neg he]; exact h2

/-- The values to be read back for a block. -/
def vals (b : Blk) : Nat × Nat × Nat := (b.cs % 2 ^ 32, b.size % 2 ^ 32, b.last)

/-- The invariant while the array is filled: `done` are the blocks stored so far. -/
structure Good (n : Nat) (large : Bool) (done : List Blk) (s : Snap) : Prop where
  lg : s.usesLarge = large
  num : s.num = n
  le : done.length ≤ n
  big : large = true → s.main = [] ∧ s.ext = [] ∧ s.extCap = 0 ∧
    s.lg = done.map (fun b => ⟨b.cs % 2 ^ 32, b.size % 2 ^ 32, b.last⟩)
  small : large = false → s.lg = [] ∧ List.Forall₂ (readsSmall s.ext) s.main (done.map vals) ∧
    s.ext.length ≤ done.length ∧ s.ext.length ≤ s.extCap ∧
    (s.extCap = 0 ∨ ∃ k, s.extCap = 512 * 2 ^ k) ∧ s.extCap ≤ max 512 (2 * done.length)
  held : s.held.Perm ((if s.extCap = 0 then [] else [s.extCap * extSz]) ++
    [n * (if large then largeSz else smallSz), snapSz])

theorem release_perm {n : Nat} {l m : List Nat} (h : l.Perm (n :: m)) :
    ∃ h', release n l = .ok h' ∧ h'.Perm m := by
  have hm : n ∈ l := h.mem_iff.2 (by simp)
  refine ⟨l.erase n, ?_, ?_⟩
  · unfold release; rw [if_pos hm]
  · have := h.erase n
    rwa [List.erase_cons_head] at this

theorem growExt_ok {n : Nat} {done : List Blk} {s : Snap} (h : Good n false done s)
    (hlt : done.length < n) (hn : n ≤ 2 ^ 31) :
    ∃ s', growExt s = .ok s' ∧ Good n false done s' ∧ s'.ext.length < s'.extCap ∧ s'.ext = s.ext ∧
      s'.main = s.main := by
  obtain ⟨hl, hf, he, hec, hk, hmax⟩ := h.small rfl
  unfold growExt
  by_cases hfull : s.ext.length ≥ s.extCap
  · rw [if_pos hfull]
    have heq : s.ext.length = s.extCap := by omega
    by_cases h0 : s.extCap = 0
    · rw [if_pos h0, if_pos h0]
      refine ⟨_, rfl, ⟨h.lg, h.num, h.le, by simp, fun _ => ⟨hl, hf, he, ?_, ?_, ?_⟩, ?_⟩, ?_, rfl, rfl⟩
      · show s.ext.length ≤ 512 % 2 ^ 32
        omega
      · exact Or.inr ⟨0, rfl⟩
      · show 512 % 2 ^ 32 ≤ _
        omega
      · have := h.held
        rw [if_pos h0] at this
        simpa using this
      · show s.ext.length < 512 % 2 ^ 32
        omega
    · rw [if_neg h0, if_neg h0]
      obtain ⟨k, hk⟩ := hk.resolve_left h0
      have hcap : (s.extCap * 2) % 2 ^ 32 = s.extCap * 2 := by omega
      rw [hcap]
      have hh := h.held
      rw [if_neg h0] at hh
      have hp : (s.extCap * 2 * extSz :: s.held).Perm (s.extCap * extSz ::
          (s.extCap * 2 * extSz :: [n * smallSz, snapSz])) := by
        refine (List.Perm.cons _ hh).trans ?_
        exact List.Perm.swap _ _ _
      obtain ⟨h', hr, hp'⟩ := release_perm hp
      rw [hr]
      refine ⟨_, rfl, ⟨h.lg, h.num, h.le, by simp, fun _ => ⟨hl, hf, he, ?_, ?_, ?_⟩, ?_⟩, ?_, rfl, rfl⟩
      · show s.ext.length ≤ s.extCap * 2
        omega
      · exact Or.inr ⟨k + 1, by show s.extCap * 2 = _; rw [hk, Nat.pow_succ]; omega⟩
      · show s.extCap * 2 ≤ _
        omega
      · have h2 : s.extCap * 2 ≠ 0 := by omega
        show h'.Perm ((if s.extCap * 2 = 0 then [] else [s.extCap * 2 * extSz]) ++ _)
        rw [if_neg h2]; exact hp'
      · show s.ext.length < s.extCap * 2
        omega
  · rw [if_neg hfull]
    exact ⟨s, rfl, h, by omega, rfl, rfl⟩

theorem forall2_append {α β} {R : α → β → Prop} {a c : List α} {b d : List β}
    (h : List.Forall₂ R a b) (h' : List.Forall₂ R c d) : List.Forall₂ R (a ++ c) (b ++ d) := by
  induction h with
  | nil => exact h'
  | cons h1 _ ih => exact List.Forall₂.cons h1 ih

theorem forall2_mono {α β} {R S : α → β → Prop} {a : List α} {b : List β}
    (h : List.Forall₂ R a b) (hi : ∀ x y, R x y → S x y) : List.Forall₂ S a b := by
  induction h with
  | nil => exact .nil
  | cons h1 _ ih => exact .cons (hi _ _ h1) ih

theorem forall2_length {α β} {R : α → β → Prop} {a : List α} {b : List β}
    (h : List.Forall₂ R a b) : a.length = b.length := by
  induction h with
  | nil => rfl
  | cons _ _ ih => simp [ih]

theorem addBlk_ok {n cur : Nat} {done : List Blk} {s : Snap} {b : Blk}
    (h : Good n (decide (maxStamp < cur)) done s) (hlt : done.length < n) (hn : n ≤ 2 ^ 31)
    (hb : b.last ≤ cur) (hcur : cur < 2 ^ 64) :
    ∃ s', addBlk s b = .ok s' ∧ Good n (decide (maxStamp < cur)) (done ++ [b]) s' := by
  unfold addBlk
  dsimp only
  cases hL : decide (maxStamp < cur) with
  | true =>
    rw [hL] at h
    obtain ⟨h1, h2, h3, h4⟩ := h.big rfl
    rw [if_pos h.lg]
    have hlen : s.lg.length = done.length := by rw [h4]; simp
    rw [if_neg (by rw [h.num, hlen]; omega)]
    have hm : b.last % 2 ^ 64 = b.last := Nat.mod_eq_of_lt (by omega)
    refine ⟨_, rfl, ⟨h.lg, h.num, by simp; omega, fun _ => ⟨h1, h2, h3, ?_⟩, by simp, h.held⟩⟩
    show s.lg ++ _ = _
    rw [h4, hm]; simp
  | false =>
    rw [hL] at h
    have hc : cur ≤ maxStamp := by
      have := of_decide_eq_false hL; omega
    have hms : maxStamp = 2147483647 := by decide
    have hl31 : b.last % 2 ^ 31 = b.last := Nat.mod_eq_of_lt (by omega)
    obtain ⟨h1, h2, h3, h4, h5, h6⟩ := h.small rfl
    rw [if_neg (by rw [h.lg]; decide)]
    have hlen : s.main.length = done.length := by rw [forall2_length h2]; simp
    rw [if_neg (by rw [h.num, hlen]; omega)]
    by_cases hsm : b.cs % 2 ^ 32 ≤ maxId ∧ b.size % 2 ^ 32 ≤ maxSz
    · rw [if_pos hsm]
      have hid : maxId = 524287 := by decide
      have hsz : maxSz = 8191 := by decide
      refine ⟨_, rfl, ⟨h.lg, h.num, by simp; omega, by simp, fun _ => ⟨h1, ?_, by simp; omega, h4, h5,
        by simp only [List.length_append, List.length_cons, List.length_nil]; omega⟩, h.held⟩⟩
      rw [List.map_append]
      refine forall2_append h2 (.cons ⟨hl31, ?_⟩ .nil)
      rw [if_neg Bool.false_ne_true]
      show (b.cs % 2 ^ 32 % 2 ^ 19 + b.size % 2 ^ 32 % 2 ^ 13 * 2 ^ 19) % 2 ^ 19 = b.cs % 2 ^ 32 ∧
        (b.cs % 2 ^ 32 % 2 ^ 19 + b.size % 2 ^ 32 % 2 ^ 13 * 2 ^ 19) / 2 ^ 19 = b.size % 2 ^ 32
      omega
    · rw [if_neg hsm]
      obtain ⟨s', hg, hG, hlt', hext, hmain⟩ := growExt_ok h hlt hn
      rw [hg]
      dsimp only
      rw [if_neg (by omega)]
      obtain ⟨g1, g2, g3, g4, g5, g6⟩ := hG.small rfl
      clear h5 g5
      refine ⟨_, rfl, ⟨hG.lg, hG.num, by simp; omega, by simp, fun _ => ⟨g1, ?_, ?_, ?_, hG.small rfl |>.2.2.2.2.1,
        by simp only [List.length_append, List.length_cons, List.length_nil]; omega⟩, hG.held⟩⟩
      · rw [List.map_append]
        refine forall2_append (forall2_mono g2 fun x y hxy => readsSmall_mono _ hxy) (.cons ⟨hl31, ?_⟩ .nil)
        rw [if_pos rfl]
        refine ⟨⟨b.cs % 2 ^ 32, b.size % 2 ^ 32⟩, ?_, rfl, rfl⟩
        have hu : s'.ext.length % 2 ^ 32 = s'.ext.length := Nat.mod_eq_of_lt (by omega)
        show (s'.ext ++ _)[s'.ext.length % 2 ^ 32]? = _
        rw [hu]; simp
      · simp; omega
      · simp; omega

theorem addAll_ok {n cur : Nat} (hn : n ≤ 2 ^ 31) (hcur : cur < 2 ^ 64) :
    ∀ (l done : List Blk) (s : Snap), Good n (decide (maxStamp < cur)) done s →
      done.length + l.length ≤ n → (∀ b ∈ l, b.last ≤ cur) →
      ∃ s', addAll s l = .ok s' ∧ Good n (decide (maxStamp < cur)) (done ++ l) s' := by
  intro l
  induction l with
  | nil => intro done s h _ _; exact ⟨s, rfl, by simpa using h⟩
  | cons b l ih =>
    intro done s h hlen hl
    simp only [List.length_cons] at hlen
    obtain ⟨s', h1, h2⟩ := addBlk_ok (b := b) h (by omega) hn (hl b (by simp)) hcur
    obtain ⟨s'', h3, h4⟩ := ih (done ++ [b]) s' h2 (by simp; omega) fun x hx => hl x (by simp [hx])
    refine ⟨s'', ?_, by simpa using h4⟩
    rw [addAll, h1]; exact h3

theorem emptySnap_good {n cur : Nat} (hn : n ≠ 0) :
    Good n (decide (maxStamp < cur)) [] (emptySnap n cur) := by
  refine ⟨rfl, rfl, Nat.zero_le _, fun _ => ⟨rfl, rfl, rfl, rfl⟩,
    fun _ => ⟨rfl, .nil, Nat.le_refl _, Nat.zero_le _, Or.inl rfl, Nat.zero_le _⟩, ?_⟩
  show (if n = 0 then _ else _ : List Nat).Perm _
  rw [if_neg hn]
  exact List.Perm.refl _

theorem good_entry {n : Nat} {large : Bool} {l : List Blk} {s : Snap} (h : Good n large l s) (i : Nat) :
    entry s i = (l[i]?).map vals := by
  cases large with
  | true =>
    obtain ⟨_, _, _, h4⟩ := h.big rfl
    unfold entry getId getBytes getLast
    rw [if_pos h.lg, if_pos h.lg, if_pos h.lg, h4, List.getElem?_map]
    cases l[i]? with
    | none => rfl
    | some b => rfl
  | false =>
    obtain ⟨_, h2, _, _, _, _⟩ := h.small rfl
    have hnl : ¬ (s.usesLarge = true) := by rw [h.lg]; decide
    unfold entry getId getBytes getLast
    rw [if_neg hnl, if_neg hnl, if_neg hnl]
    clear h hnl
    have key : ∀ (m : List Small) (l : List Blk) (i : Nat),
        List.Forall₂ (readsSmall s.ext) m (l.map vals) →
        (m[i]? = none ∧ l[i]? = none) ∨ ∃ x b, m[i]? = some x ∧ l[i]? = some b ∧ readsSmall s.ext x (vals b) := by
      intro m
      induction m with
      | nil =>
        intro l i hf
        cases l with
        | nil => left; simp
        | cons b l => cases hf
      | cons x m ih =>
        intro l i hf
        cases l with
        | nil => cases hf
        | cons b l =>
          cases hf with
          | cons h1 h2 =>
            cases i with
            | zero => right; exact ⟨x, b, rfl, rfl, h1⟩
            | succ i => simpa using ih l i h2
    rcases key s.main l i h2 with ⟨hm, hl⟩ | ⟨x, b, hm, hl, hr⟩
    · rw [hm, hl]; rfl
    · rw [hm, hl]
      obtain ⟨r1, r2⟩ := hr
      simp only [Option.map_some]
      split at r2
      next he =>
        obtain ⟨y, hy, hid, hby⟩ := r2
        rw [if_pos he, if_pos he, hy]
        simp only [Option.map_some]
        rw [hid, hby, r1]
      next he =>
        rw [if_neg he, if_neg he]
        simp only
        rw [r2.1, r2.2, r1]

theorem good_free {n : Nat} {large : Bool} {l : List Blk} {s : Snap} (h : Good n large l s) (hn : n ≠ 0) :
    freeSnapshot s = .ok [] := by
  unfold freeSnapshot
  dsimp only
  rw [if_pos (by rw [h.num]; omega)]
  have hp := h.held
  have last : ∀ h' : List Nat, h'.Perm [snapSz] → release snapSz h' = .ok [] := by
    intro h' hh
    obtain ⟨r, h1, h2⟩ := release_perm hh
    rw [h1, h2.eq_nil]
  cases large with
  | true =>
    rw [if_pos h.lg, h.num]
    obtain ⟨_, _, h3, _⟩ := h.big rfl
    rw [if_pos h3] at hp
    obtain ⟨r, h1, h2⟩ := release_perm (n := n * largeSz) (m := [snapSz]) (by simpa using hp)
    rw [h1]; exact last r h2
  | false =>
    rw [if_neg (by rw [h.lg]; decide), h.num]
    by_cases h0 : s.extCap = 0
    · rw [if_pos h0] at hp
      obtain ⟨r, h1, h2⟩ := release_perm (n := n * smallSz) (m := [snapSz]) (by simpa using hp)
      rw [h1]
      dsimp only
      rw [if_neg (by simpa using h0)]
      exact last r h2
    · rw [if_neg h0] at hp
      obtain ⟨r, h1, h2⟩ := release_perm (n := n * smallSz) (m := [s.extCap * extSz, snapSz])
        (hp.trans (List.Perm.swap _ _ _))
      rw [h1]
      dsimp only
      rw [if_pos h0]
      obtain ⟨r', h3, h4⟩ := release_perm h2
      rw [h3]
      exact last r' h4

/-- **C69, the records**: of up to 2^31 live blocks, each stamped no later than now, a snapshot holds
one record each, in order, from which the call stack, the size (as 32-bit numbers) and the time are
read back exactly, and no other; freeing the snapshot gives back all its memory with the sizes it was
asked with. -/
theorem C69_records (blks : List Blk) (cur : Nat) (hlen : blks.length ≤ 2 ^ 31) (hcur : cur < 2 ^ 64)
    (hlast : ∀ b ∈ blks, b.last ≤ cur) :
    ∃ s, takeSnapshot blks.length cur blks = .ok s ∧ s.num = blks.length ∧
      (∀ i, entry s i = (blks[i]?).map fun b => (b.cs % 2 ^ 32, b.size % 2 ^ 32, b.last)) ∧
      freeSnapshot s = .ok [] := by
  unfold takeSnapshot
  by_cases h0 : blks.length = 0
  · rw [if_pos h0]
    have hnil : blks = [] := List.eq_nil_of_length_eq_zero h0
    subst hnil
    refine ⟨emptySnap 0 cur, rfl, rfl, fun i => ?_, rfl⟩
    unfold entry getId getBytes getLast emptySnap
    by_cases hL : decide (maxStamp < cur) = true
    · simp [hL]
    · simp [hL]
  · rw [if_neg h0]
    obtain ⟨s, h1, h2⟩ := addAll_ok hlen hcur blks [] _ (emptySnap_good (cur := cur) h0) (by simp) hlast
    rw [List.nil_append] at h2
    rw [h1]
    dsimp only
    have hnum : s.main.length + s.lg.length = blks.length := by
      cases hL : decide (maxStamp < cur) with
      | true =>
        rw [hL] at h2
        obtain ⟨a, _, _, b⟩ := h2.big rfl
        rw [a, b]; simp
      | false =>
        rw [hL] at h2
        obtain ⟨a, b, _⟩ := h2.small rfl
        rw [a, forall2_length b]; simp
    rw [if_pos hnum]
    exact ⟨s, rfl, h2.num, good_entry h2, good_free h2 h0⟩

/-- Blocks with a size and a call stack that need the extension array, and one that does not. -/
example : ∃ s, takeSnapshot 3 7 [⟨16, 24, 5, 3⟩, ⟨64, 8192, 5, 7⟩, ⟨16384, 8, 524288, 0⟩] = .ok s ∧
    s.ext = [⟨5, 8192⟩, ⟨524288, 8⟩] ∧ entry s 2 = some (524288, 8, 0) ∧ freeSnapshot s = .ok [] := by
  refine ⟨⟨false, 3, [⟨false, 3, 5 + 24 * 2 ^ 19⟩, ⟨true, 7, 0⟩, ⟨true, 0, 1⟩], [⟨5, 8192⟩, ⟨524288, 8⟩], 512,
    [], [4096, 24, 40]⟩, ?_, rfl, ?_, ?_⟩ <;> decide +kernel

end Verif.Stale
