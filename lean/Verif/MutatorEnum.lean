import Verif.Mutator

/-!
# The enumeration of bit sets behind the ordered mutator

`combos n k lo`: all increasing lists of `k` numbers from `lo` to `n - 1`, in lexicographic order
(part of the specification of C35 and C37).  The lemmas show that bitflip_increment walks it.
-/
namespace Verif.Mut

/-- Spec: all increasing lists of `k` numbers `x` with `lo ≤ x < n`, in lexicographic order. -/
def combos (n : Nat) : Nat → Nat → List (List Nat)
  | 0, _ => [[]]
  | k + 1, lo =>
    (List.range' lo (n - k - lo)).flatMap fun x => (combos n k (x + 1)).map (x :: ·)

/-- Increasing lists of numbers from `lo` to `n - 1`. -/
def Incr (n lo : Nat) (l : List Nat) : Prop := l.Pairwise (· < ·) ∧ ∀ x ∈ l, lo ≤ x ∧ x < n

theorem Incr.tail {n lo x : Nat} {l : List Nat} (h : Incr n lo (x :: l)) : Incr n (x + 1) l := by
  obtain ⟨h1, h2⟩ := h
  rw [List.pairwise_cons] at h1
  exact ⟨h1.2, fun y hy => ⟨h1.1 y hy, (h2 y (by simp [hy])).2⟩⟩

theorem Incr.cons {n lo x : Nat} {l : List Nat} (hx : lo ≤ x) (hn : x < n)
    (h : Incr n (x + 1) l) : Incr n lo (x :: l) := by
  refine ⟨List.pairwise_cons.2 ⟨fun y hy => (h.2 y hy).1, h.1⟩, fun y hy => ?_⟩
  rcases List.mem_cons.1 hy with rfl | hy
  · exact ⟨hx, hn⟩
  · have := h.2 y hy; omega

theorem Incr.bound {n lo : Nat} {l : List Nat} (h : Incr n lo l) (hl : l ≠ []) :
    lo + l.length ≤ n := by
  induction l generalizing lo with
  | nil => exact absurd rfl hl
  | cons x l ih =>
    have hx := h.2 x (by simp)
    by_cases hl' : l = []
    · subst hl'; simp; omega
    · have := ih h.tail hl'
      simp only [List.length_cons]; omega

theorem mem_combos {n k lo : Nat} {l : List Nat} :
    l ∈ combos n k lo ↔ l.length = k ∧ Incr n lo l := by
  induction k generalizing lo l with
  | zero =>
    simp only [combos, List.mem_singleton, List.length_eq_zero_iff]
    constructor
    · rintro rfl; exact ⟨rfl, by simp [Incr]⟩
    · exact fun h => h.1
  | succ k ih =>
    simp only [combos, List.mem_flatMap, List.mem_range'_1, List.mem_map]
    constructor
    · rintro ⟨x, hx, l', hl', rfl⟩
      obtain ⟨h1, h2⟩ := ih.1 hl'
      exact ⟨by simp [h1], Incr.cons hx.1 (by omega) h2⟩
    · rintro ⟨h1, h2⟩
      cases l with
      | nil => simp at h1
      | cons x l =>
        have hx := h2.2 x (by simp)
        have hb := h2.bound (by simp)
        have hb' : x + l.length + 1 ≤ n := by
          by_cases hl : l = []
          · subst hl; simp; omega
          · have := h2.tail.bound hl; omega
        simp only [List.length_cons, Nat.add_right_cancel_iff] at h1 hb
        exact ⟨x, by omega, l, ih.2 ⟨h1, h2.tail⟩, rfl⟩

theorem combos_nodup (n k lo : Nat) : (combos n k lo).Nodup := by
  induction k generalizing lo with
  | zero => simp [combos]
  | succ k ih =>
    simp only [combos]
    rw [List.nodup_iff_pairwise_ne, List.pairwise_flatMap]
    refine ⟨fun x _ => ?_, ?_⟩
    · rw [List.pairwise_map]
      exact (ih (x + 1)).imp (fun h e => h (List.cons.inj e).2)
    · refine (List.nodup_range' (s := lo) (n := n - k - lo)).imp ?_
      intro x y hxy a ha b hb e
      obtain ⟨a', _, rfl⟩ := List.mem_map.1 ha
      obtain ⟨b', _, rfl⟩ := List.mem_map.1 hb
      exact hxy (List.cons.inj e).1

/-- The lexicographic successor. -/
def nextR (n : Nat) : List Nat → Option (List Nat)
  | [] => none
  | x :: xs =>
    match nextR n xs with
    | some ys => some (x :: ys)
    | none => if x + xs.length + 1 < n then some (List.range' (x + 1) (xs.length + 1)) else none

/-- `L` starts with `first` and each element is followed by its successor. -/
def Enum (n : Nat) (L : List (List Nat)) (first : Option (List Nat)) : Prop :=
  L[0]? = first ∧ ∀ i l, L[i]? = some l → nextR n l = L[i + 1]?

theorem enum_combos (n k lo : Nat) :
    Enum n (combos n k lo) (if lo + k ≤ n ∨ k = 0 then some (List.range' lo k) else none) := by
  induction k generalizing lo with
  | zero =>
    simp only [combos]
    refine ⟨by simp, ?_⟩
    intro i l h
    cases i with
    | zero => simp at h; subst h; rfl
    | succ i => simp at h
  | succ k ih =>
    simp only [combos]
    generalize hc : n - k - lo = c
    induction c generalizing lo with
    | zero =>
      simp only [List.range'_zero, List.flatMap_nil]
      refine ⟨by rw [if_neg (by omega)]; rfl, ?_⟩
      intro i l h; simp at h
    | succ c ihc =>
      rw [List.range'_succ, List.flatMap_cons]
      have e : (lo + 1) = lo + 1 := rfl
      obtain ⟨r1, r2⟩ := ihc (lo + 1) (by omega)
      generalize hR : List.flatMap (fun x => List.map (fun x_1 => x :: x_1) (combos n k (x + 1)))
        (List.range' (lo + 1) c) = R at *
      obtain ⟨h1, h2⟩ := ih (lo + 1)
      rw [if_pos (by omega)] at h1
      generalize hL : combos n k (lo + 1) = L at *
      have hlen : ∀ l ∈ L, l.length = k := fun l hl => by
        rw [← hL] at hl; exact (mem_combos.1 hl).1
      have hpos : 0 < L.length := (List.getElem?_eq_some_iff.1 h1).1
      refine ⟨?_, ?_⟩
      · rw [if_pos (by omega), List.getElem?_append_left (by simpa using hpos), List.getElem?_map,
          h1, Option.map_some, List.range'_succ]
      · intro i l hl
        rcases Nat.lt_or_ge i L.length with hi | hi
        · rw [List.getElem?_append_left (by simpa using hi), List.getElem?_map] at hl
          obtain ⟨l', hl', rfl⟩ : ∃ l', L[i]? = some l' ∧ lo :: l' = l := by
            cases hli : L[i]? with
            | none => simp [hli] at hl
            | some l' => exact ⟨l', rfl, by simpa [hli] using hl⟩
          have hn := h2 i l' hl'
          simp only [nextR, hn]
          rcases Nat.lt_or_ge (i + 1) L.length with hi1 | hi1
          · rw [List.getElem?_append_left (by simpa using hi1), List.getElem?_map,
              List.getElem?_eq_getElem hi1]
            rfl
          · have e1 : L[i + 1]? = none := List.getElem?_eq_none hi1
            rw [e1]
            simp only []
            have hl'k := hlen l' (List.mem_of_getElem? hl')
            rw [List.getElem?_append_right (by simp; omega)]
            rw [show i + 1 - (List.map (fun x => lo :: x) L).length = 0 by simp; omega, r1, hl'k]
            by_cases hh : lo + k + 1 < n
            · rw [if_pos hh, if_pos (by omega)]
            · rw [if_neg hh, if_neg (by omega)]
        · rw [List.getElem?_append_right (by simpa using hi)] at hl
          rw [List.getElem?_append_right (by simp; omega), r2 _ _ hl]
          congr 1; simp; omega

/-! ## The increment -/

theorem nextR_max (n : Nat) : ∀ m, m ≤ n → nextR n (List.range' (n - m) m) = none := by
  intro m
  induction m with
  | zero => intro _; rfl
  | succ m ih =>
    intro h
    rw [List.range'_succ, nextR, show n - (m + 1) + 1 = n - m by omega, ih (by omega)]
    simp only [List.length_range']
    rw [if_neg (by omega)]

theorem nextR_char (n : Nat) (p : List Nat) (x m : Nat) (h : x + m + 1 < n) :
    nextR n (p ++ x :: List.range' (n - m) m) = some (p ++ List.range' (x + 1) (m + 1)) := by
  induction p with
  | nil =>
    simp only [List.nil_append, nextR, nextR_max n m (by omega), List.length_range']
    rw [if_pos h]
  | cons y p ih => simp only [List.cons_append, nextR, ih]

theorem nextR_last (n : Nat) (p : List Nat) (x : Nat) (h : x + 1 < n) :
    nextR n (p ++ [x]) = some (p ++ [x + 1]) := by
  have := nextR_char n p x 0 (by omega)
  simpa using this

theorem startInner_eq (k : Nat) (q : List Nat) : ∀ (p : List Nat) (y : Nat),
    p.length + 1 + q.length = k →
    startInner k (p ++ y :: q) (p.length + 1) = p ++ List.range' y (q.length + 1) := by
  induction q with
  | nil =>
    intro p y h
    simp only [startInner, List.length_nil] at h ⊢
    rw [show k - (p.length + 1) = 0 by omega]
    simp
  | cons z q ih =>
    intro p y h
    simp only [List.length_cons] at h
    have hs : startInner k (p ++ y :: z :: q) (p.length + 1) =
        startInner k ((p ++ [y]) ++ (y + 1) :: q) ((p ++ [y]).length + 1) := by
      unfold startInner
      rw [show k - (p.length + 1) = (k - (p.length + 1 + 1)) + 1 by omega, List.range'_succ,
        List.foldl_cons]
      congr 1
      · simp only [List.getD_eq_getElem?_getD, Nat.add_sub_cancel]
        rw [List.getElem?_append_right (by omega)]
        simp only [Nat.sub_self, List.getElem?_cons_zero, Option.getD_some]
        rw [List.set_append_right _ _ (by omega)]
        simp [show p.length + 1 - p.length = 1 by omega]
      · simp
    rw [hs, ih (p ++ [y]) (y + 1) (by simp; omega)]
    rw [List.append_assoc, List.singleton_append]
    conv => rhs; rw [List.range'_succ]
    simp

theorem findMove_eq (n k : Nat) (p : List Nat) (m : Nat) (hk : p.length + m = k) (hkn : k ≤ n)
    (hinc : Incr n 0 (p ++ List.range' (n - m) m)) :
    findMove n k (p ++ List.range' (n - m) m) p.length = nextR n (p ++ List.range' (n - m) m) := by
  induction hp : p.length generalizing p m with
  | zero =>
    have : p = [] := List.length_eq_zero_iff.1 hp
    subst this
    simp only [findMove, List.nil_append]
    rw [nextR_max n m (by simp at hk; omega)]
  | succ c ih =>
    obtain ⟨p', x, rfl⟩ : ∃ p' x, p = p' ++ [x] := by
      have hne : p ≠ [] := by intro h; simp [h] at hp
      exact ⟨p.dropLast, p.getLast hne, (List.dropLast_concat_getLast hne).symm⟩
    have hp' : p'.length = c := by simpa using hp
    have hxm : x + m + 1 ≤ n := by
      have h1 : Incr n x (x :: List.range' (n - m) m) := by
        obtain ⟨a, b⟩ := hinc
        rw [List.append_assoc, List.singleton_append] at a b
        have := (List.pairwise_append.1 a).2.1
        refine ⟨this, fun y hy => ?_⟩
        refine ⟨?_, (b y (by simp only [List.mem_append]; exact Or.inr hy)).2⟩
        rcases List.mem_cons.1 hy with rfl | hy
        · omega
        · exact Nat.le_of_lt ((List.pairwise_cons.1 this).1 y hy)
      have := h1.bound (by simp)
      simp at this; omega
    simp only [List.append_assoc, List.singleton_append, List.length_append, List.length_singleton]
      at hk ⊢
    simp only [findMove]
    have hg : (p' ++ x :: List.range' (n - m) m).getD c 0 = x := by
      simp [List.getD_eq_getElem?_getD, ← hp']
    rw [hg]
    by_cases hlt : x < n - (k - c)
    · rw [if_pos hlt]
      have hset : (p' ++ x :: List.range' (n - m) m).set c (x + 1) =
          p' ++ (x + 1) :: List.range' (n - m) m := by
        rw [List.set_append_right _ _ (by omega), hp', Nat.sub_self]; rfl
      rw [hset, ← hp', startInner_eq k _ p' (x + 1) (by simp; omega), nextR_char n p' x m (by omega)]
      simp
    · rw [if_neg hlt]
      have hx : x = n - (m + 1) := by omega
      have hr : x :: List.range' (n - m) m = List.range' (n - (m + 1)) (m + 1) := by
        rw [List.range'_succ, ← hx]; congr 2; omega
      rw [hr]
      refine ih p' (m + 1) (by omega) ?_ hp'
      rw [← hr]
      simpa using hinc

/-- Moving the innermost index. -/
theorem inner_steps {n : Nat} {L : List (List Nat)} (hE : ∀ i l, L[i]? = some l → nextR n l = L[i + 1]?)
    {i : Nat} {p : List Nat} {x : Nat} (h : L[i]? = some (p ++ [x])) :
    ∀ j, x + j < n → L[i + j]? = some (p ++ [x + j]) := by
  intro j
  induction j with
  | zero => intro _; exact h
  | succ j ih =>
    intro hj
    have := hE _ _ (ih (by omega))
    rw [nextR_last n p (x + j) (by omega)] at this
    exact this.symm

/-- The loop of bitflip_increment moves `skip` places further, but not past the end. -/
theorem incLoop_eq {n k : Nat} (hk : 0 < k) (hkn : k ≤ n) :
    ∀ (fuel skip i : Nat) (l : List Nat), skip < fuel → n + skip ≤ 2 ^ 32 →
      (combos n k 0)[i]? = some l →
      ∃ l', incLoop n k fuel skip l = .ok l' ∧
        (combos n k 0)[min (i + skip) ((combos n k 0).length - 1)]? = some l' := by
  have hE := (enum_combos n k 0).2
  have hlen : ∀ i l, (combos n k 0)[i]? = some l → l.length = k ∧ Incr n 0 l :=
    fun i l h => mem_combos.1 (List.mem_of_getElem? h)
  generalize combos n k 0 = L at *
  intro fuel
  induction fuel with
  | zero => intro skip i l h; omega
  | succ fuel ih =>
    intro skip i l hf hw hl
    obtain ⟨hlk, hinc⟩ := hlen i l hl
    have hil : i < L.length := (List.getElem?_eq_some_iff.1 hl).1
    obtain ⟨p, x, rfl⟩ : ∃ p x, l = p ++ [x] := by
      have hne : l ≠ [] := by intro h; simp [h] at hlk; omega
      exact ⟨l.dropLast, l.getLast hne, (List.dropLast_concat_getLast hne).symm⟩
    have hp : p.length = k - 1 := by simp at hlk; omega
    have hx : x < n := (hinc.2 x (by simp)).2
    have hg : (p ++ [x]).getD (k - 1) 0 = x := by
      simp [List.getD_eq_getElem?_getD, ← hp]
    have hset : ∀ y, (p ++ [x]).set (k - 1) y = p ++ [y] := by
      intro y
      rw [List.set_append_right _ _ (by omega), hp, Nat.sub_self]; rfl
    simp only [incLoop, hg, hset]
    rw [Nat.mod_eq_of_lt (show x + skip < 2 ^ 32 by omega)]
    by_cases hc : x + skip < n
    · rw [if_pos hc]
      have := inner_steps hE hl skip hc
      have hb := (List.getElem?_eq_some_iff.1 this).1
      refine ⟨_, rfl, ?_⟩
      rw [Nat.min_eq_left (by omega)]
      exact this
    · rw [if_neg hc]
      have hsk : (skip + 2 ^ 32 - (n - x)) % 2 ^ 32 = skip - (n - x) := by
        rw [show skip + 2 ^ 32 - (n - x) = (skip - (n - x)) + 2 ^ 32 by omega, Nat.add_mod_right]
        exact Nat.mod_eq_of_lt (by omega)
      rw [hsk]
      have hend := inner_steps hE hl (n - 1 - x) (by omega)
      rw [show x + (n - 1 - x) = n - 1 by omega] at hend
      have hend2 := hE _ _ hend
      rw [show i + (n - 1 - x) + 1 = i + (n - x) by omega] at hend2
      have hfm := findMove_eq n k p 1 (by omega) hkn
        (by have := (hlen _ _ hend).2; simpa using this)
      simp only [List.range'_one] at hfm
      rw [hp] at hfm
      rw [hfm, hend2]
      have hlt := (List.getElem?_eq_some_iff.1 hend).1
      rcases Nat.lt_or_ge (i + (n - x)) L.length with h1 | h1
      · rw [List.getElem?_eq_getElem h1]
        obtain ⟨l', h2, h3⟩ := ih (skip - (n - x)) (i + (n - x)) _ (by omega) (by omega)
          (List.getElem?_eq_getElem h1)
        refine ⟨l', h2, ?_⟩
        rw [← h3]; congr 2; omega
      · rw [List.getElem?_eq_none h1]
        obtain ⟨l', h2, h3⟩ := ih (skip - (n - x)) _ _ (by omega) (by omega) hend
        refine ⟨l', h2, ?_⟩
        rw [← h3]; congr 1; omega

/-- The test for the last element of a row. -/
theorem last_iff {n k i : Nat} (hk : 0 < k) (hkn : k ≤ n) {l : List Nat}
    (hl : (combos n k 0)[i]? = some l) :
    l.getD 0 0 = n - k ↔ i + 1 = (combos n k 0).length := by
  have hE := (enum_combos n k 0).2 _ _ hl
  obtain ⟨hlk, hinc⟩ := mem_combos.1 (List.mem_of_getElem? hl)
  have hil : i < (combos n k 0).length := (List.getElem?_eq_some_iff.1 hl).1
  cases l with
  | nil => simp at hlk; omega
  | cons x xs =>
    simp only [List.getD_cons_zero]
    simp only [List.length_cons] at hlk
    have hmax : ∀ (m lo : Nat) (ys : List Nat), ys.length = m → n ≤ lo + m → Incr n lo ys →
        ys = List.range' lo m := by
      intro m
      induction m with
      | zero => intro lo ys h _ _; exact List.length_eq_zero_iff.1 h
      | succ m ih =>
        intro lo ys h hn hi
        cases ys with
        | nil => simp at h
        | cons y ys =>
          have hy := hi.2 y (by simp)
          simp only [List.length_cons, Nat.add_right_cancel_iff] at h
          have hy2 : y = lo := by
            by_cases hys : ys = []
            · subst hys; simp at h; omega
            · have := hi.tail.bound hys; omega
          subst hy2
          rw [List.range'_succ, ih (y + 1) ys h (by omega) hi.tail]
    constructor
    · intro hx
      have : x :: xs = List.range' x k := hmax k x (x :: xs) (by simp [hlk]) (by omega)
        ⟨hinc.1, fun y hy => ⟨by
          rcases List.mem_cons.1 hy with rfl | hy
          · omega
          · exact Nat.le_of_lt ((List.pairwise_cons.1 hinc.1).1 y hy), (hinc.2 y hy).2⟩⟩
      rw [this, hx, nextR_max n k hkn] at hE
      have := List.getElem?_eq_none_iff.1 hE.symm
      omega
    · intro hi
      rw [hi, List.getElem?_eq_none (Nat.le_refl _)] at hE
      simp only [nextR] at hE
      have hxb : x + xs.length + 1 ≤ n := by
        by_cases hxs : xs = []
        · subst hxs; have := hinc.2 x (by simp); simp; omega
        · have := hinc.tail.bound hxs; omega
      split at hE
      · cases hE
      · split at hE
        · cases hE
        · omega

end Verif.Mut
