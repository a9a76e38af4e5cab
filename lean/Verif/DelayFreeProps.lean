import Verif.DelayFree
import Verif.RedBlackThms

/-! # The delay queue as a list, oldest entry first -/
namespace Verif.DelayFree
open Verif

theorem W_big : (2 : Nat) ^ 33 < W := by decide

-- keeps the elaborator from computing with 2^64 in unary
attribute [local irreducible] W

/-- The entries of the queue, oldest first (some of them NULL). -/
def ring (q : Q) : List Ent := (q.list.take q.fill).drop q.head ++ (q.list.take q.fill).take q.head

/-- The blocks waiting in a list of entries. -/
def live (r : List Ent) : List Ent := r.filter fun e => decide (e.addr ≠ 0)

/-- Bytes waiting. -/
def total (r : List Ent) : Nat := ((live r).map (·.size)).sum

theorem total_append (a b : List Ent) : total (a ++ b) = total a + total b := by
  simp [total, live]

theorem total_cons (e : Ent) (b : List Ent) :
    total (e :: b) = (if e.addr = 0 then 0 else e.size) + total b := by
  unfold total live
  rw [List.filter_cons]
  by_cases h : e.addr = 0 <;> simp [h]

theorem live_append (a b : List Ent) : live (a ++ b) = live a ++ live b := by simp [live]

theorem live_cons (e : Ent) (b : List Ent) :
    live (e :: b) = if e.addr = 0 then live b else e :: live b := by
  unfold live
  rw [List.filter_cons]
  by_cases h : e.addr = 0 <;> simp [h]

theorem total_dead (x : Ent) (b : List Ent) : total (x.dead :: b) = total b := by
  rw [total_cons, if_pos (show x.dead.addr = 0 from rfl)]; omega

theorem live_dead (x : Ent) (b : List Ent) : live (x.dead :: b) = live b := by
  rw [live_cons, if_pos (show x.dead.addr = 0 from rfl)]

/-- Rotation of a full array. -/
def rot (l : List Ent) (h : Nat) : List Ent := l.drop h ++ l.take h

theorem rot_set_head (l : List Ent) (h : Nat) (e : Ent) (hh : h < l.length) :
    rot (l.set h e) (if h + 1 ≥ l.length then 0 else h + 1) = (rot l h).tail ++ [e] := by
  obtain ⟨a, x, b, rfl, rfl⟩ : ∃ a x b, l = a ++ x :: b ∧ h = a.length :=
    ⟨l.take h, l[h], l.drop (h + 1), by simp, by simp; omega⟩
  unfold rot
  rw [List.set_append_right _ _ (Nat.le_refl _)]
  simp only [Nat.sub_self, List.set_cons_zero, List.drop_left, List.take_left,
    List.cons_append, List.tail_cons]
  split
  · rename_i hc
    have : b = [] := by
      have : b.length = 0 := by simp only [List.length_append, List.length_cons, ge_iff_le] at hc; omega
      exact List.length_eq_zero_iff.1 this
    subst this
    simp
  · have e1 : a ++ e :: b = (a ++ [e]) ++ b := by simp
    rw [e1, List.drop_left' (by simp), List.take_left' (by simp)]
    simp

theorem rot_set (l : List Ent) (h i : Nat) (e : Ent) (hi : h ≤ i) (hl : i < l.length) :
    rot (l.set i e) h = (rot l h).set (i - h) e := by
  obtain ⟨a, b, rfl, rfl⟩ : ∃ a b, l = a ++ b ∧ h = a.length :=
    ⟨l.take h, l.drop h, by simp, by simp; omega⟩
  unfold rot
  rw [List.set_append_right _ _ hi, List.drop_left, List.take_left, List.drop_left, List.take_left,
    List.set_append_left]
  simp at hl; omega

/-- What the code maintains about the queue, whatever the calls. -/
structure SI (o : Opts) (q : Q) : Prop where
  len : q.list.length = o.delay
  hd : q.head < o.delay
  fl : q.fill ≤ o.delay
  nf : q.fill < o.delay → q.head = 0
  mx : o.maxsz < 2 ^ 32
  emp : q.fill = 0 → q.bytes = 0
  lim : q.bytes ≤ o.maxsz
  sum : total (ring q) ≤ q.bytes
  tr : RB.Inv q.tree

theorem ring_full {o : Opts} {q : Q} (hl : q.list.length = o.delay) (hf : q.fill = o.delay) :
    ring q = rot q.list q.head := by
  unfold ring rot
  rw [List.take_of_length_le (by omega)]

theorem ring_nf {q : Q} (hh : q.head = 0) : ring q = q.list.take q.fill := by
  unfold ring; rw [hh]; simp

theorem ring_length {o : Opts} {q : Q} (h : SI o q) : (ring q).length = q.fill := by
  unfold ring
  have := h.len
  have := h.fl
  simp only [List.length_append, List.length_drop, List.length_take]
  omega

/-- Slot `i`, from the head on, is entry `i - head` of the ring. -/
theorem ring_at {o : Opts} {q : Q} (h : SI o q) {i : Nat} (hi : q.head ≤ i) (hf : i < q.fill) :
    ∃ l r, ring q = l ++ q.at i :: r ∧ l.length = i - q.head ∧
      ∀ y ∈ l, ∃ j, q.head ≤ j ∧ j < i ∧ y = q.at j := by
  have hlen := h.len
  have hfl := h.fl
  have hat : ∀ j, j < q.fill → ∃ hj : j < (q.list.take q.fill).length,
      (q.list.take q.fill)[j] = q.at j := by
    intro j hj
    refine ⟨by simp; omega, ?_⟩
    unfold Q.at
    rw [List.getElem_take, List.getD_eq_getElem?_getD, List.getElem?_eq_getElem (by omega)]
    rfl
  obtain ⟨hi', e⟩ := hat i hf
  refine ⟨((q.list.take q.fill).take i).drop q.head, (q.list.take q.fill).drop (i + 1) ++
    (q.list.take q.fill).take q.head, ?_, ?_, ?_⟩
  · unfold ring
    have : q.list.take q.fill = (q.list.take q.fill).take i ++ q.at i ::
        (q.list.take q.fill).drop (i + 1) := by
      rw [← e]; rw [← List.drop_eq_getElem_cons hi', List.take_append_drop]
    have h2 : (q.list.take q.fill).drop q.head = ((q.list.take q.fill).take i).drop q.head ++
        q.at i :: (q.list.take q.fill).drop (i + 1) := by
      refine (congrArg (List.drop q.head) this).trans ?_
      rw [List.drop_append_of_le_length]
      simp; omega
    rw [h2]
    simp
  · simp; omega
  · intro y hy
    obtain ⟨k, hk, rfl⟩ := List.mem_iff_getElem.1 hy
    simp at hk
    refine ⟨q.head + k, by omega, by omega, ?_⟩
    obtain ⟨h1, e1⟩ := hat (q.head + k) (by omega)
    rw [← e1]
    simp

/-- Killing slot `i`, seen in the ring. -/
theorem ring_kill {o : Opts} {q : Q} (h : SI o q) {i : Nat} (hi : q.head ≤ i) (hf : i < q.fill)
    (l r : List Ent) (hr : ring q = l ++ q.at i :: r) (hl : l.length = i - q.head) (x : Ent) :
    ring { q with list := q.list.set i x } = l ++ x :: r := by
  have hlen := h.len
  have hfl := h.fl
  have key : ring { q with list := q.list.set i x } = (ring q).set (i - q.head) x := by
    unfold ring
    have e := rot_set (q.list.take q.fill) q.head i x hi (by simp; omega)
    unfold rot at e
    rw [← e]
    simp only [List.take_set]
  rw [key, hr, ← hl, List.set_append_right _ _ (Nat.le_refl _)]
  simp

/-- The effect of one `free`, in terms of the ring: what is passed on and the new ring and byte
count.  `e` is the entry of the block being freed. -/
inductive Step (o : Opts) (e : Ent) (R : List Ent) (B : Nat) :
    Nat × Nat → List Ent → Nat → Prop
  | now (h : o.delay = 0 ∨ e.size > o.maxsz ∨ B + e.size > o.maxsz) :
      Step o e R B (e.addr, e.aux) R B
  | add (hf : R.length < o.delay) (hb : B + e.size ≤ o.maxsz) :
      Step o e R B (0, e.aux) (R ++ [e]) (B + e.size)
  | turn (h : Ent) (T : List Ent) (hR : R = h :: T) (hf : R.length = o.delay)
      (hb : B + e.size ≤ o.maxsz) :
      Step o e R B (h.addr, h.aux) (T ++ [e])
        (B + e.size - (if h.addr = 0 then 0 else h.size))
  | swap (l r : List Ent) (x : Ent) (hR : R = l ++ x :: r) (hf : R.length < o.delay)
      (hx : x.addr ≠ 0) (hs : e.size ≤ x.size) (hl : ∀ y ∈ l, y.addr = 0 ∨ y.size < e.size)
      (he : e.size ≤ o.maxsz) (hb : B + e.size > o.maxsz) :
      Step o e R B (x.addr, e.aux) (l ++ x.dead :: r ++ [e]) (B + e.size - x.size)
  | squeeze (l r : List Ent) (x : Ent) (hR : R = l ++ x :: r) (hf : R.length = o.delay)
      (hx : x.addr ≠ 0) (hs : e.size ≤ x.size) (hl : ∀ y ∈ l, y.addr = 0 ∨ y.size < e.size)
      (he : e.size ≤ o.maxsz) (hb : B + e.size > o.maxsz) :
      Step o e R B (x.addr, x.aux) ((l ++ x.dead :: r).tail ++ [e])
        (B + e.size - x.size)

/-- The entry made for a freed block. -/
def ent (o : Opts) (m : Mal) (aux : Nat) : Ent := ⟨m.start o, m.tot o, aux, m.rz⟩

theorem search_spec {o : Opts} {q : Q} (h : SI o q) (tot : Nat) : ∀ n idx, q.head ≤ idx →
    (idx < q.fill) → q.fill < n + idx →
    (∀ j, q.head ≤ j → j < idx → (q.at j).addr = 0 ∨ (q.at j).size < tot) →
    search o q tot n idx = some none ∨ ∃ i, search o q tot n idx = some (some i) ∧
      q.head ≤ i ∧ i < q.fill ∧ (q.at i).addr ≠ 0 ∧ tot ≤ (q.at i).size ∧
      ∀ j, q.head ≤ j → j < i → (q.at j).addr = 0 ∨ (q.at j).size < tot := by
  intro n
  induction n with
  | zero => intro idx _ h2 h3; omega
  | succ n ih =>
    intro idx h1 h2 h3 h4
    unfold search
    split
    · rename_i hc
      exact .inr ⟨idx, rfl, h1, h2, hc.1, hc.2, h4⟩
    rename_i hc
    split
    · exact .inl rfl
    rename_i hf
    have := h.fl
    rw [if_neg (by omega : ¬ idx + 1 ≥ o.delay), if_neg (by omega : ¬ idx + 1 = q.head)]
    refine ih (idx + 1) (by omega) (by omega) (by omega) ?_
    intro j hj1 hj2
    by_cases e : j = idx
    · subst e
      by_cases h0 : (q.at j).addr = 0
      · exact .inl h0
      · right
        have : ¬ (q.at j).size ≥ tot := fun hh => hc ⟨h0, hh⟩
        omega
    · exact h4 j hj1 (by omega)

/-- `next_to_free` keeps the array, adjusts the byte count and returns the entry. -/
theorem nextToFree_spec {q : Q} (idx : Nat) (ht : RB.Inv q.tree) :
    ∃ t b, RB.Inv t ∧ nextToFree q idx = some ({ q with
        tree := t, bad := b,
        bytes := if (q.at idx).addr = 0 then q.bytes else (q.bytes + W - (q.at idx).size) % W },
      (q.at idx).addr, (q.at idx).aux) := by
  unfold nextToFree
  by_cases h0 : (q.at idx).addr = 0
  · refine ⟨q.tree, q.bad, ht, ?_⟩
    simp [h0]
  · rw [if_pos h0]
    simp only [if_neg h0]
    cases hf : RB.find (q.at idx).addr q.tree with
    | none => exact ⟨q.tree, true, ht, rfl⟩
    | some n =>
      obtain ⟨t', h1, h2⟩ := RB.delete_inv (q.at idx).addr ht
      refine ⟨t', q.bad, h2, ?_⟩
      simp [h1]

theorem store_spec {o : Opts} {q : Q} (m : Mal) (aux idx : Nat) (ht : RB.Inv q.tree) :
    ∃ t, RB.Inv t ∧ store o m aux idx q =
      some { q with tree := t, list := q.list.set idx (ent o m aux) } := by
  unfold store
  obtain ⟨r, h1, h2⟩ := RB.insert_inv o.dbg ⟨m.start o, m.tot o, idx⟩ ht
  exact ⟨r.1, h2, by rw [h1]; rfl⟩

/-- Storing into a queue that is not full. -/
theorem ring_push {o : Opts} {q : Q} (hlen : q.list.length = o.delay) (hh : q.head = 0)
    (hf : q.fill < o.delay) (e : Ent) (b : Nat) (t : RB.Tree) (bad : Bool) :
    ring ⟨q.list.set q.fill e, q.head, q.fill + 1, b, t, bad⟩ = ring q ++ [e] := by
  rw [ring_nf hh, ring_nf (by exact hh)]
  dsimp only
  rw [List.take_succ_eq_append_getElem (by simp; omega)]
  simp [List.take_set_of_le]

/-- Storing into a full queue. -/
theorem ring_turn {o : Opts} {q : Q} (hlen : q.list.length = o.delay) (hh : q.head < o.delay)
    (hf : q.fill = o.delay) (e : Ent) (b : Nat) (t : RB.Tree) (bad : Bool) :
    ring ⟨q.list.set q.head e, if q.head + 1 ≥ o.delay then 0 else q.head + 1, q.fill, b, t, bad⟩ =
      (ring q).tail ++ [e] := by
  have e1 : ring ⟨q.list.set q.head e, if q.head + 1 ≥ o.delay then 0 else q.head + 1, q.fill, b, t,
      bad⟩ = rot (q.list.set q.head e) (if q.head + 1 ≥ o.delay then 0 else q.head + 1) :=
    ring_full (o := o) (by simpa using hlen) hf
  rw [e1, ring_full (o := o) hlen hf, ← hlen]
  exact rot_set_head _ _ _ (by omega)

theorem ring_head {o : Opts} {q : Q} (h : SI o q) (hf : q.fill = o.delay) :
    ∃ T, ring q = q.at q.head :: T := by
  obtain ⟨l, r, h1, h2, -⟩ := ring_at h (Nat.le_refl q.head) (by have := h.hd; omega)
  have : l = [] := List.length_eq_zero_iff.1 (by omega)
  subst this
  exact ⟨r, h1⟩

theorem finish_nf {o : Opts} {q : Q} (m : Mal) (aux pass paux : Nat) (ht : RB.Inv q.tree)
    (hf : q.fill < o.delay) : ∃ t, RB.Inv t ∧ finish o m aux pass paux q =
      some (⟨q.list.set q.fill (ent o m aux), q.head, q.fill + 1, q.bytes, t, q.bad⟩, pass, aux) := by
  unfold finish
  rw [if_neg (by omega : ¬ q.fill = o.delay)]
  obtain ⟨t, h1, h2⟩ := store_spec (o := o) (q := { q with fill := q.fill + 1 }) m aux q.fill ht
  exact ⟨t, h1, by rw [h2]; rfl⟩

theorem finish_pass {o : Opts} {q : Q} (m : Mal) (aux pass paux : Nat) (ht : RB.Inv q.tree)
    (hf : q.fill = o.delay) (hp : pass ≠ 0) : ∃ t, RB.Inv t ∧ finish o m aux pass paux q =
      some (⟨q.list.set q.head (ent o m aux), if q.head + 1 ≥ o.delay then 0 else q.head + 1,
        q.fill, q.bytes, t, q.bad⟩, pass, paux) := by
  unfold finish
  rw [if_pos hf, if_neg hp]
  obtain ⟨t, h1, h2⟩ := store_spec (o := o)
    (q := { q with head := if q.head + 1 ≥ o.delay then 0 else q.head + 1 }) m aux q.head ht
  exact ⟨t, h1, by simp only [Option.bind_some]; rw [h2]; rfl⟩

theorem finish_head {o : Opts} {q : Q} (m : Mal) (aux paux : Nat) (ht : RB.Inv q.tree)
    (hf : q.fill = o.delay) : ∃ t bad, RB.Inv t ∧ finish o m aux 0 paux q =
      some (⟨q.list.set q.head (ent o m aux), if q.head + 1 ≥ o.delay then 0 else q.head + 1,
        q.fill, if (q.at q.head).addr = 0 then q.bytes else (q.bytes + W - (q.at q.head).size) % W,
        t, bad⟩, (q.at q.head).addr, (q.at q.head).aux) := by
  unfold finish
  rw [if_pos hf, if_pos rfl]
  obtain ⟨t, b, h1, h2⟩ := nextToFree_spec q.head ht
  rw [h2]
  simp only [Option.bind_some]
  obtain ⟨t', h3, h4⟩ := store_spec (o := o) (q := ⟨q.list,
    if q.head + 1 ≥ o.delay then 0 else q.head + 1, q.fill,
    if (q.at q.head).addr = 0 then q.bytes else (q.bytes + W - (q.at q.head).size) % W, t, b⟩)
    m aux q.head h1
  exact ⟨t', b, h3, by rw [h4]; rfl⟩

theorem sub_mod {a b : Nat} (h : b ≤ a) (ha : a < W) : (a + W - b) % W = a - b := by
  have : a + W - b = (a - b) + W := by omega
  rw [this, Nat.add_mod_right, Nat.mod_eq_of_lt (by omega)]

theorem head_step {o : Opts} {h : Nat} (hh : h < o.delay) :
    (if h + 1 ≥ o.delay then 0 else h + 1) < o.delay := by
  split <;> omega

/-- The code does one `Step` and keeps its invariant: no loop runs forever, no tree operation
follows NIL, the byte count stays within the limit and above what is waiting. -/
theorem handleFree_step {o : Opts} {q : Q} (h : SI o q) (m : Mal) (aux : Nat) :
    ∃ q' ret, handleFree o m aux q = some (q', ret) ∧ SI o q' ∧
      Step o (ent o m aux) (ring q) q.bytes ret (ring q') q'.bytes := by
  obtain ⟨hlen, hhd, hfl, hnf, hmx, hemp, hlim, hsum, htr⟩ := id h
  unfold handleFree
  rw [if_neg (by omega : ¬ o.delay = 0)]
  split
  · rename_i hc
    exact ⟨q, _, rfl, h, .now (.inr (.inl hc))⟩
  rename_i hsz
  have hW : (2 : Nat) ^ 33 < W := W_big
  have h33 : (2 : Nat) ^ 33 = 2 ^ 32 + 2 ^ 32 := by decide
  have hmod : (q.bytes + m.tot o) % W = q.bytes + m.tot o := Nat.mod_eq_of_lt (by omega)
  have hes : (ent o m aux).size = m.tot o := rfl
  rw [hmod]
  split
  · rename_i hov
    have hfill : q.fill ≠ 0 := by
      intro h0
      have := hemp h0
      omega
    have hhf : q.head < q.fill := by
      rcases Nat.lt_or_ge q.fill o.delay with hf | hf
      · have := hnf hf; omega
      · omega
    rcases search_spec h (m.tot o) (q.fill + 1) q.head (Nat.le_refl _) hhf (by omega)
      (fun j h1 h2 => by omega) with hs | ⟨i, hs, hi1, hi2, hi3, hi4, hi5⟩
    · rw [hs]
      exact ⟨q, _, rfl, h, .now (.inr (.inr hov))⟩
    rw [hs]
    obtain ⟨t, b, ht, hn⟩ := nextToFree_spec (q := { q with bytes := q.bytes + m.tot o }) i htr
    obtain ⟨l, r, hR, hl, hlm⟩ := ring_at h hi1 hi2
    have hl' : ∀ y ∈ l, y.addr = 0 ∨ y.size < (ent o m aux).size := by
      intro y hy
      obtain ⟨j, h1, h2, rfl⟩ := hlm y hy
      exact hi5 j h1 h2
    have hat : ({ q with bytes := q.bytes + m.tot o } : Q).at i = q.at i := rfl
    simp only [hat, if_neg hi3] at hn
    have hs := hsum
    rw [hR, total_append, total_cons, if_neg hi3] at hs
    rw [sub_mod (by omega) (by omega)] at hn
    simp only [hn, Option.bind_some]
    have hK := ring_kill h hi1 hi2 l r hR hl (q.at i).dead
    have hB : q.bytes + (ent o m aux).size > o.maxsz := hov
    have hlenR := ring_length h
    have t0 : total [] = 0 := rfl
    generalize hq2 : (⟨q.list.set i (q.at i).dead, q.head, q.fill, q.bytes + m.tot o -
      (q.at i).size, t, b || decide (o.maxsz < q.bytes + m.tot o - (q.at i).size)⟩ : Q) = q2
    have hK2 : ring q2 = l ++ (q.at i).dead :: r := by rw [← hq2, ← hK]; rfl
    have f1 : q2.list.length = o.delay := by rw [← hq2]; simpa using hlen
    have f2 : q2.head = q.head := by rw [← hq2]
    have f3 : q2.fill = q.fill := by rw [← hq2]
    have f4 : q2.bytes = q.bytes + m.tot o - (q.at i).size := by rw [← hq2]
    have f5 : RB.Inv q2.tree := by rw [← hq2]; exact ht
    rcases Nat.lt_or_ge q.fill o.delay with hf | hf
    · obtain ⟨t', h1, h2⟩ := finish_nf (o := o) (q := q2) m aux (q.at i).addr (q.at i).aux f5 (by omega)
      have hr := ring_push f1 (by rw [f2]; exact hnf hf) (by omega) (ent o m aux) q2.bytes t' q2.bad
      rw [hK2] at hr
      refine ⟨_, _, h2, ⟨by simpa using f1, by rw [← f2] at hhd; exact hhd, by dsimp only; omega,
        fun _ => by dsimp only; rw [f2]; exact hnf hf, hmx,
        fun hc => absurd hc (by dsimp only; omega), by dsimp only; omega, ?_, h1⟩, ?_⟩
      · rw [hr, total_append, total_append, total_dead, total_cons]
        dsimp only
        split <;> omega
      · rw [hr]
        dsimp only
        rw [f4]
        exact .swap l r (q.at i) hR (by omega) hi3 hi4 hl' (by omega) hB
    · have hf : q.fill = o.delay := by omega
      obtain ⟨t', h1, h2⟩ := finish_pass (o := o) (q := q2) m aux (q.at i).addr (q.at i).aux f5 (by omega) hi3
      have hr := ring_turn f1 (by omega) (by omega) (ent o m aux) q2.bytes t' q2.bad
      rw [hK2] at hr
      refine ⟨_, _, h2, ⟨by simpa using f1, head_step (by omega), by dsimp only; omega,
        fun hc => absurd hc (by dsimp only; omega), hmx,
        fun hc => absurd hc (by dsimp only; omega), by dsimp only; omega, ?_, h1⟩, ?_⟩
      · rw [hr, total_append, total_cons]
        dsimp only
        have : total (l ++ (q.at i).dead :: r).tail ≤ total l + total r := by
          cases l with
          | nil => simp
          | cons y l =>
            rw [List.cons_append, List.tail_cons, total_append, total_dead, total_cons]
            omega
        have hif : (if (ent o m aux).addr = 0 then 0 else (ent o m aux).size) ≤ m.tot o := by
          split <;> omega
        omega
      · rw [hr]
        dsimp only
        rw [f4]
        exact .squeeze l r (q.at i) hR (by omega) hi3 hi4 hl' (by omega) hB
  · rename_i hfit
    have hB : q.bytes + (ent o m aux).size ≤ o.maxsz := by omega
    rcases Nat.lt_or_ge q.fill o.delay with hf | hf
    · obtain ⟨t, h1, h2⟩ := finish_nf (q := { q with bytes := q.bytes + m.tot o }) m aux 0 0 htr hf
      have hr := ring_push hlen (hnf hf) hf (ent o m aux) (q.bytes + m.tot o) t q.bad
      refine ⟨_, _, h2, ⟨by simpa using hlen, hhd, by dsimp only; omega, fun _ => hnf hf, hmx,
        fun hc => absurd hc (by dsimp only; omega), by dsimp only; omega, ?_, h1⟩, ?_⟩
      · rw [hr, total_append, total_cons]
        have : total [] = 0 := rfl
        dsimp only
        split <;> omega
      · rw [hr]
        exact .add (by rw [ring_length h]; exact hf) hB
    · have hf : q.fill = o.delay := by omega
      obtain ⟨t, bad, h1, h2⟩ :=
        finish_head (q := { q with bytes := q.bytes + m.tot o }) m aux 0 htr hf
      obtain ⟨T, hT⟩ := ring_head h hf
      have hat : ({ q with bytes := q.bytes + m.tot o } : Q).at q.head = q.at q.head := rfl
      simp only [hat] at h2
      have hs := hsum
      rw [hT, total_cons] at hs
      have hbe : (if (q.at q.head).addr = 0 then q.bytes + m.tot o
          else (q.bytes + m.tot o + W - (q.at q.head).size) % W) =
          q.bytes + m.tot o - (if (q.at q.head).addr = 0 then 0 else (q.at q.head).size) := by
        split
        · omega
        · rename_i h0
          rw [if_neg h0] at hs
          exact sub_mod (by omega) (by omega)
      rw [hbe] at h2
      have hr := ring_turn hlen hhd hf (ent o m aux) (q.bytes + m.tot o -
        (if (q.at q.head).addr = 0 then 0 else (q.at q.head).size)) t bad
      rw [hT, List.tail_cons] at hr
      refine ⟨_, _, h2, ⟨by simpa using hlen, head_step hhd, by dsimp only; omega,
        fun hc => absurd hf (by dsimp only at hc; omega), hmx,
        fun hc => absurd hc (by dsimp only; omega), by dsimp only; omega, ?_, h1⟩, ?_⟩
      · rw [hr, total_append, total_cons]
        have : total [] = 0 := rfl
        dsimp only
        split <;> split <;> simp_all <;> omega
      · rw [hr]
        exact .turn _ T hT (by rw [ring_length h]; exact hf) hB

/-! ## The interval tree -/

/-- The tree is well formed, holds no block at NULL, and every waiting block (outside the slots
`ex`) is in it, pointing back to its slot. -/
structure TI (ex : Nat → Prop) (q : Q) : Prop where
  val : RB.Valid q.tree
  nz : ∀ x ∈ RB.toList q.tree, x.base ≠ 0
  idx : ∀ i, i < q.fill → ¬ ex i → (q.at i).addr ≠ 0 →
    (⟨(q.at i).addr, (q.at i).size, i⟩ : RB.Ent) ∈ RB.toList q.tree

/-- Nothing excluded. -/
def noEx : Nat → Prop := fun _ => False

/-- The block is a proper interval that meets no interval of the tree. -/
structure Fresh (o : Opts) (m : Mal) (t : RB.Tree) : Prop where
  pos : m.start o ≠ 0
  good : RB.Good ⟨m.start o, m.tot o, 0⟩
  apart : ∀ x ∈ RB.toList t, ¬ RB.Overlap ⟨m.start o, m.tot o, 0⟩ x

theorem at_set (l : List Ent) (h f b : Nat) (t : RB.Tree) (bad : Bool) (i j : Nat) (e : Ent)
    (hi : i < l.length) : (⟨l.set i e, h, f, b, t, bad⟩ : Q).at j =
      if j = i then e else l.getD j noEnt := by
  unfold Q.at
  dsimp only
  by_cases hij : j = i
  · subst hij
    rw [if_pos rfl, List.getD_eq_getElem?_getD, List.getElem?_set_self hi]
    rfl
  · rw [if_neg hij, List.getD_eq_getElem?_getD, List.getElem?_set_ne (fun h => hij h.symm),
      List.getD_eq_getElem?_getD]

theorem at_congr {q q' : Q} (h : q'.list = q.list) (i : Nat) : q'.at i = q.at i := by
  unfold Q.at; rw [h]

theorem TI.congr {ex : Nat → Prop} {q q' : Q} (h : TI ex q) (hl : q'.list = q.list)
    (hf : q'.fill = q.fill) (ht : q'.tree = q.tree) : TI ex q' := by
  refine ⟨by rw [ht]; exact h.val, by rw [ht]; exact h.nz, ?_⟩
  intro i hi he ha
  rw [at_congr hl] at ha ⊢
  rw [ht]
  rw [hf] at hi
  exact h.idx i hi he ha

/-- Two slots never hold the same address. -/
theorem TI.inj {ex : Nat → Prop} {q : Q} (h : TI ex q) {i j : Nat} (hi : i < q.fill)
    (hj : j < q.fill) (ei : ¬ ex i) (ej : ¬ ex j) (ai : (q.at i).addr ≠ 0)
    (e : (q.at i).addr = (q.at j).addr) : i = j := by
  by_cases hij : i = j
  · exact hij
  exfalso
  have m1 := h.idx i hi ei ai
  have m2 := h.idx j hj ej (by rw [← e]; exact ai)
  refine h.val.disj _ m1 _ m2 (fun hc => hij (congrArg RB.Ent.client hc)) ?_
  refine ⟨(q.at i).addr, ⟨Nat.le_refl _, ?_⟩, ⟨?_, ?_⟩⟩
  · have := (h.val.good _ m1).1; dsimp only at this ⊢; omega
  · dsimp only; omega
  · have := (h.val.good _ m2).1; dsimp only at this ⊢; omega

/-- `next_to_free` in a consistent state: no assertion fails and exactly the block's node goes. -/
theorem nextToFree_tree {q : Q} (h : TI noEx q) {idx : Nat} (hi : idx < q.fill) :
    ∃ t B, nextToFree q idx = some (⟨q.list, q.head, q.fill, B, t, q.bad⟩,
        (q.at idx).addr, (q.at idx).aux) ∧
      B = (if (q.at idx).addr = 0 then q.bytes else (q.bytes + W - (q.at idx).size) % W) ∧
      TI (fun j => j = idx) ⟨q.list, q.head, q.fill, B, t, q.bad⟩ ∧
      ∀ x, x ∈ RB.toList t ↔ x ∈ RB.toList q.tree ∧ x.base ≠ (q.at idx).addr := by
  unfold nextToFree
  by_cases h0 : (q.at idx).addr = 0
  · refine ⟨q.tree, q.bytes, by simp [h0], by rw [if_pos h0], ⟨h.val, h.nz, fun i hi _ => h.idx i hi id⟩, ?_⟩
    · intro x
      rw [h0]
      exact ⟨fun hx => ⟨hx, h.nz x hx⟩, fun hx => hx.1⟩
  · rw [if_pos h0]
    simp only [if_neg h0]
    generalize (q.bytes + W - (q.at idx).size) % W = B
    have hm := h.idx idx hi id h0
    rw [(RB.C15_find _ _ h.val).2 ⟨hm, rfl⟩]
    obtain ⟨t', h1, h2, h3⟩ := RB.C15_delete (q.at idx).addr h.val
    refine ⟨t', B, by simp [h1], rfl, ⟨h2, fun x hx => h.nz x ((h3 x).1 hx).1, ?_⟩, h3⟩
    intro i hi' hne ha
    have hat := at_congr (q' := ⟨q.list, q.head, q.fill, B, t', q.bad⟩) (q := q) rfl i
    rw [hat] at ha ⊢
    exact (h3 _).2 ⟨h.idx i hi' id ha, fun hc => hne (h.inj hi' hi id id ha hc)⟩

/-- Storing a fresh block. -/
theorem store_tree {o : Opts} {q : Q} {ex : Nat → Prop} (m : Mal) (aux idx : Nat)
    (h : TI ex q) (hfr : Fresh o m q.tree) (hex : ∀ i, ex i → i = idx) (hlt : idx < q.list.length) :
    ∃ t, store o m aux idx q = some ⟨q.list.set idx (ent o m aux), q.head, q.fill, q.bytes, t, q.bad⟩ ∧
      TI noEx ⟨q.list.set idx (ent o m aux), q.head, q.fill, q.bytes, t, q.bad⟩ ∧
      ∀ x, x ∈ RB.toList t ↔ x = ⟨m.start o, m.tot o, idx⟩ ∨ x ∈ RB.toList q.tree := by
  obtain ⟨t, h1, h2, h3⟩ := RB.C15_insert_fresh (d := o.dbg) (n := ⟨m.start o, m.tot o, idx⟩) h.val
    hfr.good hfr.apart
  refine ⟨t, ?_, ⟨h2, ?_, ?_⟩, h3⟩
  · unfold store
    rw [h1]; rfl
  · intro x hx
    rcases (h3 x).1 hx with rfl | hx
    · exact hfr.pos
    · exact h.nz x hx
  · intro i hi _ ha
    rw [at_set _ _ _ _ _ _ _ _ _ hlt] at ha ⊢
    by_cases hij : i = idx
    · subst hij
      rw [if_pos rfl]
      exact (h3 _).2 (.inl rfl)
    · rw [if_neg hij] at ha ⊢
      exact (h3 _).2 (.inr (h.idx i hi (fun hc => hij (hex i hc)) ha))

/-- What the tree holds, forgetting the back pointers. -/
def holds (t : RB.Tree) (b s : Nat) : Prop := ∃ c, (⟨b, s, c⟩ : RB.Ent) ∈ RB.toList t

theorem Fresh.mono {o : Opts} {m : Mal} {t t' : RB.Tree} (h : Fresh o m t)
    (hs : ∀ x ∈ RB.toList t', x ∈ RB.toList t) : Fresh o m t' :=
  ⟨h.pos, h.good, fun x hx => h.apart x (hs x hx)⟩

/-- A fresh block starts at no address of the tree. -/
theorem Fresh.ne {o : Opts} {m : Mal} {t : RB.Tree} (h : Fresh o m t) (hv : RB.Valid t)
    {x : RB.Ent} (hx : x ∈ RB.toList t) : x.base ≠ m.start o := by
  intro hc
  refine h.apart x hx ⟨m.start o, ⟨Nat.le_refl _, ?_⟩, ⟨by omega, ?_⟩⟩
  · have := h.good.1; dsimp only at this ⊢; omega
  · have := (hv.good x hx).1; omega

theorem holds_store {t t' : RB.Tree} {s z i : Nat}
    (h : ∀ x, x ∈ RB.toList t' ↔ x = ⟨s, z, i⟩ ∨ x ∈ RB.toList t) (b k : Nat) :
    holds t' b k ↔ (b = s ∧ k = z) ∨ holds t b k := by
  unfold holds
  constructor
  · rintro ⟨c, hc⟩
    rcases (h _).1 hc with e | hm
    · left
      exact ⟨congrArg RB.Ent.base e, congrArg RB.Ent.size e⟩
    · exact .inr ⟨c, hm⟩
  · rintro (⟨rfl, rfl⟩ | ⟨c, hc⟩)
    · exact ⟨i, (h _).2 (.inl rfl)⟩
    · exact ⟨c, (h _).2 (.inr hc)⟩

/-- `finish` with the head made free. -/
theorem finish_tree_head {o : Opts} {q : Q} (m : Mal) (aux paux : Nat) (hlen : q.list.length = o.delay)
    (hh : q.head < o.delay) (ht : TI noEx q) (hfr : Fresh o m q.tree) (hf : q.fill = o.delay)
    {q' : Q} {ret : Nat × Nat} (hr : finish o m aux 0 paux q = some (q', ret)) :
    TI noEx q' ∧ q'.bad = q.bad ∧ ret.1 = (q.at q.head).addr ∧ ∀ b s, holds q'.tree b s ↔
      (b = m.start o ∧ s = m.tot o) ∨ (b ≠ ret.1 ∧ holds q.tree b s) := by
  unfold finish at hr
  rw [if_pos hf, if_pos rfl] at hr
  obtain ⟨t, B, h1, -, h2, h3⟩ := nextToFree_tree ht (show q.head < q.fill by omega)
  rw [h1] at hr
  simp only [Option.bind_some] at hr
  have h2' : TI (fun j => j = q.head) ⟨q.list, if q.head + 1 ≥ o.delay then 0 else q.head + 1, q.fill,
      B, t, q.bad⟩ :=
    ⟨h2.val, h2.nz, h2.idx⟩
  obtain ⟨t', h4, h5, h6⟩ := store_tree (o := o) m aux q.head h2'
    (hfr.mono fun x hx => ((h3 x).1 hx).1) (fun i hi => hi) (by dsimp only; omega)
  rw [h4] at hr
  simp only [Option.map_some, Option.some.injEq] at hr
  obtain ⟨rfl, rfl⟩ := Prod.mk.inj hr
  refine ⟨h5, rfl, rfl, fun b s => ?_⟩
  rw [holds_store h6 b s]
  have : holds t b s ↔ b ≠ (q.at q.head).addr ∧ holds q.tree b s := by
    unfold holds
    constructor
    · rintro ⟨c, hc⟩
      exact ⟨((h3 _).1 hc).2, c, ((h3 _).1 hc).1⟩
    · rintro ⟨hb, c, hc⟩
      exact ⟨c, (h3 _).2 ⟨hc, hb⟩⟩
  rw [this]

/-- `finish` when a block has already been given up, or there is room. -/
theorem finish_tree_pass {o : Opts} {q : Q} (m : Mal) (aux pass paux : Nat)
    (hlen : q.list.length = o.delay) (hh : q.head < o.delay) (hfl : q.fill ≤ o.delay)
    (ht : TI noEx q) (hfr : Fresh o m q.tree)
    (hp : q.fill = o.delay → pass ≠ 0)
    {q' : Q} {ret : Nat × Nat} (hr : finish o m aux pass paux q = some (q', ret)) :
    TI noEx q' ∧ q'.bad = q.bad ∧ ret.1 = pass ∧ ∀ b s, holds q'.tree b s ↔
      (b = m.start o ∧ s = m.tot o) ∨ holds q.tree b s := by
  unfold finish at hr
  by_cases hf : q.fill = o.delay
  · rw [if_pos hf, if_neg (hp hf)] at hr
    simp only [Option.bind_some] at hr
    have h2' : TI noEx ⟨q.list, if q.head + 1 ≥ o.delay then 0 else q.head + 1, q.fill, q.bytes,
      q.tree, q.bad⟩ := ⟨ht.val, ht.nz, ht.idx⟩
    obtain ⟨t', h4, h5, h6⟩ := store_tree (o := o) m aux q.head h2' hfr (fun i hi => hi.elim)
      (by dsimp only; omega)
    rw [h4] at hr
    simp only [Option.map_some, Option.some.injEq] at hr
    obtain ⟨rfl, rfl⟩ := Prod.mk.inj hr
    exact ⟨h5, rfl, rfl, fun b s => holds_store h6 b s⟩
  · rw [if_neg hf] at hr
    have h2' : TI (fun j => j = q.fill) ⟨q.list, q.head, q.fill + 1, q.bytes, q.tree, q.bad⟩ :=
      ⟨ht.val, ht.nz, fun i hi hne => ht.idx i (by dsimp only at hi; omega) id⟩
    obtain ⟨t', h4, h5, h6⟩ := store_tree (o := o) m aux q.fill h2' hfr (fun i hi => hi)
      (by dsimp only; omega)
    rw [h4] at hr
    simp only [Option.map_some, Option.some.injEq] at hr
    obtain ⟨rfl, rfl⟩ := Prod.mk.inj hr
    exact ⟨h5, rfl, rfl, fun b s => holds_store h6 b s⟩

/-- One `free` of a fresh block keeps the tree in step with the queue; no assertion fails. -/
theorem handleFree_tree {o : Opts} {q : Q} (h : SI o q) (ht : TI noEx q) {m : Mal} {aux : Nat}
    (hfr : Fresh o m q.tree) {q' : Q} {ret : Nat × Nat}
    (hr : handleFree o m aux q = some (q', ret)) :
    TI noEx q' ∧ q'.bad = q.bad ∧ ((ret.1 = m.start o ∧ q' = q) ∨
      (ret.1 ≠ m.start o ∧ ∀ b s, holds q'.tree b s ↔
        (b = m.start o ∧ s = m.tot o) ∨ (b ≠ ret.1 ∧ holds q.tree b s))) := by
  obtain ⟨hlen, hhd, hfl, hnf, hmx, hemp, hlim, hsum, htr⟩ := id h
  unfold handleFree at hr
  rw [if_neg (by omega : ¬ o.delay = 0)] at hr
  split at hr
  · simp only [Option.some.injEq] at hr
    obtain ⟨rfl, rfl⟩ := Prod.mk.inj hr
    exact ⟨ht, rfl, .inl ⟨rfl, rfl⟩⟩
  rename_i hsz
  have hW : (2 : Nat) ^ 33 < W := W_big
  have h33 : (2 : Nat) ^ 33 = 2 ^ 32 + 2 ^ 32 := by decide
  have hmod : (q.bytes + m.tot o) % W = q.bytes + m.tot o := Nat.mod_eq_of_lt (by omega)
  rw [hmod] at hr
  split at hr
  · rename_i hov
    have hfill : q.fill ≠ 0 := by
      intro h0
      have := hemp h0
      omega
    have hhf : q.head < q.fill := by
      rcases Nat.lt_or_ge q.fill o.delay with hf | hf
      · have := hnf hf; omega
      · omega
    rcases search_spec h (m.tot o) (q.fill + 1) q.head (Nat.le_refl _) hhf (by omega)
      (fun j h1 h2 => by omega) with hs | ⟨i, hs, hi1, hi2, hi3, hi4, hi5⟩
    · rw [hs] at hr
      simp only [Option.some.injEq] at hr
      obtain ⟨rfl, rfl⟩ := Prod.mk.inj hr
      exact ⟨ht, rfl, .inl ⟨rfl, rfl⟩⟩
    rw [hs] at hr
    have ht1 : TI noEx ⟨q.list, q.head, q.fill, q.bytes + m.tot o, q.tree, q.bad⟩ :=
      ht.congr rfl rfl rfl
    obtain ⟨t, B, h1, hB, h2, h3⟩ := nextToFree_tree ht1 hi2
    have hat : (⟨q.list, q.head, q.fill, q.bytes + m.tot o, q.tree, q.bad⟩ : Q).at i = q.at i :=
      at_congr rfl i
    simp only [hat, if_neg hi3] at h1 hB h3
    obtain ⟨l, r, hR, hl, hlm⟩ := ring_at h hi1 hi2
    have hs' := hsum
    rw [hR, total_append, total_cons, if_neg hi3] at hs'
    rw [sub_mod (by omega) (by omega)] at hB
    subst hB
    simp only [h1, Option.bind_some] at hr
    have hd : decide (o.maxsz < q.bytes + m.tot o - (q.at i).size) = false := by
      simp; omega
    rw [hd, Bool.or_false] at hr
    have ht2 : TI noEx ⟨q.list.set i (q.at i).dead, q.head, q.fill,
        q.bytes + m.tot o - (q.at i).size, t, q.bad⟩ := by
      refine ⟨h2.val, h2.nz, fun j hj _ ha => ?_⟩
      rw [at_set _ _ _ _ _ _ _ _ _ (by dsimp only at hj; omega)] at ha ⊢
      by_cases hij : j = i
      · rw [if_pos hij] at ha
        exact absurd rfl ha
      · rw [if_neg hij] at ha ⊢
        exact h2.idx j hj hij ha
    obtain ⟨g1, g2, g3, g4⟩ := finish_tree_pass (o := o)
      (q := ⟨q.list.set i (q.at i).dead, q.head, q.fill, q.bytes + m.tot o - (q.at i).size, t, q.bad⟩)
      m aux (q.at i).addr (q.at i).aux
      (by simpa using hlen) hhd hfl ht2 (hfr.mono fun x hx => ((h3 x).1 hx).1) (fun _ => hi3) hr
    refine ⟨g1, g2, .inr ⟨?_, fun b s => ?_⟩⟩
    · rw [g3]
      exact hfr.ne ht.val (ht.idx i hi2 id hi3)
    · rw [g4 b s, g3]
      have : holds t b s ↔ b ≠ (q.at i).addr ∧ holds q.tree b s := by
        unfold holds
        constructor
        · rintro ⟨c, hc⟩
          exact ⟨((h3 _).1 hc).2, c, ((h3 _).1 hc).1⟩
        · rintro ⟨hb, c, hc⟩
          exact ⟨c, (h3 _).2 ⟨hc, hb⟩⟩
      dsimp only
      rw [this]
  · have ht1 : TI noEx ⟨q.list, q.head, q.fill, q.bytes + m.tot o, q.tree, q.bad⟩ :=
      ht.congr rfl rfl rfl
    rcases Nat.lt_or_ge q.fill o.delay with hf | hf
    · obtain ⟨g1, g2, g3, g4⟩ := finish_tree_pass (o := o)
        (q := ⟨q.list, q.head, q.fill, q.bytes + m.tot o, q.tree, q.bad⟩) m aux 0 0 hlen hhd hfl ht1 hfr
        (fun hc => absurd hc (by dsimp only; omega)) hr
      refine ⟨g1, g2, .inr ⟨by rw [g3]; exact hfr.pos.symm, fun b s => ?_⟩⟩
      rw [g4 b s, g3]
      constructor
      · rintro (e | ⟨c, hc⟩)
        · exact .inl e
        · exact .inr ⟨ht.nz _ hc, c, hc⟩
      · rintro (e | ⟨-, hc⟩)
        · exact .inl e
        · exact .inr hc
    · obtain ⟨g1, g2, g3, g4⟩ := finish_tree_head (o := o)
        (q := ⟨q.list, q.head, q.fill, q.bytes + m.tot o, q.tree, q.bad⟩) m aux 0 hlen hhd ht1 hfr
        (by dsimp only; omega) hr
      refine ⟨g1, g2, .inr ⟨?_, g4⟩⟩
      rw [g3]
      by_cases h0 : (q.at q.head).addr = 0
      · intro hc
        exact hfr.pos (hc.symm.trans h0)
      · exact hfr.ne ht.val (ht.idx q.head (by omega) id h0)

end Verif.DelayFree
